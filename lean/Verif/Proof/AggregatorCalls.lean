import Verif.Proof.AggregatorFacts

/-!
# Facts about complete calls of the aggregator API
-/

set_option linter.unusedSectionVars false

namespace PF.Agg
open PF PF.MT PF.Spec
variable {p q : Nat} {G : Type} [AddCommGroup G] [Module (ZMod q) G] [DecidableEq G]
variable {b : Build} {cv : Curve p q G} {hs : Hashes p} {rollup : G}

theorem sig_ok {s s' : State p q G} {c : Nat → UTXO Nat G} {sc : Nat → G} (h : Inv cv hs s c sc)
    {l : List (Pair q G)} (hf : (Op.signatures rollup l).Fits s)
    (hr : processSignatures b cv hs rollup l s = (s', .ok ())) :
    ∃ c' sc', Runs b cv hs rollup (txRoot cv hs s) 0 l s c sc s' c' sc' ∧ Inv cv hs s' c' sc' ∧
      l.length ≤ s.transactions.length := by
  rcases processFrom_spec (b := b) (rollup := rollup) l 0 s h h.root hf.1 hf.2 with
    ⟨s1, c', sc', e1, e2, e3, e4⟩ | ⟨s1, c', sc', e, e1, _⟩ | ⟨e1, _⟩
  · unfold processSignatures at hr
    rw [e1] at hr
    simp only [Prod.mk.injEq, and_true] at hr
    subst hr
    exact ⟨c', sc', e3, e4, by simpa using e2⟩
  · unfold processSignatures at hr; rw [e1] at hr; simp at hr
  · unfold processSignatures at hr; rw [hr] at e1; simp at e1

theorem sig_err {s s' : State p q G} {c : Nat → UTXO Nat G} {sc : Nat → G} (h : Inv cv hs s c sc)
    {l : List (Pair q G)} (hf : (Op.signatures rollup l).Fits s) {e : AggError}
    (hr : processSignatures b cv hs rollup l s = (s', .err e)) :
    ∃ done x rest s1 c1 sc1 c' sc', l = done ++ x :: rest ∧ done.length < s.transactions.length ∧
      processSignatures b cv hs rollup done s = (s1, .ok ()) ∧ Inv cv hs s1 c1 sc1 ∧
      Runs b cv hs rollup (txRoot cv hs s) 0 done s c sc s1 c1 sc1 ∧
      Fails cv hs rollup (txRoot cv hs s) done.length x s1 c1 sc1 e s' c' sc' ∧ Inv cv hs s' c' sc' := by
  rcases processFrom_spec (b := b) (rollup := rollup) l 0 s h h.root hf.1 hf.2 with
    ⟨s1, c', sc', e1, e2, e3, e4⟩ |
    ⟨s1, c', sc', e', e1, ⟨dn, x, rs, s2, c2, sc2, e2, e3, e4, e5, e6, e7⟩, e8⟩ | ⟨e1, _⟩
  · unfold processSignatures at hr; rw [e1] at hr; simp at hr
  · unfold processSignatures at hr
    rw [e1] at hr
    simp only [Prod.mk.injEq, Outcome.err.injEq] at hr
    obtain ⟨rfl, rfl⟩ := hr
    simp only [Nat.zero_add] at e3 e7
    exact ⟨dn, x, rs, s2, c2, sc2, c', sc', e2, e3, e4, e5, e6, e7, e8⟩
  · unfold processSignatures at hr; rw [hr] at e1; simp at e1

theorem sig_panic {s : State p q G} {c : Nat → UTXO Nat G} {sc : Nat → G} (h : Inv cv hs s c sc)
    {l : List (Pair q G)} (hf : (Op.signatures rollup l).Fits s)
    (hr : (processSignatures b cv hs rollup l s).2 = .panic) :
    ∃ done x rest s1 c1 sc1, l = done ++ x :: rest ∧
      processSignatures b cv hs rollup done s = (s1, .ok ()) ∧
      Runs b cv hs rollup (txRoot cv hs s) 0 done s c sc s1 c1 sc1 ∧ Inv cv hs s1 c1 sc1 ∧
      (s.transactions.length ≤ done.length ∨
        Overflows b cv hs rollup (txRoot cv hs s) done.length x s1 c1) := by
  rcases processFrom_spec (b := b) (rollup := rollup) l 0 s h h.root hf.1 hf.2 with
    ⟨s1, c', sc', e1, e2, e3, e4⟩ | ⟨s1, c', sc', e', e1, _⟩ |
    ⟨e1, dn, x, rs, s2, c2, sc2, e2, e3, e4, e5, e6⟩
  · unfold processSignatures at hr; rw [e1] at hr; simp at hr
  · unfold processSignatures at hr; rw [e1] at hr; simp at hr
  · simp only [Nat.zero_add] at e6
    exact ⟨dn, x, rs, s2, c2, sc2, e2, e3, e4, e5, e6⟩

theorem fits_prefix {s : State p q G} {l l' : List (Pair q G)}
    (hf : (Op.signatures rollup (l ++ l')).Fits s) : (Op.signatures rollup l).Fits s := by
  obtain ⟨h1, h2⟩ := hf
  simp only [List.length_append] at h1 h2
  refine ⟨by omega, ?_⟩
  rw [show TX_IO_SIZE = 4 from rfl] at h2 ⊢
  omega

theorem txRoot_congr {s s' : State p q G} (h : s'.transactions = s.transactions) :
    txRoot cv hs s' = txRoot cv hs s := by unfold txRoot; rw [h]

/-- The pair after a successful prefix. -/
theorem sig_snoc {s s1 : State p q G} {l : List (Pair q G)} {x : Pair q G}
    (h1 : processSignatures b cv hs rollup l s = (s1, .ok ())) :
    processSignatures b cv hs rollup (l ++ [x]) s = processOne b cv hs rollup l.length x.1 x.2 s1 := by
  unfold processSignatures at *
  rw [processFrom_append, SM.bind_of_ok h1, processFrom_cons]
  simp only [Nat.zero_add, processFrom]
  unfold SM.bind SM.pure
  rcases processOne b cv hs rollup l.length x.1 x.2 s1 with ⟨s2, a | e | _⟩ <;> rfl

theorem Deleted.live_eq {s s' : State p q G} {c c' : Nat → UTXO Nat G} {sc sc' : Nat → G}
    (h : Inv cv hs s c sc) (h' : Inv cv hs s' c' sc') {us : List (UTXO Nat G)}
    {ds : List (ZMod p × List (ZMod p))} (hd : Deleted cv hs rollup us ds c c') {v : UTXO Nat G}
    (hv : v.isDummy = false) : live s' v + (us.filter (·.onLedger rollup)).count v = live s v := by
  have := hd.copies v hv
  rw [h.live hv, h'.live hv] at this
  exact this

theorem count_led_dummy {us : List (UTXO Nat G)} {v : UTXO Nat G} (hv : ¬ v.isDummy = false) :
    (us.filter (·.onLedger rollup)).count v = 0 := by
  rw [List.count_eq_zero]
  intro hm
  have := (List.mem_filter.1 hm).2
  exact hv (onLedger_iff.1 this).1

theorem Deleted.covers {s : State p q G} {c c' : Nat → UTXO Nat G} {sc : Nat → G}
    (h : Inv cv hs s c sc) {us : List (UTXO Nat G)}
    {ds : List (ZMod p × List (ZMod p))} (hd : Deleted cv hs rollup us ds c c') : Covers rollup s us := by
  intro v
  by_cases hv : v.isDummy = false
  · have h1 := hd.copies v hv
    rw [h.live hv] at h1
    unfold live
    unfold led at h1
    omega
  · rw [count_led_dummy hv]; exact Nat.zero_le _

/-- The failing transaction: the inputs consumed are the longest covered prefix. -/
theorem Fails.covers {r : ZMod p} {i : Nat} {x : Pair q G} {s s' : State p q G} {c c' : Nat → UTXO Nat G}
    {sc sc' : Nat → G} {e : AggError} (h : Inv cv hs s c sc) (h' : Inv cv hs s' c' sc')
    (hF : Fails cv hs rollup r i x s c sc e s' c' sc') :
    ∃ tx us u vs, s.transactions[i]? = some tx ∧ Approves cv hs rollup r tx x = true ∧
      tx.inputs.toList = us ++ u :: vs ∧ u.onLedger rollup = true ∧
      Covers rollup s us ∧ ¬ Covers rollup s (us ++ [u]) ∧
      (e = .utxoNonExisting ∨ e = .utxoError) ∧ live s' u = 0 ∧
      ∀ v, v.isDummy = false → live s' v + (us.filter (·.onLedger rollup)).count v = live s v := by
  obtain ⟨tx, us, u, vs, dels, l', st, g1, g2, g3, g4, g5, g6, g7, g8, g9, g10⟩ := hF
  have hu : u.isDummy = false := (onLedger_iff.1 g5).1
  have hl0 : live s' u = 0 := by
    rw [live, ← h'.live hu]
    unfold copies
    rw [List.countP_eq_zero]
    intro j _
    simpa using g6 j
  have hl := fun v hv => g4.live_eq h h' (v := v) hv
  refine ⟨tx, us, u, vs, g1, g2, g3, g5, g4.covers h, ?_, g7, hl0, hl⟩
  intro hcov
  have h1 := hcov u
  have h2 := hl u hu
  rw [List.filter_append, List.count_append] at h1
  have h3 : ([u].filter (·.onLedger rollup)).count u = 1 := by
    rw [List.filter_cons_of_pos (by simpa using g5)]; simp
  rw [h3] at h1
  omega

theorem Covers.prefix {s : State p q G} {us vs : List (UTXO Nat G)} (h : Covers rollup s (us ++ vs)) :
    Covers rollup s us := by
  intro v
  have := h v
  rw [List.filter_append, List.count_append] at this
  omega

/-- The longest covered prefix is unique. -/
theorem covered_unique {s : State p q G} {us us' vs vs' : List (UTXO Nat G)} {u u' : UTXO Nat G}
    (he : us ++ u :: vs = us' ++ u' :: vs') (h : Covers rollup s us) (h' : Covers rollup s us')
    (hn : ¬ Covers rollup s (us ++ [u])) (hn' : ¬ Covers rollup s (us' ++ [u'])) : us = us' := by
  rcases Nat.lt_trichotomy us.length us'.length with hl | hl | hl
  · exfalso; apply hn
    have : us ++ [u] <+: us' := by
      have h1 : us ++ [u] <+: us' ++ u' :: vs' := ⟨vs, by rw [← he]; simp⟩
      have h2 : us' <+: us' ++ u' :: vs' := ⟨_, rfl⟩
      exact List.prefix_of_prefix_length_le h1 h2 (by simp; omega)
    obtain ⟨t, rfl⟩ := this
    exact h'.prefix
  · exact (List.append_inj he hl).1
  · exfalso; apply hn'
    have : us' ++ [u'] <+: us := by
      have h1 : us' ++ [u'] <+: us ++ u :: vs := ⟨vs', by rw [he]; simp⟩
      have h2 : us <+: us ++ u :: vs := ⟨_, rfl⟩
      exact List.prefix_of_prefix_length_le h1 h2 (by simp; omega)
    obtain ⟨t, rfl⟩ := this
    exact h.prefix

theorem Runs.live {i : Nat} {r : ZMod p} {l : List (Pair q G)} {s s' : State p q G}
    {c c' : Nat → UTXO Nat G} {sc sc' : Nat → G} (hi : Inv cv hs s c sc) (hi' : Inv cv hs s' c' sc')
    (h : Runs b cv hs rollup r i l s c sc s' c' sc') (u : UTXO Nat G) (hu : u.isDummy = false) :
    live s' u + (spentBy rollup (approvedTxs cv hs rollup r (s.transactions.drop i) l)).count u =
      live s u + (createdBy rollup (approvedTxs cv hs rollup r (s.transactions.drop i) l)).count u := by
  have := h.copies u hu
  rw [hi.live hu, hi'.live hu] at this
  exact this

end PF.Agg

namespace PF.Agg
open PF PF.MT PF.Spec
variable {p q : Nat} {G : Type} [AddCommGroup G] [Module (ZMod q) G] [DecidableEq G]
variable {b : Build} {cv : Curve p q G} {hs : Hashes p} {rollup : G}

theorem Step.accepts {r : ZMod p} {i : Nat} {x : Pair q G} {s s' : State p q G} {c c' : Nat → UTXO Nat G}
    {sc sc' : Nat → G} (h : Step b cv hs rollup r i x s c sc s' c' sc') {tx : Tx Nat G}
    (ht : s.transactions[i]? = some tx) (ha : Approves cv hs rollup r tx x = true) :
    ∃ ds c1, Deleted cv hs rollup tx.inputs.toList ds c c1 := by
  cases h with
  | rej tx' tp ht' hp ha' =>
    rw [ht] at ht'; simp only [Option.some.injEq] at ht'; subst ht'
    rw [accepted_eq, ha] at ha'; simp at ha'
  | acc tx' tp dels adds l' st c1 c2 w ht' hp ha' hd hadd hn hw1 hw2 =>
    rw [ht] at ht'; simp only [Option.some.injEq] at ht'; subst ht'
    exact ⟨dels, c1, hd⟩

theorem Runs.next_le {i : Nat} {r : ZMod p} {l : List (Pair q G)} {s s' : State p q G}
    {c c' : Nat → UTXO Nat G} {sc sc' : Nat → G} (h : Runs b cv hs rollup r i l s c sc s' c' sc') :
    s'.ledger.next ≤ s.ledger.next + TX_IO_SIZE * l.length := by
  induction h with
  | nil => simp
  | cons i x l s s1 s2 c c1 c2 sc sc1 sc2 g1 g2 ih =>
    have := g1.frame.2.2.2.2.2.2
    simp only [List.length_cons]
    rw [show TX_IO_SIZE = 4 from rfl] at *
    omega

/-- Outcome of the pair after a successful prefix. -/
theorem step_outcome {s s1 : State p q G} {c : Nat → UTXO Nat G} {sc : Nat → G} (h : Inv cv hs s c sc)
    {l : List (Pair q G)} {x : Pair q G} (hf : (Op.signatures rollup (l ++ [x])).Fits s)
    (h1 : processSignatures b cv hs rollup l s = (s1, .ok ())) :
    (s.transactions.length ≤ l.length →
      (processSignatures b cv hs rollup (l ++ [x]) s).2 = .panic) ∧
    ∀ tx, s.transactions[l.length]? = some tx →
      (Approves cv hs rollup (txRoot cv hs s) tx x = false →
        (processSignatures b cv hs rollup (l ++ [x]) s).2 = .ok ()) ∧
      (Approves cv hs rollup (txRoot cv hs s) tx x = true → ¬ Covers rollup s1 tx.inputs.toList →
        (processSignatures b cv hs rollup (l ++ [x]) s).2 = .err .utxoNonExisting ∨
        (processSignatures b cv hs rollup (l ++ [x]) s).2 = .err .utxoError) ∧
      (Approves cv hs rollup (txRoot cv hs s) tx x = true → Covers rollup s1 tx.inputs.toList →
        ¬ (b = .debug ∧ ¬ tx.withdrawn rollup < U64) →
        (processSignatures b cv hs rollup (l ++ [x]) s).2 = .ok ()) ∧
      (Approves cv hs rollup (txRoot cv hs s) tx x = true → Covers rollup s1 tx.inputs.toList →
        b = .debug → ¬ tx.withdrawn rollup < U64 →
        (processSignatures b cv hs rollup (l ++ [x]) s).2 = .panic) := by
  obtain ⟨c1, sc1, k1, k2, k3⟩ := sig_ok h (fits_prefix hf) h1
  obtain ⟨f1, f2, f3, f4, f5, f6⟩ := k1.frame
  have hr : s1.txTree.root = some (txRoot cv hs s) := by rw [k2.root, txRoot_congr f1]
  rw [sig_snoc h1]
  constructor
  · intro hl
    have hn : s1.transactions[l.length]? = none := by rw [f1]; exact List.getElem?_eq_none hl
    unfold processOne; rw [hn]
  · intro tx ht
    have ht1 : s1.transactions[l.length]? = some tx := by rw [f1]; exact ht
    have hlt : l.length < s1.transactions.length := (List.getElem?_eq_some_iff.1 ht1).1
    have hsig : s1.signers.length < TX_CAP := by
      have := hf.1; simp at this; omega
    have hcap : s1.ledger.next + TX_IO_SIZE ≤ UTXO_CAP := by
      have := hf.2
      simp only [List.length_append, List.length_cons, List.length_nil] at this
      have h2 := k1.next_le
      rw [show TX_IO_SIZE = 4 from rfl] at *
      omega
    rcases processOne_spec (b := b) (rollup := rollup) (x := x) k2 hr hlt hsig hcap with
      ⟨s', c', sc', e1, e2, e3⟩ | ⟨s', c', sc', e, e1, e2, e3⟩ | ⟨e1, e2, tx', ds, c2, e3, e4, e5, e6⟩
    · rw [e1]
      refine ⟨fun _ => rfl, fun ha hnc => ?_, fun _ _ _ => rfl, fun ha hc hb hw => ?_⟩
      · obtain ⟨ds, c2, hd⟩ := e2.accepts ht1 ha
        exact absurd (hd.covers k2) hnc
      · exfalso
        cases e2 with
        | rej tx' tp ht' hp ha' =>
          rw [ht1] at ht'; simp only [Option.some.injEq] at ht'; subst ht'
          rw [accepted_eq, ha] at ha'; simp at ha'
        | acc tx' tp dels adds l' st c1 c2 w ht' hp ha' hd hadd hn hw1 hw2 =>
          rw [ht1] at ht'; simp only [Option.some.injEq] at ht'; subst ht'
          have := hw2 hb
          apply hw; rw [← this, hw1]; exact Nat.mod_lt _ (by decide)
    · rw [e1]
      obtain ⟨tx', us, u, vs, g1, g2, g3, g4, g5, g6, g7, g8, g9⟩ := e2.covers k2 e3
      rw [ht1] at g1; simp only [Option.some.injEq] at g1; subst g1
      have hnc : ¬ Covers rollup s1 tx.inputs.toList := by
        intro hc; apply g6
        rw [g3, show us ++ u :: vs = (us ++ [u]) ++ vs by simp] at hc
        exact hc.prefix
      refine ⟨fun ha => ?_, fun _ _ => ?_, fun _ hc => absurd hc hnc, fun _ hc => absurd hc hnc⟩
      · rw [g2] at ha; simp at ha
      · rcases g7 with rfl | rfl
        · exact Or.inl rfl
        · exact Or.inr rfl
    · rw [ht1] at e3; simp only [Option.some.injEq] at e3; subst e3
      rw [accepted_eq] at e4
      refine ⟨fun ha => ?_, fun _ hnc => absurd (e5.covers k2) hnc, fun _ _ hn => absurd ⟨e2, e6⟩ hn,
        fun _ _ _ _ => e1⟩
      rw [e4] at ha; simp at ha

/-- Every error of `process_signatures` comes from an approved, uncovered transaction. -/
theorem sig_err_covers {s s' : State p q G} {c : Nat → UTXO Nat G} {sc : Nat → G} (h : Inv cv hs s c sc)
    {l : List (Pair q G)} (hf : (Op.signatures rollup l).Fits s) {e : AggError}
    (hr : processSignatures b cv hs rollup l s = (s', .err e)) :
    ∃ done x rest s1 tx us u vs, l = done ++ x :: rest ∧
      processSignatures b cv hs rollup done s = (s1, .ok ()) ∧
      processSignatures b cv hs rollup (done ++ [x]) s = (s', .err e) ∧
      s.transactions[done.length]? = some tx ∧ Approves cv hs rollup (txRoot cv hs s) tx x = true ∧
      tx.inputs.toList = us ++ u :: vs ∧ u.onLedger rollup = true ∧
      Covers rollup s1 us ∧ ¬ Covers rollup s1 (us ++ [u]) ∧
      (e = .utxoNonExisting ∨ e = .utxoError) ∧ live s' u = 0 ∧
      ∀ v, v.isDummy = false →
        live s' v + (spentBy rollup (approvedTxs cv hs rollup (txRoot cv hs s) s.transactions done)).count v
          + (us.filter (·.onLedger rollup)).count v =
        live s v +
          (createdBy rollup (approvedTxs cv hs rollup (txRoot cv hs s) s.transactions done)).count v := by
  obtain ⟨dn, x, rs, s1, c1, sc1, c', sc', e1, e2, e3, e4, e5, e6, e7⟩ := sig_err h hf hr
  obtain ⟨tx, us, u, vs, g1, g2, g3, g4, g5, g6, g7, g8, g9⟩ := e6.covers e4 e7
  have hsn : processSignatures b cv hs rollup (dn ++ [x]) s = (s', .err e) := by
    subst e1
    have h2 := hr
    rw [show dn ++ x :: rs = (dn ++ [x]) ++ rs by simp] at h2
    unfold processSignatures at h2
    rw [processFrom_append] at h2
    rcases h3 : processFrom b cv hs rollup 0 (dn ++ [x]) s with ⟨s2, o | e' | _⟩
    · exfalso
      have h4 : processSignatures b cv hs rollup (dn ++ [x]) s = (s2, .ok ()) := h3
      have hf' : (Op.signatures rollup (dn ++ [x])).Fits s := by
        apply fits_prefix (l' := rs); simpa using hf
      have := (step_outcome h hf' e3).2 tx (by rw [← e5.frame.1]; exact g1)
      have hnc : ¬ Covers rollup s1 tx.inputs.toList := by
        intro hc; apply g6
        rw [g3, show us ++ u :: vs = (us ++ [u]) ++ vs by simp] at hc
        exact hc.prefix
      rcases this.2.1 g2 hnc with h5 | h5 <;> · rw [h4] at h5; simp at h5
    · rw [SM.bind_of_err h3] at h2
      unfold processSignatures; rw [h3, h2]
    · rw [SM.bind_of_panic h3] at h2; simp at h2
  refine ⟨dn, x, rs, s1, tx, us, u, vs, e1, e3, hsn, by rw [← e5.frame.1]; exact g1, g2, g3, g4, g5, g6, g7,
    g8, fun v hv => ?_⟩
  have h1 := g9 v hv
  have h2 := Runs.live h e4 e5 v hv
  rw [List.drop_zero] at h2
  omega

end PF.Agg
