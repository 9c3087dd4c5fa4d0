import Verif.Proof.AggregatorBooks

/-!
# Properties C38–C49: the aggregator (native)

Histories are arbitrary sequences of API calls from a new aggregator, including calls that return an
error (`Reach`, Spec/Aggregator.lean). Examples and counterexamples are parametric in the hash functions
and the curve.
-/

set_option linter.unusedSectionVars false

namespace PF.Props
open PF PF.MT PF.Agg PF.Spec PF.Schnorr
variable {p q : Nat} {G : Type} [AddCommGroup G] [Module (ZMod q) G] [DecidableEq G]
variable (b : Build) (cv : Curve p q G) (hs : Hashes p)

/-! ## C38 -/

/-- C38: in every reachable state there is exactly one array of UTXOs that the UTXO-tree root commits
to, that stores each UTXO exactly at the positions recorded in the UTXO map, and the dummy elsewhere.
Recorded positions are distinct and below the next free index. -/
theorem C38_utxo_tree_mirrors (s : State p q G) (h : Reach b cv hs s) :
    (∃! c, Represents cv hs s c) ∧
    (∀ u, (positions s u).Nodup) ∧
    (∀ u, ∀ i ∈ positions s u, i < s.ledger.next) ∧ s.ledger.next ≤ 2 ^ 31 ∧
    (∀ u, u.isDummy = true → positions s u = []) := by
  obtain ⟨c, sc, hi⟩ := reach_inv h
  have hd : ∀ u : UTXO Nat G, u.isDummy = true → positions s u = [] := fun u hu => by
    unfold positions; rw [hi.holds.noDummy u hu]; rfl
  refine ⟨⟨c, hi.represents, fun c' hc => hc.unique hi.represents⟩, fun u => hi.holds.nodup u, ?_,
    hi.nextCap, hd⟩
  intro u i hm
  by_cases hu : u.isDummy = true
  · rw [hd u hu] at hm; simp at hm
  · exact hi.pos_lt (by simpa using hu) hm

/-- Non-vacuity: a deposit is recorded at a position. -/
example (rollup owner : G) (h : owner ≠ rollup) :
    ∃ s, Reach b cv hs s ∧ (positions s (UTXO.new owner 5)).length = 1 := by
  obtain ⟨s1, s2, _, _, _, h2, _, _, _, _, _, _, _, h3, _⟩ := demo_deposit b cv hs h (a := 5) (by decide)
  exact ⟨s2, h2, h3⟩

/-! ## C39 -/

/-- C39: a successful `process_signatures` consumes exactly the inputs and creates exactly the outputs
of the authorised transactions, counted with multiplicity. -/
theorem C39_accounting (s s' : State p q G) (h : Reach b cv hs s) (rollup : G) (l : List (Pair q G))
    (hf : (Op.signatures rollup l).Fits s)
    (hr : processSignatures b cv hs rollup l s = (s', .ok ())) (u : UTXO Nat G) (hu : u.isDummy = false) :
    live s' u + (spentBy rollup (approvedTxs cv hs rollup (txRoot cv hs s) s.transactions l)).count u =
      live s u + (createdBy rollup (approvedTxs cv hs rollup (txRoot cv hs s) s.transactions l)).count u := by
  obtain ⟨c, sc, hi⟩ := reach_inv h
  obtain ⟨c', sc', k1, k2, _⟩ := sig_ok hi hf hr
  have := Runs.live hi k2 k1 u hu
  rwa [List.drop_zero] at this

/-- C39: over every history, including failed calls, what was consumed plus what is live is what was
created. -/
theorem C39_history (s : State p q G) (a m : List (UTXO Nat G)) (h : History b cv hs s a m)
    (u : UTXO Nat G) (hu : u.isDummy = false) : live s u + a.count u = m.count u := by
  have hR : Reach b cv hs s ∧ ∀ u : UTXO Nat G, u.isDummy = false → live s u + a.count u = m.count u := by
    induction h with
    | new => exact ⟨Reach.new, fun u _ => rfl⟩
    | newEpoch h ih => exact ⟨reach_reset ih.1, ih.2⟩
    | transactions l h hf hr ih =>
      refine ⟨reach_transactions ih.1 l hf (Prod.eta _) hr, fun u hu => ?_⟩
      obtain ⟨c, sc, hi⟩ := reach_inv ih.1
      obtain ⟨done, rest, t, prs, e1, e2, e3, o, e4, e5⟩ := processTransactions_spec (b := b) l _ hi hf
      rw [e4]
      exact ih.2 u hu
    | @signatures s s' a m rollup l h hf hr ih =>
      refine ⟨reach_signatures ih.1 l hf hr (by simp), fun u hu => ?_⟩
      have := C39_accounting b cv hs s s' ih.1 rollup l hf hr u hu
      have := ih.2 u hu
      simp only [List.count_append]
      omega
    | @failed s s1 s' a m rollup done x rest e tx us u vs h hf hr hr1 hr2 htx hus hc hnc ih =>
      refine ⟨reach_signatures ih.1 _ hf hr (by simp), fun v hv => ?_⟩
      obtain ⟨c, sc, hi⟩ := reach_inv ih.1
      have hf' : (Op.signatures rollup (done ++ [x])).Fits s := by
        apply fits_prefix (l' := rest); simpa using hf
      obtain ⟨dn, y, rs, s1', tx', us', u', vs', e1, e2, e3, e4, e5, e6, e7, e8, e9, e10, e11, e12⟩ :=
        sig_err_covers hi hf' hr2
      have hlen : dn = done := by
        rcases List.append_eq_append_iff.1 e1 with ⟨t, h1, h2⟩ | ⟨t, h1, h2⟩
        · cases t with
          | nil => simpa using h1
          | cons z t => simp at h2
        · cases t with
          | nil => simpa using h1.symm
          | cons z t =>
            exfalso
            -- the failing prefix would be a prefix of a successful one
            have h3 : done ++ [x] = dn ++ y :: rs := e1
            rw [h1] at hr1
            have hz : z = y := by
              rw [h1] at h3
              simp only [List.append_assoc, List.cons_append, List.append_cancel_left_eq,
                List.cons.injEq] at h3
              exact h3.1
            rw [show dn ++ z :: t = (dn ++ [y]) ++ t by rw [hz]; simp] at hr1
            unfold processSignatures at hr1 e3
            rw [processFrom_append, SM.bind_of_err e3] at hr1
            simp at hr1
      subst hlen
      rw [hr1] at e2
      simp only [Prod.mk.injEq, and_true] at e2
      subst e2
      rw [htx] at e4
      simp only [Option.some.injEq] at e4
      subst e4
      rw [hus] at e6
      have hus' := covered_unique e6 hc e8 hnc e9
      subst hus'
      have h1 := e12 v hv
      have h2 := ih.2 v hv
      simp only [List.count_append]
      omega
  exact hR.2 u hu

/-- C39: the histories with accounts are exactly the reachable states. -/
theorem C39_history_iff_reach (s : State p q G) :
    Reach b cv hs s ↔ ∃ a m, History b cv hs s a m := by
  constructor
  · intro h
    induction h with
    | new => exact ⟨_, _, History.new⟩
    | call s op h hf hr ih =>
      obtain ⟨a, m, hh⟩ := ih
      cases op with
      | newEpoch => exact ⟨_, _, hh.newEpoch⟩
      | transactions l =>
        refine ⟨_, _, History.transactions l hh hf ?_⟩
        intro hp; apply hr; simp only [Op.run, hp]
      | signatures rollup l =>
        rcases hres : processSignatures b cv hs rollup l s with ⟨s', o⟩
        simp only [Op.run, hres] at hr ⊢
        rcases o with _ | e | _
        · exact ⟨_, _, History.signatures rollup l hh hf hres⟩
        · obtain ⟨c, sc, hi⟩ := reach_inv h
          obtain ⟨dn, y, rs, s1', tx', us', u', vs', e1, e2, e3, e4, e5, e6, e7, e8, e9, e10, e11, e12⟩ :=
            sig_err_covers hi hf hres
          subst e1
          exact ⟨_, _, History.failed rollup dn y rs e tx' us' u' vs' hh hf hres e2 e3 e4 e6 e8 e9⟩
        · exact absurd rfl hr
  · rintro ⟨a, m, h⟩
    induction h with
    | new => exact Reach.new
    | newEpoch h ih => exact reach_reset ih
    | transactions l h hf hr ih => exact reach_transactions ih l hf (Prod.eta _) hr
    | signatures rollup l h hf hr ih => exact reach_signatures ih l hf hr (by simp)
    | failed rollup done x rest e tx us u vs h hf hr hr1 hr2 htx hus hc hnc ih =>
      exact reach_signatures ih _ hf hr (by simp)

/-- C39: in every history the consumptions of a UTXO never exceed its creations. -/
theorem C39_no_double_spend (s : State p q G) (a m : List (UTXO Nat G)) (h : History b cv hs s a m)
    (u : UTXO Nat G) (hu : u.isDummy = false) : a.count u ≤ m.count u := by
  have := C39_history b cv hs s a m h u hu
  omega

/-- C39: `process_signatures` is refused (`UTXONonExisting` or `UTXOError`) exactly when some authorised
transaction needs more copies of a UTXO than are live after the pairs before it. -/
theorem C39_refused_iff (s : State p q G) (h : Reach b cv hs s) (rollup : G) (l : List (Pair q G))
    (hf : (Op.signatures rollup l).Fits s) :
    ((processSignatures b cv hs rollup l s).2 = .err .utxoNonExisting ∨
      (processSignatures b cv hs rollup l s).2 = .err .utxoError) ↔
    ∃ done x rest s1 tx, l = done ++ x :: rest ∧
      processSignatures b cv hs rollup done s = (s1, .ok ()) ∧
      s.transactions[done.length]? = some tx ∧ Approves cv hs rollup (txRoot cv hs s) tx x = true ∧
      ∃ u, live s1 u < (tx.spends rollup).count u := by
  obtain ⟨c, sc, hi⟩ := reach_inv h
  constructor
  · intro hr
    rcases hres : processSignatures b cv hs rollup l s with ⟨s', o⟩
    rw [hres] at hr
    have : ∃ e, o = .err e := by rcases hr with hr | hr <;> exact ⟨_, hr⟩
    obtain ⟨e, rfl⟩ := this
    obtain ⟨dn, y, rs, s1', tx', us', u', vs', e1, e2, e3, e4, e5, e6, e7, e8, e9, e10, e11, e12⟩ :=
      sig_err_covers hi hf hres
    refine ⟨dn, y, rs, s1', tx', e1, e2, e4, e5, ?_⟩
    by_contra hcon
    push Not at hcon
    apply e9
    have : Covers rollup s1' tx'.inputs.toList := hcon
    rw [e6, show us' ++ u' :: vs' = (us' ++ [u']) ++ vs' by simp] at this
    exact this.prefix
  · rintro ⟨dn, x, rs, s1, tx, rfl, h1, h2, h3, u, hu⟩
    have hf' : (Op.signatures rollup (dn ++ [x])).Fits s := by
      apply fits_prefix (l' := rs); simpa using hf
    have hnc : ¬ Covers rollup s1 tx.inputs.toList := fun hc => by
      have := hc u
      unfold Tx.spends at hu
      omega
    have ho := ((step_outcome hi hf' h1).2 tx h2).2.1 h3 hnc
    rcases hres : processSignatures b cv hs rollup (dn ++ [x]) s with ⟨s', o⟩
    rw [hres] at ho
    have : ∃ e, o = .err e := by rcases ho with hr | hr <;> exact ⟨_, hr⟩
    obtain ⟨e, rfl⟩ := this
    have : processSignatures b cv hs rollup (dn ++ x :: rs) s = (s', .err e) := by
      rw [show dn ++ x :: rs = (dn ++ [x]) ++ rs by simp]
      unfold processSignatures at hres ⊢
      rw [processFrom_append, SM.bind_of_err hres]
    rw [this]; exact ho

/-- C39: no call moves a UTXO or refills a slot: what is found below the old free index was there
before, and the free index never decreases. -/
theorem C39_slots_used_once (s : State p q G) (h : Reach b cv hs s) (op : Op q G) (hf : op.Fits s)
    (hr : (op.run b cv hs s).2 ≠ .panic) (u : UTXO Nat G) :
    s.ledger.next ≤ (op.run b cv hs s).1.ledger.next ∧
    ∀ i ∈ positions (op.run b cv hs s).1 u, i < s.ledger.next → i ∈ positions s u := by
  obtain ⟨c, sc, hi⟩ := reach_inv h
  obtain ⟨c', sc', k1, k2, _, k3⟩ := op_spec hi op hf hr
  refine ⟨k2, fun i hm hlt => ?_⟩
  by_cases hu : u.isDummy = false
  · have e1 := (k1.holds.pos u hu i).1 hm
    rcases k3 i hlt with e | e
    · exact (hi.holds.pos u hu i).2 (by rw [← e]; exact e1)
    · rw [e1] at e; rw [e] at hu; simp [UTXO.dummy] at hu
  · have := k1.holds.noDummy u (by simpa using hu)
    unfold positions at hm
    rw [this] at hm; simp at hm

/-- Concrete case for C38, C39_accounting and C39_slots_used_once (all their hypotheses at once): a group of
order 7, the owner has key 3 and is paid 5 by the contract (key 1), and then signs a payment of these 5 to
key 2. The three theorems are applied to the call that executes the payment. -/
example (hs : Hashes 5) : ∃ (s s' : State 5 7 (ZMod 7)) (l : List (Pair 7 (ZMod 7))),
    Reach b toyCurve2 hs s ∧ (Op.signatures 1 l).Fits s ∧
    processSignatures b toyCurve2 hs 1 l s = (s', .ok ()) ∧
    (∃! c, Represents toyCurve2 hs s c) ∧ live s (UTXO.new 3 5) = 1 ∧
    live s' (UTXO.new 3 5) + (spentBy 1 (approvedTxs toyCurve2 hs 1 (txRoot toyCurve2 hs s) s.transactions l)).count
        (UTXO.new 3 5) =
      1 + (createdBy 1 (approvedTxs toyCurve2 hs 1 (txRoot toyCurve2 hs s) s.transactions l)).count (UTXO.new 3 5) ∧
    live s' (UTXO.new 3 5) = 0 ∧ live s' (UTXO.new 2 5) = 1 ∧
    ∀ i ∈ positions s' (UTXO.new 2 5), ¬ i < s.ledger.next := by
  obtain ⟨s3, s4, sig, r3, r4, t3, g3, f3, ap, q4, l3, l3', l4, l4', _⟩ := toy_payment b hs
  have hf : (Op.signatures (1 : ZMod 7) [((3 : ZMod 7), some sig)]).Fits s3 := f3 _ (by simp)
  refine ⟨s3, s4, _, r3, hf, q4, (C38_utxo_tree_mirrors b toyCurve2 hs s3 r3).1, l3, ?_, l4, l4', fun i hi hlt => ?_⟩
  · rw [C39_accounting b toyCurve2 hs s3 s4 r3 1 _ hf q4 (UTXO.new 3 5) rfl, l3]
  · have hq : ((Op.signatures (1 : ZMod 7) [((3 : ZMod 7), some sig)]).run b toyCurve2 hs s3) = (s4, .ok ()) := by
      simp [Op.run, q4]
    have hk := (C39_slots_used_once b toyCurve2 hs s3 r3 (.signatures 1 [((3 : ZMod 7), some sig)]) hf
      (by rw [hq]; simp) (UTXO.new 2 5)).2 i (by rw [hq]; exact hi) hlt
    have h0 := l3' (UTXO.new 2 5) rfl (by decide)
    unfold live at h0
    rw [List.length_eq_zero_iff.1 h0] at hk
    cases hk

/-- Concrete case for C39_history, C39_history_iff_reach and C39_no_double_spend: the same payment as a
history in which the owner's 5 were created and spent. -/
example (hs : Hashes 5) : ∃ (s : State 5 7 (ZMod 7)) (a m : List (UTXO Nat (ZMod 7))),
    History b toyCurve2 hs s a m ∧ 1 ≤ a.count (UTXO.new 3 5) ∧ a.count (UTXO.new 3 5) = m.count (UTXO.new 3 5) ∧
    live s (UTXO.new 2 5) = 1 ∧ a.count (UTXO.new 2 5) + 1 = m.count (UTXO.new 2 5) := by
  obtain ⟨s3, s4, sig, r3, r4, t3, g3, f3, ap, q4, l3, l3', l4, l4', _⟩ := toy_payment b hs
  obtain ⟨a, m, h⟩ := (C39_history_iff_reach b toyCurve2 hs s3).1 r3
  have h4 := History.signatures 1 _ h (f3 [((3 : ZMod 7), some sig)] (by simp)) q4
  have e1 := C39_history b toyCurve2 hs _ _ _ h4 (UTXO.new 3 5) rfl
  have e2 := C39_history b toyCurve2 hs _ _ _ h4 (UTXO.new 2 5) rfl
  have e0 := C39_history b toyCurve2 hs _ _ _ h (UTXO.new 3 5) rfl
  have e5 := C39_accounting b toyCurve2 hs s3 s4 r3 1 _ (f3 [((3 : ZMod 7), some sig)] (by simp)) q4 (UTXO.new 3 5) rfl
  rw [List.count_append, List.count_append] at e1
  refine ⟨s4, _, _, h4, ?_, ?_, l4', by omega⟩
  · rw [List.count_append]; omega
  · rw [List.count_append, List.count_append]; omega

/-- Non-vacuity and the refused double spend: after a deposit of 5 to `owner`, the payment of these 5
succeeds once, and the same payment is refused in the next epoch. -/
theorem refused_double_spend [Fact q.Prime] (hp : 0 < p) (hpq : p ≤ q) (rollup receiver : G) (sk : ZMod q)
    (h1 : sk • cv.gen ≠ rollup) (h2 : receiver ≠ rollup) (h3 : receiver ≠ sk • cv.gen) :
    ∃ s3 s4 sig sig', Reach b cv hs s3 ∧
      processSignatures b cv hs rollup [(sk • cv.gen, some sig)] s3 = (s4, .ok ()) ∧
      live s3 (UTXO.new (sk • cv.gen) 5) = 1 ∧ live s4 (UTXO.new (sk • cv.gen) 5) = 0 ∧
      live s4 (UTXO.new receiver 5) = 1 ∧
      ∃ s5 o, processTransactions b cv hs [(sk • cv.gen, payTx (sk • cv.gen) receiver 5)]
          (reset cv hs s4) = (s5, .ok ()) ∧
        Reach b cv hs s5 ∧ (Op.signatures rollup [(sk • cv.gen, some sig')]).Fits s5 ∧
        (processSignatures b cv hs rollup [(sk • cv.gen, some sig')] s5).2 = .err o := by
  obtain ⟨s1, s2, _, _, _, r2, t1, t2, _, _, _, _, _, l1, l2, _, _, _, n2⟩ :=
    demo_deposit b cv hs h1 (a := 5) (by decide)
  have hpay : (payTx (sk • cv.gen) receiver 5).spends rollup = [UTXO.new (sk • cv.gen) 5] := by
    simp [payTx, Tx.spends, UTXO.onLedger, UTXO.dummy, UTXO.new, h1]
  have hcr : (payTx (sk • cv.gen) receiver 5).creates rollup = [UTXO.new receiver 5] := by
    simp [payTx, Tx.creates, UTXO.onLedger, UTXO.dummy, UTXO.new, h2]
  have hne : UTXO.new receiver 5 ≠ UTXO.new (sk • cv.gen) 5 := fun h => h3 (by
    have := congrArg UTXO.pk h; exact this)
  have hwd : (payTx (sk • cv.gen) receiver 5).withdrawn rollup < U64 :=
    lt_of_le_of_lt (withdrawn_le _) (by simp [payTx, totalOf, UTXO.new, UTXO.dummy, U64])
  obtain ⟨s3, q3, r3, t3, g3, _, _, sg3, _⟩ := tx_one (reach_reset r2) (sk • cv.gen)
    (payTx (sk • cv.gen) receiver 5) (by simp [reset, TX_CAP]) (payTx_valid b _ _ _ (by decide))
  have t3' : s3.transactions[0]? = some (payTx (sk • cv.gen) receiver 5) := by rw [t3]; rfl
  have hl3 : ∀ v, live s3 v = live s2 v := fun v => by unfold live positions; rw [g3]; rfl
  obtain ⟨sig, hsig⟩ := exists_sig cv hp hpq hs.crh sk
    (txEnc cv (payTx (sk • cv.gen) receiver 5) ++ [txRoot cv hs s3])
  obtain ⟨s4, q4, r4, a4, _, _, _, _, n4⟩ := sig_one (rollup := rollup) (x := (sk • cv.gen, some sig)) r3
    t3' (by rw [sg3]; simp [reset, TX_CAP])
    (by rw [g3]; simp only [reset]; rw [show TX_IO_SIZE = 4 from rfl, show UTXO_CAP = 2147483648 from rfl]; omega)
    (by simp [Approves, hsig])
    (by
      intro v
      have : (payTx (sk • cv.gen) receiver 5).inputs.toList.filter (·.onLedger rollup) =
        [UTXO.new (sk • cv.gen) 5] := hpay
      rw [this, hl3]
      by_cases hv : v = UTXO.new (sk • cv.gen) 5
      · subst hv; rw [l1]; simp
      · rw [List.count_eq_zero_of_not_mem (by simpa using hv)]; exact Nat.zero_le _)
    hwd
  rw [hpay, hcr] at a4
  have b1 : live s4 (UTXO.new (sk • cv.gen) 5) = 0 := by
    have := a4 (UTXO.new (sk • cv.gen) 5) rfl
    have hz : [UTXO.new receiver 5].count (UTXO.new (sk • cv.gen) 5) = 0 :=
      List.count_eq_zero_of_not_mem (by simpa using hne.symm)
    rw [hl3, l1, hz] at this
    simpa using this
  have b2 : live s4 (UTXO.new receiver 5) = 1 := by
    have := a4 (UTXO.new receiver 5) rfl
    have hz : [UTXO.new (sk • cv.gen) 5].count (UTXO.new receiver 5) = 0 :=
      List.count_eq_zero_of_not_mem (by simpa using hne)
    rw [hl3, l2 _ rfl hne, hz] at this
    simpa using this
  obtain ⟨s5, q5, r5, t5, g5, _, _, sg5, _⟩ := tx_one (reach_reset r4) (sk • cv.gen)
    (payTx (sk • cv.gen) receiver 5) (by simp [reset, TX_CAP]) (payTx_valid b _ _ _ (by decide))
  have t5' : s5.transactions[0]? = some (payTx (sk • cv.gen) receiver 5) := by rw [t5]; rfl
  obtain ⟨sig', hsig'⟩ := exists_sig cv hp hpq hs.crh sk
    (txEnc cv (payTx (sk • cv.gen) receiver 5) ++ [txRoot cv hs s5])
  have hfits : (Op.signatures rollup [(sk • cv.gen, some sig')]).Fits s5 := by
    refine ⟨by rw [sg5]; simp [reset, TX_CAP], ?_⟩
    rw [g5]; simp only [reset]
    rw [g3] at n4
    simp only [reset, List.length_cons, List.length_nil] at n4 ⊢
    rw [show TX_IO_SIZE = 4 from rfl] at n4 ⊢
    rw [show UTXO_CAP = 2147483648 from rfl]; omega
  have href := (C39_refused_iff b cv hs s5 r5 rollup [(sk • cv.gen, some sig')] hfits).2
    ⟨[], _, [], s5, _, rfl, rfl, t5', by simp [Approves, hsig'], UTXO.new (sk • cv.gen) 5, by
      have hl5 : live s5 (UTXO.new (sk • cv.gen) 5) = live s4 (UTXO.new (sk • cv.gen) 5) := by
        unfold live positions; rw [g5]; rfl
      rw [hl5, b1, hpay]; simp⟩
  refine ⟨s3, s4, sig, sig', r3, q4, by rw [hl3, l1], b1, b2, s5, ?_⟩
  rcases href with h | h
  · exact ⟨_, q5, r5, hfits, h⟩
  · exact ⟨_, q5, r5, hfits, h⟩

/-! ## C40 -/

/-- C40: over every history of valid transactions (sums below 2^64, which debug builds enforce) in which
each pair names the owner of its transaction's inputs, the value of the live UTXOs plus all recorded
withdrawals equals all recorded deposits if no `process_signatures` call failed, and never exceeds them
otherwise. -/
theorem C40_supply (rollup : G) (s : State p q G) (clean : Bool) (d w : Nat)
    (h : Books b cv hs rollup s clean d w) :
    ∃ c, Represents cv hs s c ∧ ledgerValue c UTXO_CAP + w ≤ d ∧
      (clean = true → ledgerValue c UTXO_CAP + w = d) := by
  obtain ⟨⟨c, sc, h1, h2, h3⟩, _⟩ := books_spec h
  exact ⟨c, h1.represents, h2, h3⟩

theorem ledgerValue_pos {c : Nat → UTXO Nat G} {n i : Nat} (hi : i < n) :
    slotValue (c i) ≤ ledgerValue c n := by
  induction n with
  | zero => omega
  | succ n ih =>
    rw [ledgerValue_succ]
    by_cases h : i = n
    · subst h; omega
    · have := ih (by omega); omega

/-- C40 (the condition on the pairs is needed): `process_signatures` does not tie the key of a pair to
the transaction. A transaction whose input belongs to the contract, presented under any other key with a
valid signature, creates a UTXO without any deposit record. -/
theorem C40_unbacked_mint [Fact q.Prime] (hp : 0 < p) (hpq : p ≤ q) (rollup owner : G) (sk : ZMod q)
    (h1 : owner ≠ rollup) (h2 : sk • cv.gen ≠ rollup) :
    ∃ s s' sig, Reach b cv hs s ∧ s.transactions = [depositTx rollup owner 5] ∧ (∀ u, live s u = 0) ∧
      s.deposits = [] ∧ s.withdrawals = [] ∧
      processSignatures b cv hs rollup [(sk • cv.gen, some sig)] s = (s', .ok ()) ∧
      live s' (UTXO.new owner 5) = 1 ∧ s'.deposits = [] ∧ s'.withdrawals = [] := by
  obtain ⟨s1, s2, q1, _, r1, _, t1, _, l1, sg1, n1, d1, w1, _⟩ := demo_deposit b cv hs h1 (a := 5) (by decide)
  obtain ⟨sig, hsig⟩ := exists_sig cv hp hpq hs.crh sk
    (txEnc cv (depositTx rollup owner 5) ++ [txRoot cv hs s1])
  obtain ⟨s3, q3, r3, a3, d3, w3, _⟩ := sig_one (rollup := rollup) (x := (sk • cv.gen, some sig)) r1
    (tx := depositTx rollup owner 5) (by rw [t1]; rfl) (by rw [sg1]; simp [TX_CAP]) (by rw [n1]; decide)
    (by simp [Approves, hsig]) (covers_of_spends_nil (depositTx_spends _ _ _))
    (by rw [depositTx_withdrawn h1]; decide)
  refine ⟨s1, s3, sig, r1, t1, l1, d1, w1, q3, ?_, ?_, ?_⟩
  · have := a3 (UTXO.new owner 5) rfl
    rw [depositTx_spends, depositTx_creates h1, l1] at this
    simpa using this
  · rw [d3, d1]; simp [Tx.depositsOf, h2]
  · rw [w3, w1]; simp [Tx.withdrawalsOf, depositTx_withdrawn h1]

/-- Concrete case for C40_unbacked_mint: contract key 1, owner key 2, signer key 3 (secret 1). -/
example (hs : Hashes 5) := @C40_unbacked_mint 5 7 (ZMod 7) _ _ _ b toyCurve2 hs ⟨by decide⟩ (by decide) (by decide)
  1 2 1 (by decide) (by decide)

/-- Non-vacuity: the books of one deposit of 5 (value 5, deposits 5, withdrawals 0). -/
example (rollup owner : G) (h : owner ≠ rollup) :
    ∃ s c, Books b cv hs rollup s true 5 0 ∧ Represents cv hs s c ∧ ledgerValue c UTXO_CAP = 5 := by
  obtain ⟨s1, s2, q1, q2, _, r2, t1, t2, l0, sg1, n1, d1, w1, _, _, d2, w2, _, _⟩ :=
    demo_deposit b cv hs h (a := 5) (by decide)
  have hB : Books b cv hs rollup s2 (true && decide ((.ok () : Outcome AggError Unit) = .ok ()))
      (0 + totalAmount [(owner, 5)]) (0 + totalAmount ([] : List (G × Nat))) := by
    refine Books.signatures (o := .ok ()) (s := s1) [(rollup, none)] [(owner, 5)] [] ?_ ?_ ?_ q2 (by simp)
      (by rw [d2, d1]; rfl) (by rw [w2, w1]; rfl)
    · have := Books.transactions (rollup := rollup) [(rollup, depositTx rollup owner 5)]
        (Books.new (b := b) (cv := cv) (hs := hs)) (by simp [Op.Fits, Agg.new, TX_CAP]) (by rw [q1]; simp)
        (Or.inr (by intro x hx; simp at hx; subst hx
                    simp [depositTx, totalOf, UTXO.new, UTXO.dummy, U64]))
      rw [q1] at this; exact this
    · exact ⟨by rw [sg1]; simp [TX_CAP], by rw [n1]; simp [TX_IO_SIZE, UTXO_CAP]⟩
    · intro y hy
      rw [t1] at hy
      simp at hy
      subst hy
      intro u hu hd
      simp [depositTx] at hu
      rcases hu with rfl | rfl
      · rfl
      · simp [UTXO.dummy] at hd
  have hB' : Books b cv hs rollup s2 true 5 0 := by simpa [totalAmount] using hB
  obtain ⟨c, hc, _, he⟩ := C40_supply b cv hs rollup s2 true 5 0 hB'
  exact ⟨s2, c, hB', hc, by simpa using he rfl⟩

end PF.Props
