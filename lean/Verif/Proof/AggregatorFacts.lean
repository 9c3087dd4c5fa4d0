import Verif.Proof.AggregatorRun
import Verif.Spec.Aggregator

/-!
# Consequences of successful runs of `process_signatures`
-/

set_option linter.unusedSectionVars false

namespace PF.Agg
open PF PF.MT PF.Spec
variable {p q : Nat} {G : Type} [AddCommGroup G] [Module (ZMod q) G] [DecidableEq G]
variable {b : Build} {cv : Curve p q G} {hs : Hashes p} {rollup : G} {r : ZMod p}

theorem accepted_eq (tx : Tx Nat G) (x : Pair q G) :
    accepted cv hs rollup r tx x.1 (x.2.getD (0, 0)) = Approves cv hs rollup r tx x := rfl

theorem approvedTxs_cons_pos {tx : Tx Nat G} {x : Pair q G} (h : Approves cv hs rollup r tx x = true)
    (txs : List (Tx Nat G)) (l : List (Pair q G)) :
    approvedTxs cv hs rollup r (tx :: txs) (x :: l) = (tx, x.1) :: approvedTxs cv hs rollup r txs l := by
  simp [approvedTxs, h]

theorem approvedTxs_cons_neg {tx : Tx Nat G} {x : Pair q G} (h : Approves cv hs rollup r tx x = false)
    (txs : List (Tx Nat G)) (l : List (Pair q G)) :
    approvedTxs cv hs rollup r (tx :: txs) (x :: l) = approvedTxs cv hs rollup r txs l := by
  simp [approvedTxs, h]

theorem approvedTxs_nil (txs : List (Tx Nat G)) :
    approvedTxs cv hs rollup r txs ([] : List (Pair q G)) = [] := by
  simp [approvedTxs]

theorem drop_eq_cons {α : Type} {l : List α} {i : Nat} {a : α} (h : l[i]? = some a) :
    l.drop i = a :: l.drop (i + 1) := by
  obtain ⟨h1, h2⟩ := List.getElem?_eq_some_iff.1 h
  rw [List.drop_eq_getElem_cons h1, h2]

theorem Runs.frame {i : Nat} {l : List (Pair q G)} {s s' : State p q G} {c c' : Nat → UTXO Nat G}
    {sc sc' : Nat → G} (h : Runs b cv hs rollup r i l s c sc s' c' sc') :
    s'.transactions = s.transactions ∧ s'.txTree = s.txTree ∧ s'.txProofs = s.txProofs ∧
    s'.height = s.height ∧ s'.signers.length = s.signers.length + l.length ∧
    s.ledger.next ≤ s'.ledger.next := by
  induction h with
  | nil => simp
  | cons i x l s s1 s2 c c1 c2 sc sc1 sc2 h1 h2 ih =>
    obtain ⟨f1, f2, f3, f4, f5, f6, _⟩ := h1.frame
    obtain ⟨g1, g2, g3, g4, g5, g6⟩ := ih
    refine ⟨by rw [g1, f1], by rw [g2, f2], by rw [g3, f3], by rw [g4, f4], ?_, by omega⟩
    rw [g5, f5]; simp only [List.length_cons]; omega

/-- Copies of every UTXO are accounted for. -/
theorem Runs.copies {i : Nat} {l : List (Pair q G)} {s s' : State p q G} {c c' : Nat → UTXO Nat G}
    {sc sc' : Nat → G} (h : Runs b cv hs rollup r i l s c sc s' c' sc') (u : UTXO Nat G)
    (hu : u.isDummy = false) :
    copies c' UTXO_CAP u +
        (spentBy rollup (approvedTxs cv hs rollup r (s.transactions.drop i) l)).count u =
      copies c UTXO_CAP u +
        (createdBy rollup (approvedTxs cv hs rollup r (s.transactions.drop i) l)).count u := by
  induction h with
  | nil => simp [approvedTxs_nil, spentBy, createdBy]
  | cons i x l s s1 s2 c c1 c2 sc sc1 sc2 h1 h2 ih =>
    rw [h1.frame.1] at ih
    cases h1 with
    | rej tx tp ht hp ha =>
      rw [accepted_eq] at ha
      rw [drop_eq_cons ht, approvedTxs_cons_neg ha]; exact ih
    | acc tx tp dels adds l' st c1' c2' w ht hp ha hd hadd hn hw1 hw2 =>
      rw [accepted_eq] at ha
      rw [drop_eq_cons ht, approvedTxs_cons_pos ha]
      simp only [spentBy, createdBy, List.flatMap_cons, List.count_append] at ih ⊢
      have e1 := hd.copies u hu
      have e2 := hadd.copies u hu
      unfold led at e1 e2
      unfold Tx.spends Tx.creates at *
      omega

theorem Runs.value {i : Nat} {l : List (Pair q G)} {s s' : State p q G} {c c' : Nat → UTXO Nat G}
    {sc sc' : Nat → G} (h : Runs b cv hs rollup r i l s c sc s' c' sc') :
    ledgerValue c' UTXO_CAP +
        totalOf (spentBy rollup (approvedTxs cv hs rollup r (s.transactions.drop i) l)) =
      ledgerValue c UTXO_CAP +
        totalOf (createdBy rollup (approvedTxs cv hs rollup r (s.transactions.drop i) l)) := by
  induction h with
  | nil => simp [approvedTxs_nil, spentBy, createdBy]
  | cons i x l s s1 s2 c c1 c2 sc sc1 sc2 h1 h2 ih =>
    rw [h1.frame.1] at ih
    cases h1 with
    | rej tx tp ht hp ha =>
      rw [accepted_eq] at ha
      rw [drop_eq_cons ht, approvedTxs_cons_neg ha]; exact ih
    | acc tx tp dels adds l' st c1' c2' w ht hp ha hd hadd hn hw1 hw2 =>
      rw [accepted_eq] at ha
      rw [drop_eq_cons ht, approvedTxs_cons_pos ha]
      simp only [spentBy, createdBy, List.flatMap_cons, totalOf, List.map_append, List.sum_append] at ih ⊢
      have e1 := hd.value
      have e2 := hadd.value
      unfold led totalOf at e1 e2
      unfold Tx.spends Tx.creates at *
      omega

theorem Runs.deposits {i : Nat} {l : List (Pair q G)} {s s' : State p q G} {c c' : Nat → UTXO Nat G}
    {sc sc' : Nat → G} (h : Runs b cv hs rollup r i l s c sc s' c' sc') :
    s'.deposits = s.deposits ++
      depositsBy rollup (approvedTxs cv hs rollup r (s.transactions.drop i) l) := by
  induction h with
  | nil => simp [approvedTxs_nil, depositsBy]
  | cons i x l s s1 s2 c c1 c2 sc sc1 sc2 h1 h2 ih =>
    rw [h1.frame.1] at ih
    rw [ih]
    cases h1 with
    | rej tx tp ht hp ha =>
      rw [accepted_eq] at ha
      rw [drop_eq_cons ht, approvedTxs_cons_neg ha]
    | acc tx tp dels adds l' st c1' c2' w ht hp ha hd hadd hn hw1 hw2 =>
      rw [accepted_eq] at ha
      rw [drop_eq_cons ht, approvedTxs_cons_pos ha]
      simp [depositsBy]

theorem Runs.withdrawals {i : Nat} {l : List (Pair q G)} {s s' : State p q G} {c c' : Nat → UTXO Nat G}
    {sc sc' : Nat → G} (h : Runs b cv hs rollup r i l s c sc s' c' sc')
    (hb : b = .debug ∨ ∀ tx ∈ s.transactions, tx.withdrawn rollup < U64) :
    s'.withdrawals = s.withdrawals ++
      withdrawalsBy rollup (approvedTxs cv hs rollup r (s.transactions.drop i) l) := by
  induction h with
  | nil => simp [approvedTxs_nil, withdrawalsBy]
  | cons i x l s s1 s2 c c1 c2 sc sc1 sc2 h1 h2 ih =>
    rw [h1.frame.1] at ih
    rw [ih hb]
    cases h1 with
    | rej tx tp ht hp ha =>
      rw [accepted_eq] at ha
      rw [drop_eq_cons ht, approvedTxs_cons_neg ha]
    | acc tx tp dels adds l' st c1' c2' w ht hp ha hd hadd hn hw1 hw2 =>
      rw [accepted_eq] at ha
      have hw : w = tx.withdrawn rollup := by
        rcases hb with hb | hb
        · exact hw2 hb
        · rw [hw1, Nat.mod_eq_of_lt (hb tx (List.mem_of_getElem? ht))]
      rw [drop_eq_cons ht, approvedTxs_cons_pos ha]
      simp only [withdrawalsBy, List.flatMap_cons, Tx.withdrawalsOf, List.append_assoc, hw]
      congr 2
      by_cases h0 : tx.withdrawn rollup = 0
      · simp [h0]
      · simp [h0, Nat.pos_of_ne_zero h0]

/-- Signer list of a run. -/
theorem Runs.signers {i : Nat} {l : List (Pair q G)} {s s' : State p q G} {c c' : Nat → UTXO Nat G}
    {sc sc' : Nat → G} (h : Runs b cv hs rollup r i l s c sc s' c' sc') :
    s'.signers = s.signers ++ ((s.transactions.drop i).zip l).map
      (fun y => if Approves cv hs rollup r y.1 y.2 then some y.2.1 else none) := by
  induction h with
  | nil => simp
  | cons i x l s s1 s2 c c1 c2 sc sc1 sc2 h1 h2 ih =>
    rw [h1.frame.1] at ih
    rw [ih]
    cases h1 with
    | rej tx tp ht hp ha =>
      rw [accepted_eq] at ha
      rw [drop_eq_cons ht]
      simp [ha]
    | acc tx tp dels adds l' st c1' c2' w ht hp ha hd hadd hn hw1 hw2 =>
      rw [accepted_eq] at ha
      rw [drop_eq_cons ht]
      simp [ha]

/-- Circuit inputs of a run. -/
theorem Runs.inputs {i : Nat} {l : List (Pair q G)} {s s' : State p q G} {c c' : Nat → UTXO Nat G}
    {sc sc' : Nat → G} (h : Runs b cv hs rollup r i l s c sc s' c' sc') :
    ∃ ins, s'.ivcInputs = s.ivcInputs ++ ins ∧
      ins.map (fun y => (y.tx, y.senderPk, y.signature)) =
        ((s.transactions.drop i).zip l).map (fun y => (y.1, y.2.1, y.2.2.getD (0, 0))) ∧
      ins.map (·.txProof) = (s.txProofs.drop i).take l.length := by
  induction h with
  | nil => exact ⟨[], by simp⟩
  | cons i x l s s1 s2 c c1 c2 sc sc1 sc2 h1 h2 ih =>
    obtain ⟨ins, e1, e2, e3⟩ := ih
    rw [h1.frame.1] at e2
    rw [h1.frame.2.2.1] at e3
    cases h1 with
    | rej tx tp ht hp ha =>
      refine ⟨rejInputs cv hs tx tp x.1 x.2 :: ins, by rw [e1]; simp, ?_, ?_⟩
      · rw [drop_eq_cons ht]; simp only [List.map_cons, List.zip_cons_cons, e2]; rfl
      · rw [drop_eq_cons hp]; simp only [List.map_cons, List.length_cons, List.take_succ_cons, e3]; rfl
    | acc tx tp dels adds l' st c1' c2' w ht hp ha hd hadd hn hw1 hw2 =>
      refine ⟨accInputs cv hs tx tp x.1 x.2 dels adds sc s.signers.length :: ins, by rw [e1]; simp, ?_, ?_⟩
      · rw [drop_eq_cons ht]; simp only [List.map_cons, List.zip_cons_cons, e2]; rfl
      · rw [drop_eq_cons hp]; simp only [List.map_cons, List.length_cons, List.take_succ_cons, e3]; rfl

theorem Deleted.slots {us : List (UTXO Nat G)}
    {ds : List (ZMod p × List (ZMod p))} {c c' : Nat → UTXO Nat G} (h : Deleted cv hs rollup us ds c c')
    (j : Nat) : c' j = c j ∨ c' j = UTXO.dummy := by
  induction us generalizing ds c with
  | nil => obtain ⟨_, rfl⟩ := h; exact Or.inl rfl
  | cons v us ih =>
    unfold Deleted at h
    split at h
    · obtain ⟨idx, ds', h1, h2, _, h4⟩ := h
      rcases ih h4 with e | e
      · by_cases hj : j = idx
        · right; rw [e]; simp [write, hj]
        · left; rw [e]; simp [write, hj]
      · exact Or.inr e
    · obtain ⟨ds', _, h4⟩ := h
      exact ih h4

theorem Added.slots {us : List (UTXO Nat G)} {n : Nat}
    {ds : List (ZMod p × List (ZMod p))} {c c' : Nat → UTXO Nat G} (h : Added cv hs rollup us ds n c c')
    (j : Nat) (hj : j < n) : c' j = c j := by
  induction us generalizing ds c n with
  | nil => obtain ⟨_, rfl⟩ := h; rfl
  | cons v us ih =>
    unfold Added at h
    split at h
    · obtain ⟨ds', _, _, _, h4⟩ := h
      rw [ih h4 (by omega)]; simp [write, Nat.ne_of_lt hj]
    · obtain ⟨ds', _, h4⟩ := h
      exact ih h4 hj

theorem Runs.slots {i : Nat} {l : List (Pair q G)} {s s' : State p q G} {c c' : Nat → UTXO Nat G}
    {sc sc' : Nat → G} (h : Runs b cv hs rollup r i l s c sc s' c' sc') (j : Nat)
    (hj : j < s.ledger.next) : c' j = c j ∨ c' j = UTXO.dummy := by
  induction h with
  | nil => exact Or.inl rfl
  | cons i x l s s1 s2 c c1 c2 sc sc1 sc2 h1 h2 ih =>
    have hf := h1.frame.2.2.2.2.2.1
    rcases ih (by omega) with e | e
    · cases h1 with
      | rej => exact Or.inl e
      | acc tx tp dels adds l' st c1' c2' w ht hp ha hd hadd hn hw1 hw2 =>
        rw [hadd.slots j hj] at e
        rcases hd.slots j with e' | e'
        · left; rw [e, e']
        · right; rw [e, e']
    · exact Or.inr e

theorem Runs.append_last {i : Nat} {l : List (Pair q G)} {x : Pair q G} {s s1 s2 : State p q G}
    {c c1 c2 : Nat → UTXO Nat G} {sc sc1 sc2 : Nat → G}
    (h : Runs b cv hs rollup r i l s c sc s1 c1 sc1)
    (h2 : Step b cv hs rollup r (i + l.length) x s1 c1 sc1 s2 c2 sc2) :
    Runs b cv hs rollup r i (l ++ [x]) s c sc s2 c2 sc2 := by
  induction h with
  | nil i s c sc => exact Runs.cons _ _ _ _ _ _ _ _ _ _ _ _ (by simpa using h2) (Runs.nil _ _ _ _)
  | cons i y l s s1' s2' c c1' c2' sc sc1' sc2' k1 k2 ih =>
    refine Runs.cons _ _ _ _ _ _ _ _ _ _ _ _ k1 (ih ?_)
    simp only [List.length_cons] at h2
    rw [show i + 1 + l.length = i + (l.length + 1) by omega]; exact h2

end PF.Agg

namespace PF.Agg
open PF PF.MT PF.Spec
variable {p q : Nat} {G : Type} [AddCommGroup G] [Module (ZMod q) G] [DecidableEq G]
variable {b : Build} {cv : Curve p q G} {hs : Hashes p} {rollup : G} {r : ZMod p}

/-! ## Splitting a call -/

theorem SM.bind_assoc {σ ε α β γ : Type} (m : SM σ ε α) (f : α → SM σ ε β) (g : β → SM σ ε γ) :
    SM.bind (SM.bind m f) g = SM.bind m (fun a => SM.bind (f a) g) := by
  funext s
  unfold SM.bind
  rcases m s with ⟨s', a | e | _⟩ <;> rfl

theorem processFrom_append (l1 l2 : List (Pair q G)) (i : Nat) :
    processFrom b cv hs rollup i (l1 ++ l2) =
      SM.bind (processFrom b cv hs rollup i l1) (fun _ => processFrom b cv hs rollup (i + l1.length) l2) := by
  induction l1 generalizing i with
  | nil => funext s; simp [processFrom, SM.bind, SM.pure]
  | cons x l1 ih =>
    simp only [List.cons_append, processFrom]
    rw [SM.bind_assoc]
    congr 1
    funext _
    rw [ih]
    simp only [List.length_cons]
    rw [show i + 1 + l1.length = i + (l1.length + 1) by omega]

theorem processFrom_err {l : List (Pair q G)} {i : Nat} {s s' : State p q G} {e : AggError}
    (h : processFrom b cv hs rollup i l s = (s', .err e)) :
    ∃ k x s1, l[k]? = some x ∧ processFrom b cv hs rollup i (l.take k) s = (s1, .ok ()) ∧
      processOne b cv hs rollup (i + k) x.1 x.2 s1 = (s', .err e) := by
  induction l generalizing i s with
  | nil => simp [processFrom, SM.pure] at h
  | cons x l ih =>
    unfold processFrom at h
    rcases h1 : processOne b cv hs rollup i x.1 x.2 s with ⟨s1, o⟩
    rcases o with u | e' | _
    · rw [SM.bind_of_ok h1] at h
      obtain ⟨k, y, s2, e1, e2, e3⟩ := ih h
      refine ⟨k + 1, y, s2, by simpa using e1, ?_, by rw [show i + (k + 1) = i + 1 + k by omega]; exact e3⟩
      simp only [List.take_succ_cons, processFrom]
      rw [SM.bind_of_ok h1]; exact e2
    · rw [SM.bind_of_err h1] at h
      refine ⟨0, x, s, rfl, rfl, ?_⟩
      simp only [Nat.add_zero]; rw [h1, h]
    · rw [SM.bind_of_panic h1] at h; simp at h

theorem processTransactions_append (l1 l2 : List (G × Tx Nat G)) :
    processTransactions b cv hs (l1 ++ l2) =
      SM.bind (processTransactions b cv hs l1) (fun _ => processTransactions b cv hs l2) := by
  induction l1 with
  | nil => funext s; simp [processTransactions, SM.bind, SM.pure]
  | cons x l1 ih =>
    simp only [List.cons_append, processTransactions]
    rw [SM.bind_assoc, ih]

theorem processTransactions_err {l : List (G × Tx Nat G)} {s s' : State p q G} {e : TransactionError}
    (h : processTransactions b cv hs l s = (s', .err e)) :
    ∃ k x, l[k]? = some x ∧ processTransactions b cv hs (l.take k) s = (s', .ok ()) ∧
      x.2.isValid b (some x.1) = .err e := by
  induction l generalizing s with
  | nil => simp [processTransactions, SM.pure] at h
  | cons x l ih =>
    unfold processTransactions at h
    rcases hv : x.2.isValid b (some x.1) with u | e' | _
    · rcases h1 : processTx b cv hs x.1 x.2 s with ⟨s1, o⟩
      rcases o with u | e' | _
      · rw [SM.bind_of_ok h1] at h
        obtain ⟨k, y, e1, e2, e3⟩ := ih h
        refine ⟨k + 1, y, by simpa using e1, ?_, e3⟩
        simp only [List.take_succ_cons, processTransactions]
        rw [SM.bind_of_ok h1]; exact e2
      · exfalso
        unfold processTx at h1
        rw [hv] at h1
        simp only at h1
        unfold onOk at h1
        split at h1 <;> simp at h1
      · rw [SM.bind_of_panic h1] at h; simp at h
    · rw [SM.bind_of_err (s' := s) (e := e') (by unfold processTx; rw [hv])] at h
      simp only [Prod.mk.injEq, Outcome.err.injEq] at h
      obtain ⟨rfl, rfl⟩ := h
      exact ⟨0, x, rfl, rfl, hv⟩
    · rw [SM.bind_of_panic (s' := s) (by unfold processTx; rw [hv])] at h
      simp at h

/-! ## From the invariant to the specification -/

theorem Inv.represents {s : State p q G} {c : Nat → UTXO Nat G} {sc : Nat → G} (h : Inv cv hs s c sc) :
    Represents cv hs s c := by
  refine ⟨?_, fun u hu i => h.holds.pos u hu i, h.holds.clean⟩
  rw [STree.rootHash, h.holds.tree.root, Outcome.unwrap_some]
  rfl

theorem Represents.unique {s : State p q G} {c c' : Nat → UTXO Nat G} (h : Represents cv hs s c)
    (h' : Represents cv hs s c') : c = c' := by
  funext i
  by_cases h1 : (c i).isDummy = true
  · by_cases h2 : (c' i).isDummy = true
    · rw [h.dummies i h1, h'.dummies i h2]
    · have h2' : (c' i).isDummy = false := by simpa using h2
      have := (h'.slots (c' i) h2' i).2 rfl
      exact (h.slots (c' i) h2' i).1 this
  · have h1' : (c i).isDummy = false := by simpa using h1
    have := (h.slots (c i) h1' i).2 rfl
    exact ((h'.slots (c i) h1' i).1 this).symm

theorem Inv.root {s : State p q G} {c : Nat → UTXO Nat G} {sc : Nat → G} (h : Inv cv hs s c sc) :
    s.txTree.root = some (txRoot cv hs s) := by
  rw [h.tx.root]; rfl

theorem copies_eq_length {c : Nat → UTXO Nat G} {n : Nat} {u : UTXO Nat G} {l : List Nat}
    (hnd : l.Nodup) (hmem : ∀ i, i ∈ l ↔ c i = u) (hlt : ∀ i ∈ l, i < n) : copies c n u = l.length := by
  unfold copies
  rw [List.countP_eq_length_filter]
  have hp : List.Perm ((List.range n).filter (fun i => decide (c i = u))) l := by
    rw [List.perm_ext_iff_of_nodup (List.nodup_range.filter _) hnd]
    intro i
    simp only [List.mem_filter, List.mem_range, decide_eq_true_eq, ← hmem]
    exact ⟨fun h => h.2, fun h => ⟨hlt i h, h⟩⟩
  exact hp.length_eq

theorem Inv.pos_lt {s : State p q G} {c : Nat → UTXO Nat G} {sc : Nat → G} (h : Inv cv hs s c sc)
    {u : UTXO Nat G} (hu : u.isDummy = false) {i : Nat} (hi : i ∈ positions s u) : i < s.ledger.next := by
  by_contra hge
  have h1 := h.holds.fresh i (by omega)
  have h2 := (h.holds.pos u hu i).1 hi
  rw [h1] at h2; rw [← h2] at hu; simp [UTXO.dummy] at hu

theorem Inv.live {s : State p q G} {c : Nat → UTXO Nat G} {sc : Nat → G} (h : Inv cv hs s c sc)
    {u : UTXO Nat G} (hu : u.isDummy = false) : copies c UTXO_CAP u = (positions s u).length := by
  refine copies_eq_length (h.holds.nodup u) (fun i => h.holds.pos u hu i) ?_
  intro i hi
  have := h.pos_lt hu hi
  have := h.nextCap
  omega

/-- What a call does, in terms of the invariant. -/
theorem op_spec {s : State p q G} {c : Nat → UTXO Nat G} {sc : Nat → G} (h : Inv cv hs s c sc) (op : Op q G)
    (hf : op.Fits s) (hr : (op.run b cv hs s).2 ≠ .panic) :
    ∃ c' sc', Inv cv hs (op.run b cv hs s).1 c' sc' ∧ s.ledger.next ≤ (op.run b cv hs s).1.ledger.next ∧
      (op.run b cv hs s).1.height = s.height ∧
      ∀ j, j < s.ledger.next → c' j = c j ∨ c' j = UTXO.dummy := by
  cases op with
  | newEpoch => exact ⟨c, sc, inv_reset h, le_refl _, rfl, fun j _ => Or.inl rfl⟩
  | transactions l =>
    obtain ⟨done, rest, t, prs, e1, e2, e3, o, e4, e5⟩ := processTransactions_spec (b := b) l s h hf
    refine ⟨c, sc, ?_, ?_, ?_, fun j _ => Or.inl rfl⟩
    · simp only [Op.run, e4]; exact e3
    · simp only [Op.run, e4]; exact le_refl _
    · simp only [Op.run, e4]
  | signatures rollup l =>
    obtain ⟨hf1, hf2⟩ := hf
    rcases processFrom_spec (b := b) (rollup := rollup) l 0 s h h.root hf1 hf2 with
      ⟨s', c', sc', e1, e2, e3, e4⟩ | ⟨s', c', sc', e, e1, ⟨dn, x, rs, s1, c1, sc1, e2, e3, _, _, e4, e5⟩, e6⟩ |
      ⟨e1, _⟩
    · refine ⟨c', sc', ?_, ?_, ?_, ?_⟩
      · simp only [Op.run, processSignatures, e1]; exact e4
      · simp only [Op.run, processSignatures, e1]; exact e3.frame.2.2.2.2.2
      · simp only [Op.run, processSignatures, e1]; exact e3.frame.2.2.2.1
      · exact fun j hj => e3.slots j hj
    · obtain ⟨tx, d2, u, r2, dels, l', st, g1, g2, g3, g4, g5, g6, g7, g8, g9, g10⟩ := e5
      have hn : s'.ledger.next = s1.ledger.next := by rw [g10]; exact g8
      refine ⟨c', sc', ?_, ?_, ?_, ?_⟩
      · simp only [Op.run, processSignatures, e1]; exact e6
      · simp only [Op.run, processSignatures, e1]; rw [hn]; exact e4.frame.2.2.2.2.2
      · simp only [Op.run, processSignatures, e1]; rw [g10]; exact e4.frame.2.2.2.1
      · intro j hj
        rcases g4.slots j with k | k
        · rw [k]; exact e4.slots j hj
        · exact Or.inr k
    · exfalso; apply hr
      simp only [Op.run, processSignatures, e1]

theorem reach_inv {s : State p q G} (h : Reach b cv hs s) : ∃ c sc, Inv cv hs s c sc := by
  induction h with
  | new => exact ⟨_, _, inv_new cv hs⟩
  | call s op h hf hr ih =>
    obtain ⟨c, sc, hi⟩ := ih
    obtain ⟨c', sc', k, _⟩ := op_spec hi op hf hr
    exact ⟨c', sc', k⟩

theorem reach_height {s : State p q G} (h : Reach b cv hs s) : s.height = 0 := by
  induction h with
  | new => rfl
  | call s op h hf hr ih =>
    obtain ⟨c, sc, hi⟩ := reach_inv h
    obtain ⟨c', sc', _, _, k, _⟩ := op_spec hi op hf hr
    rw [k, ih]

end PF.Agg
