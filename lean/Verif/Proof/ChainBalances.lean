import Verif.Spec.ChainBalances
import Verif.Props.BlockChain
import Verif.Props.Client

/-!
# Balances of keys along a chain: lemmas
-/
set_option linter.unusedSectionVars false

namespace PF.AggC
open PF PF.Spec PF.Props
variable {p q : Nat} {G : Type} [AddCommGroup G] [Module (ZMod q) G] [DecidableEq G]

/-- Multiplicities over a chain, for the contents the updates lead to. -/
theorem chain_copies (h : Sizes p q) {P : Params p G} {cv : Curve p q G} {es : List (Epoch p G)}
    {u u' : ZMod p} (hch : Chain P cv u es u') {c : Nat → UTXO (ZMod p) G} (hl : Legal c (chainUpds P cv es))
    (v : UTXO (ZMod p) G) (hv : v ≠ UTXO.dummy) :
    copies (applied c (chainUpds P cv es)) UTXO_CAP v + (chainSpent P cv es).count v =
      copies c UTXO_CAP v + (chainCreated P cv es).count v := by
  induction es generalizing u c with
  | nil => rfl
  | cons e es ih =>
    obtain ⟨ha, hch⟩ := hch
    obtain ⟨z', hrun, -, hu⟩ := accepted_root ha
    rw [chainUpds_cons] at hl ⊢
    obtain ⟨l1, l2⟩ := (legal_append _ _ _).1 hl
    have k1 := run_copies (v := v) e.txs (run_facts h hrun).shape l1 hv
    have k2 := ih hch l2
    rw [applied_append]
    have e1 : (chainSpent P cv (e :: es)).count v =
        (spentList P cv e.final e.txs).count v + (chainSpent P cv es).count v := by
      simp only [chainSpent, List.flatMap_cons, List.count_append]
    have e2 : (chainCreated P cv (e :: es)).count v =
        (createdList P cv e.final e.txs).count v + (chainCreated P cv es).count v := by
      simp only [chainCreated, List.flatMap_cons, List.count_append]
    rw [e1, e2]
    generalize copies (applied (applied c (ledgerUpds P cv e.final e.txs)) (chainUpds P cv es)) UTXO_CAP v = x1 at *
    generalize copies (applied c (ledgerUpds P cv e.final e.txs)) UTXO_CAP v = x2 at *
    generalize copies c UTXO_CAP v = x3 at *
    omega

/-- The real UTXOs among the first `n` slots. -/
def realVal (c : Nat → UTXO (ZMod p) G) (n : Nat) : List (UTXO (ZMod p) G) :=
  ((List.range n).map c).filter fun u => !u.isDummy

omit [AddCommGroup G] [DecidableEq G] in
theorem totalVal_real (l : List (UTXO (ZMod p) G)) : totalVal (l.filter fun u => !u.isDummy) = totalVal l := by
  unfold totalVal
  induction l with
  | nil => rfl
  | cons u l ih => cases hu : u.isDummy <;> simp [hu, ih]

theorem totalVal_app (a b : List (UTXO (ZMod p) G)) : totalVal (a ++ b) = totalVal a + totalVal b := by
  unfold totalVal; simp

theorem totalVal_flat {α : Type} (l : List α) (f : α → List (UTXO (ZMod p) G)) :
    totalVal (l.flatMap f) = (l.map fun a => totalVal (f a)).sum := by
  induction l with
  | nil => rfl
  | cons a l ih => rw [List.flatMap_cons, totalVal_app, ih]; rfl

theorem count_realVal (c : Nat → UTXO (ZMod p) G) (n : Nat) (u : UTXO (ZMod p) G) (hu : u.isDummy = false) :
    (realVal c n).count u = copies c n u := by
  unfold realVal copies
  rw [List.count_filter (by simp [hu]), List.count, List.countP_map]
  rfl

theorem heldVal_real (c : Nat → UTXO (ZMod p) G) (n : Nat) (k : G) :
    heldVal c n k = totalVal ((realVal c n).filter fun u => u.pk = k) := by
  unfold heldVal realVal
  rw [← totalVal_real, List.filter_filter, List.filter_filter]
  congr 1
  apply List.filter_congr
  intro u _
  exact Bool.and_comm _ _

theorem heldVal_of_counts {c c' : Nat → UTXO (ZMod p) G} {n : Nat} {a m : List (UTXO (ZMod p) G)} (k : G)
    (ha : ∀ u ∈ a, u.isDummy = false) (hm : ∀ u ∈ m, u.isDummy = false)
    (h : ∀ u : UTXO (ZMod p) G, u.isDummy = false → copies c' n u + a.count u = copies c n u + m.count u) :
    heldVal c' n k + totalVal (a.filter fun u => u.pk = k) =
      heldVal c n k + totalVal (m.filter fun u => u.pk = k) := by
  have hp : (realVal c' n ++ a).Perm (realVal c n ++ m) := by
    rw [List.perm_iff_count]
    intro u
    rw [List.count_append, List.count_append]
    by_cases hu : u.isDummy = true
    · have h0 : ∀ l : List (UTXO (ZMod p) G), (∀ u ∈ l, u.isDummy = false) → l.count u = 0 := fun l hl =>
        List.count_eq_zero_of_not_mem fun hmem => by
          have := hl u hmem; rw [hu] at this; cases this
      rw [h0 a ha, h0 m hm, h0 (realVal c n) (by simp [realVal]), h0 (realVal c' n) (by simp [realVal])]
    · have hu : u.isDummy = false := by simpa using hu
      rw [count_realVal _ _ _ hu, count_realVal _ _ _ hu]
      exact h u hu
  have := ((hp.filter fun u => decide (u.pk = k)).map fun u => if u.isDummy then 0 else u.amount.val).sum_eq
  change totalVal _ = totalVal _ at this
  rw [List.filter_append, List.filter_append, totalVal_app, totalVal_app] at this
  rw [heldVal_real, heldVal_real]
  exact this

/-- What the spent UTXOs take from `k`, epoch by epoch: the authorised transactions, because an unsigned
authorised transaction has only inputs of the contract. -/
theorem spent_of {P : Params p G} {cv : Curve p q G} {k : G} (hk : k ≠ P.contract) (root : ZMod p)
    (is : List (CInputs p G)) (hown : ∀ i ∈ is, OwnedBy i.senderPk i.tx.inputs.toList) :
    totalVal ((spentList P cv root is).filter fun u => u.pk = k) =
      ((((is.filter fun i => i.authorised P cv root).map fun i => i.tx)).map (takesFrom k)).sum := by
  induction is with
  | nil => rfl
  | cons i is ih =>
    have hi := ih (fun j hj => hown j (by simp [hj]))
    have ho := hown i (by simp)
    have e : spentList P cv root (i :: is) =
        (if i.signed cv P.hs root then i.tx.inputs.toList.filter (fun u => !u.isDummy) else []) ++
          spentList P cv root is := rfl
    rw [e, List.filter_append, totalVal_app, hi]
    have e2 : totalVal ((i.tx.inputs.toList.filter (fun u => !u.isDummy)).filter fun u => u.pk = k) =
        takesFrom k i.tx := by
      unfold takesFrom
      rw [← totalVal_real (List.filter (fun u => decide (u.pk = k)) i.tx.inputs.toList), List.filter_filter,
        List.filter_filter]
      congr 1
      apply List.filter_congr
      intro u _
      exact Bool.and_comm _ _
    cases hs : i.signed cv P.hs root with
    | true =>
      have ha : i.authorised P cv root = true := by simp [CInputs.authorised, hs]
      rw [if_pos rfl, e2, List.filter_cons_of_pos (by exact ha)]
      rfl
    | false =>
      rw [if_neg (by simp), List.filter_nil]
      cases ha : i.authorised P cv root with
      | false => rw [List.filter_cons_of_neg (by simp [ha])]; simp [totalVal]
      | true =>
        have hc : i.senderPk = P.contract := by simpa [CInputs.authorised, hs] using ha
        have h0 : takesFrom k i.tx = 0 := by
          rw [← e2]
          have : (i.tx.inputs.toList.filter (fun u => !u.isDummy)).filter (fun u => decide (u.pk = k)) = [] := by
            rw [List.filter_eq_nil_iff]
            intro u hu
            rw [List.mem_filter] at hu
            have := ho u hu.1 (by simpa using hu.2)
            rw [hc] at this
            simp [this, hk.symm]
          rw [this]; rfl
        rw [List.filter_cons_of_pos (by exact ha)]
        simp only [List.map_cons, List.sum_cons, h0, zero_add]
        simp [totalVal]

/-- What the created UTXOs pay to `k`. -/
theorem created_of {P : Params p G} {cv : Curve p q G} {k : G} (hk : k ≠ P.contract) (root : ZMod p)
    (is : List (CInputs p G)) :
    totalVal ((createdList P cv root is).filter fun u => u.pk = k) =
      ((((is.filter fun i => i.authorised P cv root).map fun i => i.tx)).map (paysTo k)).sum := by
  induction is with
  | nil => rfl
  | cons i is ih =>
    have e : createdList P cv root (i :: is) =
        (if i.authorised P cv root then i.tx.outputs.toList.filter (fun u => u.onLedger P.contract) else []) ++
          createdList P cv root is := rfl
    rw [e, List.filter_append, totalVal_app, ih]
    have e2 : totalVal ((i.tx.outputs.toList.filter (fun u => u.onLedger P.contract)).filter fun u => u.pk = k) =
        paysTo k i.tx := by
      unfold paysTo
      rw [← totalVal_real (List.filter (fun u => decide (u.pk = k)) i.tx.outputs.toList), List.filter_filter,
        List.filter_filter]
      congr 1
      apply List.filter_congr
      intro u _
      by_cases h : u.pk = k
      · simp [UTXO.onLedger, h, hk]
      · simp [h]
    cases ha : i.authorised P cv root with
    | true => rw [if_pos rfl, e2, List.filter_cons_of_pos (by exact ha)]; rfl
    | false =>
      rw [if_neg (by simp), List.filter_nil, List.filter_cons_of_neg (by simp [ha])]; simp [totalVal]

theorem chain_spent_of (h : Sizes p q) {P : Params p G} {cv : Curve p q G} {k : G} (hk : k ≠ P.contract)
    {es : List (Epoch p G)} {u u' : ZMod p} (hch : Chain P cv u es u') :
    totalVal ((chainSpent P cv es).filter fun u => u.pk = k) = ((chainTxs P cv es).map (takesFrom k)).sum := by
  induction es generalizing u with
  | nil => rfl
  | cons e es ih =>
    obtain ⟨ha, hch⟩ := hch
    obtain ⟨z', hrun, -, hu⟩ := accepted_root ha
    have e1 : chainSpent P cv (e :: es) = spentList P cv e.final e.txs ++ chainSpent P cv es := rfl
    have e2 : chainTxs P cv (e :: es) =
        ((e.txs.filter fun i => i.authorised P cv e.final).map fun i => i.tx) ++ chainTxs P cv es := rfl
    rw [e1, e2, List.filter_append, totalVal_app, List.map_append, List.sum_append, ih hch,
      spent_of hk e.final e.txs (run_facts h hrun).owned]

theorem chain_created_of {P : Params p G} {cv : Curve p q G} {k : G} (hk : k ≠ P.contract)
    (es : List (Epoch p G)) :
    totalVal ((chainCreated P cv es).filter fun u => u.pk = k) = ((chainTxs P cv es).map (paysTo k)).sum := by
  induction es with
  | nil => rfl
  | cons e es ih =>
    have e1 : chainCreated P cv (e :: es) = createdList P cv e.final e.txs ++ chainCreated P cv es := rfl
    have e2 : chainTxs P cv (e :: es) =
        ((e.txs.filter fun i => i.authorised P cv e.final).map fun i => i.tx) ++ chainTxs P cv es := rfl
    rw [e1, e2, List.filter_append, totalVal_app, List.map_append, List.sum_append, ih, created_of hk]

theorem chainSpent_real {P : Params p G} {cv : Curve p q G} {es : List (Epoch p G)} :
    ∀ u ∈ chainSpent P cv es, u.isDummy = false := by
  intro u hu
  simp only [chainSpent, spentList, List.mem_flatMap] at hu
  obtain ⟨_, _, _, _, h⟩ := hu
  split at h
  · simpa using (List.mem_filter.1 h).2
  · cases h

theorem chainCreated_real {P : Params p G} {cv : Curve p q G} {es : List (Epoch p G)} :
    ∀ u ∈ chainCreated P cv es, u.isDummy = false := by
  intro u hu
  simp only [chainCreated, createdList, List.mem_flatMap] at hu
  obtain ⟨_, _, _, _, h⟩ := hu
  split at h
  · have := (List.mem_filter.1 h).2
    unfold UTXO.onLedger at this
    have := (Bool.and_eq_true _ _ ▸ this : (!u.isDummy) = true ∧ _).1
    simpa using this
  · cases h

/-- Balance of a key over a chain, for the contents the updates lead to. -/
theorem chain_held (h : Sizes p q) {P : Params p G} {cv : Curve p q G} {es : List (Epoch p G)}
    {u u' : ZMod p} (hch : Chain P cv u es u') {c : Nat → UTXO (ZMod p) G} (hl : Legal c (chainUpds P cv es))
    {k : G} (hk : k ≠ P.contract) :
    heldVal (applied c (chainUpds P cv es)) UTXO_CAP k + ((chainTxs P cv es).map (takesFrom k)).sum =
      heldVal c UTXO_CAP k + ((chainTxs P cv es).map (paysTo k)).sum := by
  rw [← chain_spent_of h hk hch, ← chain_created_of hk]
  exact heldVal_of_counts k chainSpent_real chainCreated_real fun v hv =>
    chain_copies h hch hl v (by rintro rfl; simp [UTXO.dummy] at hv)

theorem total_empty (l : List (UTXO (ZMod p) G)) (h : ∀ u ∈ l, u = UTXO.dummy) : totalVal l = 0 := by
  unfold totalVal
  induction l with
  | nil => rfl
  | cons u l ih =>
    rw [List.map_cons, List.sum_cons, ih fun v hv => h v (by simp [hv]), h u (by simp)]
    rfl

theorem heldVal_empty (n : Nat) (k : G) : heldVal (fun _ => (UTXO.dummy : UTXO (ZMod p) G)) n k = 0 := by
  apply total_empty
  intro u hu
  have := (List.mem_filter.1 hu).1
  simp only [List.mem_map] at this
  obtain ⟨_, _, rfl⟩ := this
  rfl

theorem value_empty (n : Nat) : valueOf (fun _ => (UTXO.dummy : UTXO (ZMod p) G)) n = 0 := by
  apply total_empty
  intro u hu
  simp only [List.mem_map] at hu
  obtain ⟨_, _, rfl⟩ := hu
  rfl

theorem keys_sum_le (ks : List G) (hks : ks.Nodup) (g : G) (x : Nat) :
    (ks.map fun k => if g = k then x else 0).sum ≤ x := by
  induction ks with
  | nil => simp
  | cons k ks ih =>
    rw [List.nodup_cons] at hks
    rw [List.map_cons, List.sum_cons]
    by_cases h : g = k
    · rw [if_pos h]
      have : (ks.map fun k => if g = k then x else 0) = List.replicate ks.length 0 := by
        rw [List.eq_replicate_iff]
        refine ⟨by simp, ?_⟩
        intro v hv
        obtain ⟨k', hk', rfl⟩ := List.mem_map.1 hv
        rw [if_neg]
        rintro e; exact hks.1 (by rw [← h, e]; exact hk')
      rw [this]; simp
    · rw [if_neg h, Nat.zero_add]; exact ih hks.2

/-- Different keys hold different parts of the ledger. -/
theorem held_sum_le (c : Nat → UTXO (ZMod p) G) (n : Nat) (ks : List G) (hnd : ks.Nodup) :
    (ks.map fun k => heldVal c n k).sum ≤ valueOf c n := by
  unfold heldVal valueOf
  generalize (List.range n).map c = l
  induction l with
  | nil => simp [totalVal]
  | cons u l ih =>
    have e : (ks.map fun k => totalVal ((u :: l).filter fun u => decide (u.pk = k))).sum =
        (ks.map fun k => if u.pk = k then totalVal [u] else 0).sum +
          (ks.map fun k => totalVal (l.filter fun u => decide (u.pk = k))).sum := by
      rw [← List.sum_map_add]
      congr 1
      apply List.map_congr_left
      intro k _
      by_cases hu : u.pk = k
      · rw [List.filter_cons_of_pos (by simpa using hu), if_pos hu, ← totalVal_app]; rfl
      · rw [List.filter_cons_of_neg (by simpa using hu), if_neg hu, zero_add]
    rw [e]
    have e2 : totalVal (u :: l) = totalVal [u] + totalVal l := totalVal_app [u] l
    rw [e2]
    exact Nat.add_le_add (keys_sum_le ks hnd _ _) ih

/-- Value over a chain in full mode, for the contents the updates lead to. -/
theorem chain_value (h : Sizes p q) {P : Params p G} (hfull : P.transferOnly = false) {cv : Curve p q G}
    {es : List (Epoch p G)} {u u' : ZMod p} (hch : Chain P cv u es u') {c : Nat → UTXO (ZMod p) G}
    (hl : Legal c (chainUpds P cv es)) (hh : Healthy P.contract c) :
    valueOf (applied c (chainUpds P cv es)) UTXO_CAP + chainPaidOut P cv es =
      valueOf c UTXO_CAP + chainDeposits es ∨ ShaBroken P cv es := by
  induction es generalizing u c with
  | nil => exact Or.inl rfl
  | cons e es ih =>
    obtain ⟨ha, hch⟩ := hch
    obtain ⟨z', hrun, hd, hu⟩ := accepted_root ha
    rw [chainUpds_cons] at hl ⊢
    obtain ⟨l1, l2⟩ := (legal_append _ _ _).1 hl
    have f := run_facts h hrun
    obtain ⟨k1, k2, k3, k4, k5, k6, k7⟩ :=
      C74_accepted_block h P hfull cv e.reg e.block ha.1 u e.tx0 e.final e.signer0 e.batches z' hrun hd
    rcases k6 with k6 | ⟨ds, d1, d2⟩
    swap
    · exact Or.inr ⟨e, by simp, ds, _, d2, Or.inl ⟨d1, rfl⟩⟩
    rcases f.books with ⟨t, _⟩ | ⟨_, b1, b2, b3, b4⟩
    · rw [hfull] at t; cases t
    have hv : valueOf (applied c (ledgerUpds P cv e.final e.txs)) UTXO_CAP +
        authorisedWithdrawals P cv e.final e.txs = valueOf c UTXO_CAP + depositTotal P e.txs :=
      run_value h e.batches.flatten f.shape f.owned f.sums b1 hh l1
    rcases ih hch l2 (healthy_applied b1 hh) with a3 | ⟨x, hx, k⟩
    · left
      have e1 : chainPaidOut P cv (e :: es) =
          authorisedWithdrawals P cv e.final e.txs + chainPaidOut P cv es := rfl
      have e2 : chainDeposits (e :: es) = depositTotal P e.txs + chainDeposits es := by
        have := sumAmounts_eq k6
        unfold sumAmounts at this
        simp only [chainDeposits, List.map_cons, List.sum_cons, this, depositTotal, Epoch.txs]
      rw [e1, e2, applied_append]
      generalize valueOf (applied (applied c (ledgerUpds P cv e.final e.txs)) (chainUpds P cv es)) UTXO_CAP = x0 at *
      generalize valueOf (applied c (ledgerUpds P cv e.final e.txs)) UTXO_CAP = x1 at *
      generalize valueOf c UTXO_CAP = x3 at *
      omega
    · exact Or.inr ⟨x, by simp [hx], k⟩

end PF.AggC
