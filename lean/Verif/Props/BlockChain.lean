import Verif.Spec.BlockChain
import Verif.Props.AggregatorProvable
import Verif.Props.AggregatorCircuitRuns

/-!
# Chains of accepted blocks (C102)

Many epochs: every block is accepted on top of the UTXO root of the previous one. The provers of different
epochs may be different, and nothing is assumed about the trees they keep.
-/
set_option linter.unusedSectionVars false

namespace PF.Props
open PF PF.Spec PF.AggC PF.Contract
variable {p q : Nat} {G : Type} [AddCommGroup G] [Module (ZMod q) G] [DecidableEq G]

theorem chainUpds_cons (P : Params p G) (cv : Curve p q G) (e : Epoch p G) (es : List (Epoch p G)) :
    chainUpds P cv (e :: es) = ledgerUpds P cv e.final e.txs ++ chainUpds P cv es := rfl

theorem chainUpds_idx {P : Params p G} {cv : Curve p q G} {es : List (Epoch p G)}
    {u : Upd (UTXO (ZMod p) G) (ZMod p)} (hu : u ∈ chainUpds P cv es) : u.idx < 2 ^ (32 - 1) := by
  obtain ⟨e, _, hu⟩ := List.mem_flatMap.1 hu
  exact ledgerUpds_idx hu

/-- The UTXO root of an accepted block is the one its run ends with. -/
theorem accepted_root {P : Params p G} {cv : Curve p q G} {u : ZMod p} {e : Epoch p G}
    (ha : e.Accepted P cv u) : ∃ z', runSteps P cv (initState u e.tx0 e.final e.signer0) e.batches z' ∧
      derivePublicInputs cv P.sha e.reg e.block = .ok z'.toList ∧ e.block.utxoRoot = z'.utxoRoot := by
  obtain ⟨hb, z', hr, hd⟩ := ha
  refine ⟨z', hr, hd, ?_⟩
  unfold derivePublicInputs at hd
  rcases h1 : signerAcc cv P.sha e.reg.pks e.block.signers 0 with sa | x | _ <;> rw [h1] at hd <;> simp at hd
  rcases h2 : amountAcc cv P.sha e.reg.pks e.block.deposits 0 with da | x | _ <;> rw [h2] at hd <;> simp at hd
  rcases h3 : amountAcc cv P.sha e.reg.pks e.block.withdrawals 0 with wa | x | _ <;> rw [h3] at hd <;>
    simp at hd
  simp only [CState.toList, List.cons.injEq, and_true] at hd
  exact hd.2.1

theorem mem_accepted {P : Params p G} {cv : Curve p q G} {u u' : ZMod p} {es : List (Epoch p G)}
    (hch : Chain P cv u es u') {e : Epoch p G} (he : e ∈ es) : ∃ w, e.Accepted P cv w := by
  induction es generalizing u with
  | nil => cases he
  | cons x es ih =>
    rcases List.mem_cons.1 he with rfl | he
    · exact ⟨u, hch.1⟩
    · exact ih hch.2 he

/-- **C102**: a chain of accepted blocks is one long ledger transition: all erasures and insertions of all
epochs, in order, each finding at its position what it claims, and the last block's UTXO root commits to the
result; or a collision is exhibited. -/
theorem C102_ledger (h : Sizes p q) (P : Params p G) (cv : Curve p q G) (es : List (Epoch p G))
    (u u' : ZMod p) (hch : Chain P cv u es u') (c : Nat → UTXO (ZMod p) G)
    (hc : RootOf P.hs (utxoEncVar cv) 32 c u) :
    (Legal c (chainUpds P cv es) ∧ RootOf P.hs (utxoEncVar cv) 32 (applied c (chainUpds P cv es)) u') ∨
    Collision P.hs (utxoEncVar cv) 32 c (chainUpds P cv es) := by
  induction es generalizing u c with
  | nil =>
    cases hch
    exact Or.inl ⟨legal_nil c, hc⟩
  | cons e es ih =>
    obtain ⟨ha, hch⟩ := hch
    obtain ⟨z', hr, -, hu⟩ := accepted_root ha
    rw [chainUpds_cons]
    rcases C50_runs_are_ledger_transitions h P cv _ z' _ hr c hc with ⟨l1, r1⟩ | k
    · rw [← hu] at r1
      rcases ih _ hch _ r1 with ⟨l2, r2⟩ | k
      · exact Or.inl ⟨(legal_append _ _ _).2 ⟨l1, l2⟩, by rw [applied_append]; exact r2⟩
      · exact Or.inr (Collision.right _ k)
    · exact Or.inr (Collision.left _ k)

/-- **C102**: no double spend over the whole chain. Whatever is removed from a position, in whatever epoch,
was either there before the first block and never touched since, or was put there by an earlier update of
the chain and not touched since. -/
theorem C102_no_double_spend (h : Sizes p q) (P : Params p G) (cv : Curve p q G) (es : List (Epoch p G))
    (u u' : ZMod p) (hch : Chain P cv u es u') (c : Nat → UTXO (ZMod p) G)
    (hc : RootOf P.hs (utxoEncVar cv) 32 c u)
    (us : List (Upd (UTXO (ZMod p) G) (ZMod p))) (hus : us = chainUpds P cv es) :
    (∀ (k : Nat) (v : Upd (UTXO (ZMod p) G) (ZMod p)), us[k]? = some v →
      (c v.idx = v.old ∧
        ∀ (m : Nat) (x : Upd (UTXO (ZMod p) G) (ZMod p)), m < k → us[m]? = some x → x.idx ≠ v.idx) ∨
      ∃ (k' : Nat) (w : Upd (UTXO (ZMod p) G) (ZMod p)), k' < k ∧ us[k']? = some w ∧ w.idx = v.idx ∧
        w.new = v.old ∧
        ∀ (m : Nat) (x : Upd (UTXO (ZMod p) G) (ZMod p)), k' < m → m < k → us[m]? = some x →
          x.idx ≠ v.idx) ∨
    Collision P.hs (utxoEncVar cv) 32 c us := by
  subst hus
  rcases C102_ledger h P cv es u u' hch c hc with ⟨hl, hr⟩ | hcol
  · left
    intro k v hk
    have hold := hl k v hk
    rcases last_touch ((chainUpds P cv es).take k) c v.idx with ⟨h1, h2⟩ | ⟨k', w, h1, h2, h3, h4⟩
    · left
      refine ⟨by rw [← h1, hold], fun m x hm hx => h2 m x ?_⟩
      rw [List.getElem?_take_of_lt hm]; exact hx
    · right
      have hk' : k' < k := by
        by_contra hge
        rw [List.getElem?_eq_none (by rw [List.length_take]; omega)] at h1; simp at h1
      rw [List.getElem?_take_of_lt hk'] at h1
      refine ⟨k', w, hk', h1, h2, by rw [← h3, hold], fun m x hm hmk hx => h4 m x hm ?_⟩
      rw [List.getElem?_take_of_lt hmk]; exact hx
  · exact Or.inr hcol

/-- **C102**: over the whole chain every UTXO is spent at most as often as it existed at the start plus the
times it was created: copies at the end plus spends equals copies at the start plus creations. -/
theorem C102_copies (h : Sizes p q) (P : Params p G) (cv : Curve p q G) (es : List (Epoch p G))
    (u u' : ZMod p) (hch : Chain P cv u es u') (c : Nat → UTXO (ZMod p) G)
    (hc : RootOf P.hs (utxoEncVar cv) 32 c u) :
    (∃ c', RootOf P.hs (utxoEncVar cv) 32 c' u' ∧ ∀ v, v ≠ UTXO.dummy →
      copies c' UTXO_CAP v + (chainSpent P cv es).count v =
        copies c UTXO_CAP v + (chainCreated P cv es).count v) ∨
    Collision P.hs (utxoEncVar cv) 32 c (chainUpds P cv es) := by
  rcases C102_ledger h P cv es u u' hch c hc with ⟨hl, hr⟩ | hcol
  · left
    refine ⟨_, hr, fun v hv => ?_⟩
    clear hr hc
    induction es generalizing u c with
    | nil => rfl
    | cons e es ih =>
      obtain ⟨ha, hch⟩ := hch
      obtain ⟨z', hrun, -, hu⟩ := accepted_root ha
      rw [chainUpds_cons] at hl ⊢
      obtain ⟨l1, l2⟩ := (legal_append _ _ _).1 hl
      have k1 := run_copies (v := v) e.txs (run_facts h hrun).shape l1 hv
      have k2 := ih _ hch _ l2
      rw [applied_append]
      have e1 : (chainSpent P cv (e :: es)).count v =
          (spentList P cv e.final e.txs).count v + (chainSpent P cv es).count v := by
        simp only [chainSpent, List.flatMap_cons, List.count_append]
      have e2 : (chainCreated P cv (e :: es)).count v =
          (createdList P cv e.final e.txs).count v + (chainCreated P cv es).count v := by
        simp only [chainCreated, List.flatMap_cons, List.count_append]
      rw [e1, e2]
      generalize copies (applied (applied c (ledgerUpds P cv e.final e.txs)) (chainUpds P cv es)) UTXO_CAP v = x1 at *
      generalize copies (applied c (ledgerUpds P cv e.final e.txs)) UTXO_CAP v = x2 at *
      generalize copies c UTXO_CAP v = x3 at *
      omega
  · exact Or.inr hcol

/-- **C102**: what a user owns stays until it is spent with a valid signature of its owner: if a UTXO of the
initial ledger is no longer at its position after the chain, then some epoch contains a transaction that has
it as an input, is sent by its owner and carries a valid signature on the transaction and on the transaction
root of that epoch's block. -/
theorem C102_removed_only_by_owner (h : Sizes p q) (P : Params p G) (cv : Curve p q G) (es : List (Epoch p G))
    (u u' : ZMod p) (hch : Chain P cv u es u') (c : Nat → UTXO (ZMod p) G)
    (hc : RootOf P.hs (utxoEncVar cv) 32 c u) :
    (∃ c', RootOf P.hs (utxoEncVar cv) 32 c' u' ∧
      ∀ j, c j ≠ UTXO.dummy → c' j ≠ c j →
        ∃ e ∈ es, ∃ i ∈ e.txs, i.signed cv P.hs e.final = true ∧ c j ∈ i.tx.inputs.toList ∧
          (c j).isDummy = false ∧ (c j).pk = i.senderPk) ∨
    Collision P.hs (utxoEncVar cv) 32 c (chainUpds P cv es) := by
  rcases C102_ledger h P cv es u u' hch c hc with ⟨hl, hr⟩ | hcol
  · left
    refine ⟨_, hr, fun j hj hne => ?_⟩
    obtain ⟨w, hw, _, ho⟩ := first_change _ c hl j hne
    obtain ⟨e, he, hw⟩ := List.mem_flatMap.1 hw
    rcases mem_ledgerUpds hw with ⟨i, hi, h1, h2, h3, _⟩ | ⟨i, hi, h1, h2, h3, h4⟩
    · rw [ho] at h2 h3
      refine ⟨e, he, i, hi, h1, h2, h3, ?_⟩
      obtain ⟨w, ha⟩ := mem_accepted hch he
      obtain ⟨z', hrun, -⟩ := accepted_root ha
      exact (run_facts h hrun).owned i hi _ h2 h3
    · rw [ho] at h4; exact absurd h4 hj
  · exact Or.inr hcol

/-- **C102** at every moment of the chain: the ledger passes through one array of slots per update, from the
initial one to one the last block commits to; whenever an update takes away the UTXO of a slot — also one
created later than the first block — that UTXO is a real input of a transaction of some epoch sent by its
owner, who signed the transaction and the transaction root of that epoch's block. -/
theorem C102_every_removal (h : Sizes p q) (P : Params p G) (cv : Curve p q G) (es : List (Epoch p G))
    (u u' : ZMod p) (hch : Chain P cv u es u') (c : Nat → UTXO (ZMod p) G)
    (hc : RootOf P.hs (utxoEncVar cv) 32 c u)
    (us : List (Upd (UTXO (ZMod p) G) (ZMod p))) (hus : us = chainUpds P cv es) :
    (RootOf P.hs (utxoEncVar cv) 32 (applied c us) u' ∧
      ∀ k j : Nat, applied c (us.take k) j ≠ UTXO.dummy →
        applied c (us.take (k + 1)) j ≠ applied c (us.take k) j →
        ∃ e ∈ es, ∃ i ∈ e.txs, i.signed cv P.hs e.final = true ∧
          applied c (us.take k) j ∈ i.tx.inputs.toList ∧
          (applied c (us.take k) j).isDummy = false ∧ (applied c (us.take k) j).pk = i.senderPk) ∨
    Collision P.hs (utxoEncVar cv) 32 c us := by
  subst hus
  rcases C102_ledger h P cv es u u' hch c hc with ⟨hl, hr⟩ | hcol
  · left
    refine ⟨hr, fun k j hj hne => ?_⟩
    obtain ⟨w, hw, ho⟩ := step_change _ c hl k j hne
    obtain ⟨e, he, hw⟩ := List.mem_flatMap.1 hw
    rcases mem_ledgerUpds hw with ⟨i, hi, h1, h2, h3, _⟩ | ⟨i, hi, h1, h2, h3, h4⟩
    · rw [ho] at h2 h3
      refine ⟨e, he, i, hi, h1, h2, h3, ?_⟩
      obtain ⟨w, ha⟩ := mem_accepted hch he
      obtain ⟨z', hrun, -⟩ := accepted_root ha
      exact (run_facts h hrun).owned i hi _ h2 h3
    · rw [ho] at h4; exact absurd h4 hj
  · exact Or.inr hcol

/-- **C102**: value over the whole chain, in full mode: the final ledger value plus what authorised
transactions paid out equals the initial value plus all deposits of all blocks, and what was paid out is at
most what the blocks declare as withdrawals. -/
theorem C102_value (h : Sizes p q) (P : Params p G) (hfull : P.transferOnly = false) (cv : Curve p q G)
    (es : List (Epoch p G)) (u u' : ZMod p) (hch : Chain P cv u es u') (c : Nat → UTXO (ZMod p) G)
    (hc : RootOf P.hs (utxoEncVar cv) 32 c u) (hh : Healthy P.contract c) :
    (∃ c', RootOf P.hs (utxoEncVar cv) 32 c' u' ∧ Healthy P.contract c' ∧
      valueOf c' UTXO_CAP + chainPaidOut P cv es = valueOf c UTXO_CAP + chainDeposits es ∧
      chainPaidOut P cv es ≤ chainWithdrawals es) ∨
    Collision P.hs (utxoEncVar cv) 32 c (chainUpds P cv es) ∨ ShaBroken P cv es := by
  induction es generalizing u c with
  | nil =>
    cases hch
    exact Or.inl ⟨c, hc, hh, rfl, le_refl _⟩
  | cons e es ih =>
    obtain ⟨ha, hch⟩ := hch
    obtain ⟨z', hrun, hd, hu⟩ := accepted_root ha
    have hC := C50_runs_are_ledger_transitions h P cv _ z' _ hrun c hc
    rcases hC with ⟨l1, r1⟩ | k
    swap
    · exact Or.inr (Or.inl (Collision.left _ k))
    rw [← hu] at r1
    have f := run_facts h hrun
    obtain ⟨k1, k2, k3, k4, k5, k6, k7⟩ :=
      C74_accepted_block h P hfull cv e.reg e.block ha.1 u e.tx0 e.final e.signer0 e.batches z' hrun hd
    rcases k6 with k6 | ⟨ds, d1, d2⟩
    swap
    · exact Or.inr (Or.inr ⟨e, by simp, ds, _, d2, Or.inl ⟨d1, rfl⟩⟩)
    rcases k7 with k7 | ⟨ds, d1, d2⟩
    swap
    · exact Or.inr (Or.inr ⟨e, by simp, ds, _, d2, Or.inr ⟨d1, rfl⟩⟩)
    obtain ⟨-, -, -, hle⟩ := C53_full_mode_conservation h P hfull cv _ z' _ hrun c hc hh
    rcases f.books with ⟨t, _⟩ | ⟨_, b1, b2, b3, b4⟩
    · rw [hfull] at t; cases t
    have hv : valueOf (applied c (ledgerUpds P cv e.final e.txs)) UTXO_CAP +
        authorisedWithdrawals P cv e.final e.txs = valueOf c UTXO_CAP + depositTotal P e.txs :=
      run_value h e.batches.flatten f.shape f.owned f.sums b1 hh l1
    rcases ih _ hch _ r1 (healthy_applied b1 hh) with ⟨c', a1, a2, a3, a4⟩ | k | ⟨x, hx, k⟩
    · left
      refine ⟨c', a1, a2, ?_, ?_⟩
      · have e1 : chainPaidOut P cv (e :: es) =
            authorisedWithdrawals P cv e.final e.txs + chainPaidOut P cv es := rfl
        have e2 : chainDeposits (e :: es) = depositTotal P e.txs + chainDeposits es := by
          have := sumAmounts_eq k6
          unfold sumAmounts at this
          simp only [chainDeposits, List.map_cons, List.sum_cons, this, depositTotal, Epoch.txs]
        rw [e1, e2]
        change _ = valueOf (applied c (ledgerUpds P cv e.final e.txs)) UTXO_CAP + _ at a3
        generalize valueOf (applied c (ledgerUpds P cv e.final e.txs)) UTXO_CAP = x1 at *
        generalize valueOf c' UTXO_CAP = x2 at *
        generalize valueOf c UTXO_CAP = x3 at *
        omega
      · have := sumAmounts_eq k7
        unfold sumAmounts at this
        show authorisedWithdrawals P cv e.final e.txs + chainPaidOut P cv es ≤
          (e.block.withdrawals.map (·.2)).sum + chainWithdrawals es
        rw [this]
        exact Nat.add_le_add hle a4
    · exact Or.inr (Or.inl (Collision.right _ k))
    · exact Or.inr (Or.inr ⟨x, by simp [hx], k⟩)

/-- What authorised transactions pay out is all that is declared, if every transaction that pays to the
contract is authorised. -/
theorem paidOut_eq (P : Params p G) (cv : Curve p q G) (root : ZMod p) (is : List (CInputs p G))
    (hall : ∀ i ∈ is, i.withdrawn P ≠ 0 → i.authorised P cv root = true) :
    authorisedWithdrawals P cv root is = ((withdrawalList P is).map (·.2)).sum := by
  induction is with
  | nil => rfl
  | cons i is ih =>
    rw [authorisedWithdrawals_cons, withdrawalList_cons, List.map_append, List.sum_append,
      ih (fun j hj => hall j (by simp [hj]))]
    congr 1
    by_cases hw : i.withdrawn P = 0
    · simp [withdrawalList, hw]
    · simp [withdrawalList, hw, hall i (by simp) hw]

/-- **C102**, solvency: a contract that starts with an empty ledger and in every epoch takes in the deposits
and pays out the withdrawals of the accepted block holds exactly the value of the final ledger, provided
every transaction paying to the contract was authorised. Without this proviso only "at most" holds, see
`C102_insolvency`. -/
theorem C102_solvency (h : Sizes p q) (P : Params p G) (hfull : P.transferOnly = false) (cv : Curve p q G)
    (es : List (Epoch p G)) (u u' : ZMod p) (hch : Chain P cv u es u')
    (hc : RootOf P.hs (utxoEncVar cv) 32 (fun _ => UTXO.dummy) u) :
    (∃ c', RootOf P.hs (utxoEncVar cv) 32 c' u' ∧ Healthy P.contract c' ∧
      chainDeposits es ≤ valueOf c' UTXO_CAP + chainWithdrawals es ∧
      ((∀ e ∈ es, ∀ i ∈ e.txs, i.withdrawn P ≠ 0 → i.authorised P cv e.final = true) →
        valueOf c' UTXO_CAP + chainWithdrawals es = chainDeposits es)) ∨
    Collision P.hs (utxoEncVar cv) 32 (fun _ => UTXO.dummy) (chainUpds P cv es) ∨ ShaBroken P cv es := by
  by_cases hsha : ShaBroken P cv es
  · exact Or.inr (Or.inr hsha)
  have h0 : valueOf (fun _ => UTXO.dummy : Nat → UTXO (ZMod p) G) UTXO_CAP = 0 := by
    unfold valueOf
    generalize UTXO_CAP = n
    induction n with
    | zero => rfl
    | succ n ih =>
      rw [List.range_succ, List.map_append]
      simp only [totalVal, List.map_append, List.sum_append] at ih ⊢
      rw [ih]
      simp [UTXO.dummy]
  rcases C102_value h P hfull cv es u u' hch _ hc (fun j hj => by simp [UTXO.dummy] at hj) with
    ⟨c', a1, a2, a3, a4⟩ | k | k
  · left
    rw [h0] at a3
    refine ⟨c', a1, a2, ?_, fun hall => ?_⟩
    · generalize valueOf c' UTXO_CAP = x at *
      omega
    · have key : chainPaidOut P cv es = chainWithdrawals es := by
        clear a1 a2 a3 a4 hc
        induction es generalizing u with
        | nil => rfl
        | cons e es ih =>
          obtain ⟨ha, hch⟩ := hch
          obtain ⟨z', hrun, hd, hu⟩ := accepted_root ha
          obtain ⟨k1, k2, k3, k4, k5, k6, k7⟩ := C74_accepted_block h P hfull cv e.reg e.block ha.1 u
            e.tx0 e.final e.signer0 e.batches z' hrun hd
          rcases k7 with k7 | ⟨ds, d1, d2⟩
          · have e7 := sumAmounts_eq k7
            unfold sumAmounts at e7
            show authorisedWithdrawals P cv e.final e.txs + chainPaidOut P cv es =
              (e.block.withdrawals.map (·.2)).sum + chainWithdrawals es
            rw [e7, paidOut_eq P cv e.final e.txs (hall e (by simp)),
              ih _ hch (fun hs => hsha ?_) (fun x hx => hall x (by simp [hx]))]
            · rfl
            · obtain ⟨x, hx, hs⟩ := hs
              exact ⟨x, by simp [hx], hs⟩
          · exact absurd ⟨e, by simp, ds, _, d2, Or.inr ⟨d1, rfl⟩⟩ hsha
      rw [← key]
      generalize valueOf c' UTXO_CAP = x at *
      omega
  · exact Or.inr (Or.inl k)
  · exact absurd k hsha

/-- **C102**, insolvency: without the proviso of `C102_solvency` the contract can be made to pay out any
amount without anything being deposited or spent. For a registered key other than the contract's, any
64-bit amount and any number of repetitions there is a chain of accepted blocks which leaves the ledger as
it is, records no deposit, and withdraws the amount once per block. -/
theorem C102_insolvency (h : Sizes p q) (hpq : p ≤ q) (P : Params p G) (hfull : P.transferOnly = false)
    (cv : Curve p q G) (u : ZMod p) (c : Nat → UTXO (ZMod p) G) (hc : RootOf P.hs (utxoEncVar cv) 32 c u)
    (st : Contract.State G) (k : Nat) (pk : G) (hk : st.pks[k]? = some pk) (hpk : pk ≠ P.contract)
    (a : Nat) (ha : a < 2 ^ 64) (ha0 : a ≠ 0) (n : Nat) :
    ∃ es : List (Epoch p G), es.length = n ∧ Chain P cv u es u ∧ (∀ e ∈ es, e.reg = st) ∧
      chainDeposits es = 0 ∧ chainWithdrawals es = n * a ∧
      (∀ e ∈ es, ∀ i ∈ e.txs, i.authorised P cv e.final = false) := by
  have hl := h.large
  have hva : ((a : ZMod p)).val = a := by rw [ZMod.val_natCast, Nat.mod_eq_of_lt (by omega)]
  have hP0 : ((UTXO.dummy : UTXO (ZMod p) G).amount).val = 0 := by simp [UTXO.dummy]
  have hout : ∀ u ∈ [UTXO.new P.contract ((a : ZMod p)), UTXO.dummy, UTXO.dummy, UTXO.dummy],
      u.amount.val < 2 ^ 64 := by
    intro u hu
    simp only [List.mem_cons, List.not_mem_nil, or_false] at hu
    rcases hu with rfl | rfl | rfl | rfl
    · show ((a : ZMod p)).val < _; rw [hva]; exact ha
    all_goals rw [hP0]; decide
  have hw : totalVal (([UTXO.new P.contract ((a : ZMod p)), UTXO.dummy, UTXO.dummy, UTXO.dummy]).filter
      fun u => decide (u.pk = P.contract)) = a := by
    rw [List.filter_cons_of_pos (by simp [UTXO.new])]
    by_cases h0 : (UTXO.dummy : UTXO (ZMod p) G).pk = P.contract
    · simp [totalVal, h0, UTXO.new, dummy_isDummy, hva]
    · simp [totalVal, h0, UTXO.new, hva]
  let tx : Tx (ZMod p) G := smallTx (UTXO.new pk (a : ZMod p)) (UTXO.new P.contract (a : ZMod p)) UTXO.dummy
  let t0 : ZMod p := merkleRoot (fun l => P.hs.crh (txEncVar cv l)) P.hs.h2 13 (fun _ => Tx.default)
  let f : ZMod p := merkleRoot (fun l => P.hs.crh (txEncVar cv l)) P.hs.h2 13 (write (fun _ => Tx.default) 0 tx)
  let s0 : ZMod p := merkleRoot (fun l => P.hs.crh (pkEncVar cv l)) P.hs.h2 13 (fun _ => (0 : G))
  let z : CState p := initState u t0 f s0
  have hz0 : z.step.val % TX_CAP = 0 := by simp [z, initState]
  obtain ⟨i, z', h1, h2, h3, h4, h5, h6, h7, h8⟩ := one_complete_tx h hpq P cv z c (fun _ => Tx.default)
    (fun _ => 0) hc rfl rfl tx pk
    (List.replicate (Circuit.modBits q) true) (List.replicate (Circuit.modBits q) true) (by simp) (by simp)
    [0, 0, 0, 0] [0, 0, 0, 0]
    (by intro u hu hd; rw [smallTx_inputs] at hu; simp at hu; rcases hu with rfl | rfl <;> first | rfl | cases hd)
    (by simp [tx, smallTx_inputs, smallTx_outputs, totalVal, UTXO.new, dummy_isDummy])
    (fun _ => ⟨by rw [smallTx_outputs]; exact hout, by rw [smallTx_outputs, hw]; exact ha⟩)
    false (by simp [ones_not_lt])
    (by simp [tx, smallTx_inputs, fits])
    (by simp [tx, smallTx_inputs, smallTx_outputs, placed, fits, hpk])
    rfl (fun _ => rfl)
  have hna : i.authorised P cv f = false := by
    have h5' : i.signed cv P.hs f = false := h5
    simp [CInputs.authorised, h5', h2, hpk]
  obtain ⟨n1, n2, n3, n4⟩ := C52_unauthorised_is_inert h P cv z z' i h6 hna
  have fs := (stepOne_iff h P cv z i z').1 h6
  have ht : z'.txRoot = f := by rw [h8, hz0]
  have hwd : z'.withdrawalAcc = chain (shaField p P.sha) (amountInput cv) 0 [(pk, a)] := by
    rcases fs.books with ⟨t, _⟩ | ⟨_, _, _, _, b⟩
    · rw [hfull] at t; cases t
    · have e : i.withdrawn P = a := by
        unfold CInputs.withdrawn; rw [h1, smallTx_outputs, hw]
      rw [b]
      simp [withdrawalList, e, ha0, h2, z, initState]
  let e : Epoch p G :=
    { reg := st
      block := { utxoRoot := u, txRoot := f, signerRoot := s0, signers := [none], height := 0,
                 deposits := [], withdrawals := [(k, a)] }
      batches := [[i]], final := f, tx0 := t0, signer0 := s0 }
  have hacc : e.Accepted P cv u := by
    refine ⟨⟨by simp [e], by simpa [e] using ha⟩, z', ?_, ?_⟩
    · exact ⟨z', ⟨z', h6, rfl⟩, rfl⟩
    · have hs : signerAcc cv P.sha st.pks [none] 0 = .ok (chain (shaField p P.sha) (signerInput cv) 0 [0]) :=
        (signerAcc_ok cv P.sha st.pks _ _ _).2 ⟨[0], rfl, rfl⟩
      have hd : amountAcc cv P.sha st.pks [] 0 = .ok 0 := rfl
      have hwo : amountAcc cv P.sha st.pks [(k, a)] 0 =
          .ok (chain (shaField p P.sha) (amountInput cv) 0 [(pk, a)]) :=
        (amountAcc_ok cv P.sha st.pks _ _ _).2 ⟨[(pk, a)], by simp [entryOf, hk], rfl⟩
      show derivePublicInputs cv P.sha st _ = _
      unfold derivePublicInputs
      simp only [e, hs, hd, hwo]
      congr 1
      simp only [CState.toList, n1, n2, n3, n4, ht, hwd, fs.step, fs.final]
      simp [z, initState, chain]
  refine ⟨List.replicate n e, by simp, ?_, ?_, ?_, ?_, ?_⟩
  · induction n with
    | zero => rfl
    | succ n ih => exact ⟨hacc, ih⟩
  · intro x hx; rw [(List.mem_replicate.1 hx).2]
  · simp [chainDeposits, e]
  · simp [chainWithdrawals, e]
  · intro x hx j hj
    rw [(List.mem_replicate.1 hx).2] at hj ⊢
    simp only [e, Epoch.txs, List.flatten_cons, List.flatten_nil, List.append_nil, List.mem_singleton] at hj
    rw [hj]; exact hna

/-- An epoch without transactions. -/
def idleEpoch (st : Contract.State G) (u t s : ZMod p) : Epoch p G :=
  { reg := st
    block := { utxoRoot := u, txRoot := t, signerRoot := s, signers := [], height := 0, deposits := [],
               withdrawals := [] }
    batches := [], final := t, tx0 := t, signer0 := s }

theorem idle_accepted (P : Params p G) (cv : Curve p q G) (st : Contract.State G) (u t s : ZMod p) :
    (idleEpoch st u t s).Accepted P cv u := by
  refine ⟨⟨by simp [idleEpoch], by simp [idleEpoch]⟩, _, rfl, ?_⟩
  simp [idleEpoch, derivePublicInputs, signerAcc, amountAcc, CState.toList]

/-- Non-vacuity of C102: a chain of two blocks over the fields and the group order used in the repository,
the first with a deposit, a transfer and a withdrawal. -/
example : ∃ (es : List (Epoch bn254r (ZMod grumpkinQ))) (u u' : ZMod bn254r),
    Chain ⟨Agg.oneHs bn254r, toySha, ((1 : Nat) : ZMod grumpkinQ), false⟩ bnCurve u es u' ∧ es.length = 2 ∧
    chainDeposits es = 5 ∧ chainWithdrawals es = 5 := by
  obtain ⟨z, z', is, st, block, h1, ⟨u, t, f, g, rfl⟩, h3, h4, h5, h6⟩ :=
    example_run sizes_bn254 bn254_le bnCurve ⟨Agg.oneHs bn254r, toySha, ((1 : Nat) : ZMod grumpkinQ), false⟩ rfl rfl
      (a := ((2 : Nat) : ZMod grumpkinQ)) (b := ((3 : Nat) : ZMod grumpkinQ))
      (bn_ne (by decide)) (bn_ne (by decide)) (bn_ne (by decide))
  refine ⟨[{ reg := st, block := block, batches := [is], final := f, tx0 := t, signer0 := g },
    idleEpoch st block.utxoRoot 0 0], u, block.utxoRoot, ⟨⟨?_, z', h1, h3⟩, idle_accepted _ _ _ _ _ _, rfl⟩,
    rfl, ?_, ?_⟩
  · constructor
    · rw [h4]; simp
    · rw [h5]; simp
  · simp [chainDeposits, h4, idleEpoch]
  · simp [chainWithdrawals, h5, idleEpoch]

end PF.Props
