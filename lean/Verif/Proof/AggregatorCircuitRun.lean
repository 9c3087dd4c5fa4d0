import Verif.Proof.AggregatorCircuit

/-!
# Exact characterisation of runs of the aggregator circuit
-/
set_option linter.unusedSectionVars false

namespace PF.AggC
open PF PF.Spec PF.MT PF.Circuit PF.Contract
variable {p q : Nat} {G : Type} [AddCommGroup G] [Module (ZMod q) G] [DecidableEq G]

/-- Everything a batch says. -/
structure RunFacts (P : Params p G) (cv : Curve p q G) (z : CState p) (is : List (CInputs p G))
    (z' : CState p) : Prop where
  shape : ∀ i ∈ is, Shape q i
  owned : ∀ i ∈ is, OwnedBy i.senderPk i.tx.inputs.toList
  sums : ∀ i ∈ is, ((totalVal i.tx.inputs.toList : Nat) : ZMod p) = (totalVal i.tx.outputs.toList : Nat)
  sig : ∀ i ∈ is, SigDefined cv P.hs z.txRootFinal i
  utxo : UtxoChain cv P.hs (ledgerUpds P cv z.txRootFinal is) z.utxoRoot z'.utxoRoot
  tx : UpdChain P.hs.h2 (fun l => P.hs.crh (txEncVar cv l)) 12 (txUpds z.step is) z.txRoot z'.txRoot
  signer : UpdChain P.hs.h2 (fun l => P.hs.crh (pkEncVar cv l)) 12
    (signerUpds P cv z.txRootFinal z.step is) z.signerRoot z'.signerRoot
  signerAcc : z'.signerAcc = chain (shaField p P.sha) (signerInput cv) z.signerAcc
    (signerList P cv z.txRootFinal is)
  books : (P.transferOnly = true ∧ z'.depositAcc = z.depositAcc ∧ z'.withdrawalAcc = z.withdrawalAcc) ∨
    (P.transferOnly = false ∧ (∀ i ∈ is, ∀ u ∈ i.tx.outputs.toList, u.amount.val < 2 ^ 64) ∧
      (∀ i ∈ is, i.withdrawn P < 2 ^ 64) ∧
      z'.depositAcc = chain (shaField p P.sha) (amountInput cv) z.depositAcc (depositList P is) ∧
      z'.withdrawalAcc = chain (shaField p P.sha) (amountInput cv) z.withdrawalAcc
        (withdrawalList P is))
  step : z'.step = z.step + (is.length : Nat)
  final : z'.txRootFinal = z.txRootFinal

omit [Module (ZMod q) G] [DecidableEq G] in
theorem txUpds_cons (s : ZMod p) (i : CInputs p G) (is : List (CInputs p G)) :
    txUpds s (i :: is) = txUpds s [i] ++ txUpds (s + 1) is := rfl

theorem signerUpds_cons (P : Params p G) (cv : Curve p q G) (root s : ZMod p) (i : CInputs p G)
    (is : List (CInputs p G)) :
    signerUpds P cv root s (i :: is) = signerUpds P cv root s [i] ++ signerUpds P cv root (s + 1) is := by
  simp [signerUpds]

theorem ledgerUpds_cons (P : Params p G) (cv : Curve p q G) (root : ZMod p) (i : CInputs p G)
    (is : List (CInputs p G)) :
    ledgerUpds P cv root (i :: is) =
      (i.erases cv P.hs root ++ i.inserts P cv root) ++ ledgerUpds P cv root is := by
  simp [ledgerUpds]

theorem ledgerUpds_one (P : Params p G) (cv : Curve p q G) (root : ZMod p) (i : CInputs p G) :
    ledgerUpds P cv root [i] = i.erases cv P.hs root ++ i.inserts P cv root := by
  simp [ledgerUpds]

theorem depositList_cons (P : Params p G) (i : CInputs p G) (is : List (CInputs p G)) :
    depositList P (i :: is) = depositList P [i] ++ depositList P is := by simp [depositList]

theorem withdrawalList_cons (P : Params p G) (i : CInputs p G) (is : List (CInputs p G)) :
    withdrawalList P (i :: is) = withdrawalList P [i] ++ withdrawalList P is := by simp [withdrawalList]

theorem signerList_cons (P : Params p G) (cv : Curve p q G) (root : ZMod p) (i : CInputs p G)
    (is : List (CInputs p G)) :
    signerList P cv root (i :: is) = signerList P cv root [i] ++ signerList P cv root is := by
  simp [signerList]

theorem runFacts_nil (P : Params p G) (cv : Curve p q G) (z z' : CState p) :
    RunFacts P cv z [] z' ↔ z' = z := by
  constructor
  · rintro ⟨_, _, _, _, h1, h2, h3, h4, h5, h6, h7⟩
    simp only [ledgerUpds, txUpds, signerUpds, UtxoChain, UpdChain, List.flatMap_nil, signerList,
      List.map_nil, chain, List.foldl_nil, List.length_nil, Nat.cast_zero, add_zero, depositList,
      withdrawalList] at h1 h2 h3 h4 h5 h6
    have h8 : z'.depositAcc = z.depositAcc ∧ z'.withdrawalAcc = z.withdrawalAcc := by
      rcases h5 with ⟨_, h⟩ | ⟨_, _, _, h⟩ <;> exact h
    cases z; cases z'
    simp_all
  · rintro rfl
    refine ⟨by simp, by simp, by simp, by simp, ?_, rfl, rfl, rfl, ?_, by simp, rfl⟩
    · simp [UtxoChain, ledgerUpds, UpdChain]
    · cases P.transferOnly <;> simp [depositList, withdrawalList, chain]

theorem runFacts_cons (P : Params p G) (cv : Curve p q G) (z z' : CState p) (i : CInputs p G)
    (is : List (CInputs p G)) :
    RunFacts P cv z (i :: is) z' ↔ ∃ z1, StepFacts P cv z i z1 ∧ RunFacts P cv z1 is z' := by
  constructor
  · rintro ⟨h1, h2, h3, h4, h5, h6, h7, h8, h9, h10, h11⟩
    unfold UtxoChain at h5
    rw [ledgerUpds_cons, UpdChain_append] at h5
    rw [txUpds_cons, UpdChain_append] at h6
    rw [signerUpds_cons, UpdChain_append] at h7
    rw [signerList_cons, chain_append] at h8
    rw [depositList_cons, withdrawalList_cons, chain_append, chain_append] at h9
    obtain ⟨ru, u1, u2⟩ := h5
    obtain ⟨rt, t1, t2⟩ := h6
    obtain ⟨rs, s1, s2⟩ := h7
    refine ⟨{ step := z.step + 1, utxoRoot := ru, txRoot := rt, txRootFinal := z.txRootFinal,
              signerRoot := rs,
              signerAcc := chain (shaField p P.sha) (signerInput cv) z.signerAcc
                (signerList P cv z.txRootFinal [i]),
              depositAcc := if P.transferOnly then z.depositAcc else
                chain (shaField p P.sha) (amountInput cv) z.depositAcc (depositList P [i])
              withdrawalAcc := if P.transferOnly then z.withdrawalAcc else
                chain (shaField p P.sha) (amountInput cv) z.withdrawalAcc (withdrawalList P [i]) },
      ⟨h1 i (by simp), h2 i (by simp), h3 i (by simp), h4 i (by simp), u1, t1, s1, rfl, ?_, rfl, rfl⟩,
      ⟨fun j hj => h1 j (by simp [hj]), fun j hj => h2 j (by simp [hj]), fun j hj => h3 j (by simp [hj]),
        fun j hj => h4 j (by simp [hj]), u2, t2, s2, h8, ?_, ?_, h11⟩⟩
    · rcases h9 with ⟨t, _⟩ | ⟨t, b1, b2, _⟩
      · left; simp [t]
      · right; exact ⟨t, b1 i (by simp), b2 i (by simp), by simp [t], by simp [t]⟩
    · rcases h9 with ⟨t, b1, b2⟩ | ⟨t, b1, b2, b3, b4⟩
      · left; simp [t, b1, b2]
      · right
        refine ⟨t, fun j hj => b1 j (by simp [hj]), fun j hj => b2 j (by simp [hj]), ?_, ?_⟩
        · simp only [t, Bool.false_eq_true, if_false]; exact b3
        · simp only [t, Bool.false_eq_true, if_false]; exact b4
    · simp only [h10, List.length_cons, Nat.cast_add, Nat.cast_one]
      ring
  · rintro ⟨z1, ⟨a1, a2, a3, a4, a5, a6, a7, a8, a9, a10, a11⟩,
      ⟨b1, b2, b3, b4, b5, b6, b7, b8, b9, b10, b11⟩⟩
    rw [a11] at b4 b5 b7 b8 b11
    rw [a10] at b6 b7 b10
    have all : ∀ {R : CInputs p G → Prop}, R i → (∀ j ∈ is, R j) → ∀ j ∈ i :: is, R j := by
      intro R h1 h2 j hj
      rcases List.mem_cons.1 hj with rfl | hj
      · exact h1
      · exact h2 j hj
    refine ⟨all a1 b1, all a2 b2, all a3 b3, all a4 b4, ?_, ?_, ?_, ?_, ?_, ?_, b11⟩
    · unfold UtxoChain
      rw [ledgerUpds_cons, UpdChain_append]; exact ⟨_, a5, b5⟩
    · rw [txUpds_cons, UpdChain_append]; exact ⟨_, a6, b6⟩
    · rw [signerUpds_cons, UpdChain_append]; exact ⟨_, a7, b7⟩
    · rw [signerList_cons, chain_append, b8, a8]
    · rcases a9 with ⟨t, c1, c2⟩ | ⟨t, c1, c2, c3, c4⟩
      · rcases b9 with ⟨_, d1, d2⟩ | ⟨t', _⟩
        · left; exact ⟨t, by rw [d1, c1], by rw [d2, c2]⟩
        · rw [t] at t'; cases t'
      · rcases b9 with ⟨t', _⟩ | ⟨_, d1, d2, d3, d4⟩
        · rw [t] at t'; cases t'
        · right
          refine ⟨t, all c1 d1, all c2 d2, ?_, ?_⟩
          · rw [depositList_cons, chain_append, d3, c3]
          · rw [withdrawalList_cons, chain_append, d4, c4]
    · rw [b10, List.length_cons]; push_cast; ring

theorem stepBatch_iff (h : Sizes p q) (P : Params p G) (cv : Curve p q G) (z : CState p)
    (is : List (CInputs p G)) (z' : CState p) : stepBatch P cv z is z' ↔ RunFacts P cv z is z' := by
  induction is generalizing z with
  | nil => rw [runFacts_nil]; rfl
  | cons i is ih =>
    rw [runFacts_cons]
    simp only [stepBatch, stepOne_iff h, ih]

/-- Folding batches is one long batch. -/
theorem runSteps_flatten (P : Params p G) (cv : Curve p q G) (z : CState p)
    (bs : List (List (CInputs p G))) (z' : CState p) :
    runSteps P cv z bs z' ↔ stepBatch P cv z bs.flatten z' := by
  have app : ∀ (a b : List (CInputs p G)) (z : CState p),
      stepBatch P cv z (a ++ b) z' ↔ ∃ z1, stepBatch P cv z a z1 ∧ stepBatch P cv z1 b z' := by
    intro a b
    induction a with
    | nil => intro z; simp [stepBatch]
    | cons i a ih =>
      intro z
      simp only [List.cons_append, stepBatch, ih]
      constructor
      · rintro ⟨z1, h1, z2, h2, h3⟩; exact ⟨z2, ⟨z1, h1, h2⟩, h3⟩
      · rintro ⟨z2, ⟨z1, h1, h2⟩, h3⟩; exact ⟨z1, h1, z2, h2, h3⟩
  induction bs generalizing z with
  | nil => rfl
  | cons b bs ih => simp only [runSteps, List.flatten_cons, app, ih]

end PF.AggC
