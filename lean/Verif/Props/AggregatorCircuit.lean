import Verif.Proof.AggregatorCircuitDemo
import Verif.Proof.AggregatorDemo
import Verif.Props.Contract

/-!
# Properties of the aggregator circuit (C50–C56, C59, C60, C74)

`runSteps P cv z bs z'`: the circuit accepts the batches `bs` one after the other, taking the state
vector `z` to `z'`. Tree contents are arbitrary; the conclusions hold unless the values hashed along the
shown and the true paths exhibit a collision (`Collision`).
-/
set_option linter.unusedSectionVars false

namespace PF.Props
open PF PF.Spec PF.AggC PF.Contract
variable {p q : Nat} {G : Type} [AddCommGroup G] [Module (ZMod q) G] [DecidableEq G]

theorem run_facts (h : Sizes p q) {P : Params p G} {cv : Curve p q G} {z z' : CState p}
    {bs : List (List (CInputs p G))} (hr : runSteps P cv z bs z') : RunFacts P cv z bs.flatten z' :=
  (stepBatch_iff h P cv z bs.flatten z').1 ((runSteps_flatten P cv z bs z').1 hr)

theorem one_lt_p (h : Sizes p q) : 1 < p := lt_of_lt_of_le (by decide) h.large

/-! ## C50 -/

/-- **C50**: an accepted run takes the committed ledger to the ledger obtained by performing its
erasures and insertions in order; each erasure finds the spent input at its position and each insertion
finds an empty position. -/
theorem C50_runs_are_ledger_transitions (h : Sizes p q) (P : Params p G) (cv : Curve p q G) (z z' : CState p)
    (bs : List (List (CInputs p G))) (hrun : runSteps P cv z bs z') (c : Nat → UTXO (ZMod p) G)
    (hc : RootOf P.hs (utxoEncVar cv) 32 c z.utxoRoot) :
    (Legal c (ledgerUpds P cv z.txRootFinal bs.flatten) ∧
      RootOf P.hs (utxoEncVar cv) 32 (applied c (ledgerUpds P cv z.txRootFinal bs.flatten)) z'.utxoRoot) ∨
    Collision P.hs (utxoEncVar cv) 32 c (ledgerUpds P cv z.txRootFinal bs.flatten) :=
  UpdChain.sound (fun _ _ e => utxoEncVar_inj cv (one_lt_p h) e) _ (fun _ m => ledgerUpds_idx m) hc
    (run_facts h hrun).utxo

/-- **C50**, the other direction: inputs whose tree updates are legal and shown with the true siblings,
which are owned by their sender, balanced and in range, are accepted, and the final state is the one
described. -/
theorem C50_honest_runs_accepted (h : Sizes p q) (hpq : p ≤ q) (P : Params p G) (cv : Curve p q G)
    (z : CState p) (bs : List (List (CInputs p G))) (c : Nat → UTXO (ZMod p) G) (ct : Nat → Tx (ZMod p) G)
    (cs : Nat → G)
    (shape : ∀ i ∈ bs.flatten, Shape q i)
    (owned : ∀ i ∈ bs.flatten, OwnedBy i.senderPk i.tx.inputs.toList)
    (sums : ∀ i ∈ bs.flatten, totalVal i.tx.inputs.toList = totalVal i.tx.outputs.toList)
    (range : ∀ i ∈ bs.flatten, ∀ u ∈ i.tx.outputs.toList, u.amount.val < 2 ^ 64)
    (wrange : ∀ i ∈ bs.flatten, i.withdrawn P < 2 ^ 64)
    (cu : RootOf P.hs (utxoEncVar cv) 32 c z.utxoRoot)
    (lu : Legal c (ledgerUpds P cv z.txRootFinal bs.flatten))
    (hu : Honest (fun l => P.hs.crh (utxoEncVar cv l)) P.hs.h2 32 c
      (ledgerUpds P cv z.txRootFinal bs.flatten))
    (ctx : RootOf P.hs (txEncVar cv) 13 ct z.txRoot)
    (lt : Legal ct (txUpds z.step bs.flatten))
    (ht : Honest (fun l => P.hs.crh (txEncVar cv l)) P.hs.h2 13 ct (txUpds z.step bs.flatten))
    (csg : RootOf P.hs (pkEncVar cv) 13 cs z.signerRoot)
    (ls : Legal cs (signerUpds P cv z.txRootFinal z.step bs.flatten))
    (hs : Honest (fun l => P.hs.crh (pkEncVar cv l)) P.hs.h2 13 cs
      (signerUpds P cv z.txRootFinal z.step bs.flatten)) :
    runSteps P cv z bs (finalState P cv z bs.flatten c ct cs) :=
  (runSteps_flatten P cv z bs _).2 (run_complete h P cv z bs.flatten c ct cs shape owned
    (fun i hi => by rw [sums i hi])
    (fun i hi => sigDefined_of_le h hpq cv P.hs _ i (shape i hi).sigE)
    (fun _ => ⟨range, wrange⟩) ⟨cu, lu, hu⟩ ⟨ctx, lt, ht⟩ ⟨csg, ls, hs⟩)

/-! ## C51 -/

/-- One update changes one slot, and finds there what it claims. -/
theorem step_change {L D : Type} (us : List (Upd L D)) (c : Nat → L) (hl : Legal c us) (k j : Nat)
    (hne : applied c (us.take (k + 1)) j ≠ applied c (us.take k) j) :
    ∃ u ∈ us, u.old = applied c (us.take k) j := by
  rcases hk : us[k]? with _ | u
  · have hlen : us.length ≤ k := by simpa using hk
    rw [List.take_of_length_le hlen, List.take_of_length_le (by omega)] at hne
    exact absurd rfl hne
  · have e : us.take (k + 1) = us.take k ++ [u] := by
      rw [List.take_add_one, hk]; rfl
    have hu := hl k u hk
    refine ⟨u, List.mem_of_getElem? hk, ?_⟩
    have hj : j = u.idx := by
      by_contra hne'
      apply hne
      rw [e]
      simp [applied, List.foldl_append, write, hne']
    rw [hj, hu]

/-- **C51**: every slot whose UTXO is replaced or erased by an accepted run held a UTXO that is an input
of a transaction of the run, owned by that transaction's sender, whose signature on the transaction and
the final transaction root verifies. -/
theorem C51_removed_only_by_owner (h : Sizes p q) (P : Params p G) (cv : Curve p q G) (z z' : CState p)
    (bs : List (List (CInputs p G))) (hrun : runSteps P cv z bs z') (c : Nat → UTXO (ZMod p) G)
    (hc : RootOf P.hs (utxoEncVar cv) 32 c z.utxoRoot) :
    (∃ c', RootOf P.hs (utxoEncVar cv) 32 c' z'.utxoRoot ∧
      ∀ j, c j ≠ UTXO.dummy → c' j ≠ c j →
        ∃ i ∈ bs.flatten, i.signed cv P.hs z.txRootFinal = true ∧ c j ∈ i.tx.inputs.toList ∧
          (c j).isDummy = false ∧ (c j).pk = i.senderPk) ∨
    Collision P.hs (utxoEncVar cv) 32 c (ledgerUpds P cv z.txRootFinal bs.flatten) := by
  rcases C50_runs_are_ledger_transitions h P cv z z' bs hrun c hc with ⟨hl, hr⟩ | hcol
  · left
    refine ⟨_, hr, fun j hj hne => ?_⟩
    obtain ⟨u, hu, _, ho⟩ := first_change _ c hl j hne
    rcases mem_ledgerUpds hu with ⟨i, hi, h1, h2, h3, _⟩ | ⟨i, hi, h1, h2, h3, h4⟩
    · rw [ho] at h2 h3
      exact ⟨i, hi, h1, h2, h3, (run_facts h hrun).owned i hi _ h2 h3⟩
    · rw [ho] at h4; exact absurd h4 hj
  · exact Or.inr hcol

/-- **C51** at every moment of the run: the ledger passes through one array of slots per update, from the
committed one to one the final root commits to; whenever one of these updates takes away the UTXO of a slot —
also one created earlier in the same run — that UTXO is a real input of a transaction of the run sent by its
owner, whose signature on the transaction and the final transaction root verifies. -/
theorem C51_every_removal (h : Sizes p q) (P : Params p G) (cv : Curve p q G) (z z' : CState p)
    (bs : List (List (CInputs p G))) (hrun : runSteps P cv z bs z') (c : Nat → UTXO (ZMod p) G)
    (hc : RootOf P.hs (utxoEncVar cv) 32 c z.utxoRoot)
    (us : List (Upd (UTXO (ZMod p) G) (ZMod p))) (hus : us = ledgerUpds P cv z.txRootFinal bs.flatten) :
    (RootOf P.hs (utxoEncVar cv) 32 (applied c us) z'.utxoRoot ∧
      ∀ k j : Nat, applied c (us.take k) j ≠ UTXO.dummy →
        applied c (us.take (k + 1)) j ≠ applied c (us.take k) j →
        ∃ i ∈ bs.flatten, i.signed cv P.hs z.txRootFinal = true ∧
          applied c (us.take k) j ∈ i.tx.inputs.toList ∧
          (applied c (us.take k) j).isDummy = false ∧ (applied c (us.take k) j).pk = i.senderPk) ∨
    Collision P.hs (utxoEncVar cv) 32 c us := by
  subst hus
  rcases C50_runs_are_ledger_transitions h P cv z z' bs hrun c hc with ⟨hl, hr⟩ | hcol
  · left
    refine ⟨hr, fun k j hj hne => ?_⟩
    obtain ⟨u, hu, ho⟩ := step_change _ c hl k j hne
    rcases mem_ledgerUpds hu with ⟨i, hi, h1, h2, h3, _⟩ | ⟨i, hi, h1, h2, h3, h4⟩
    · rw [ho] at h2 h3
      exact ⟨i, hi, h1, h2, h3, (run_facts h hrun).owned i hi _ h2 h3⟩
    · rw [ho] at h4; exact absurd h4 hj
  · exact Or.inr hcol

/-! ## C52 -/

/-- **C52**: a transaction that is neither validly signed nor sent by the contract leaves the UTXO root,
the signer root and the deposit chain unchanged and contributes the zero key to the signer chain. -/
theorem C52_unauthorised_is_inert (h : Sizes p q) (P : Params p G) (cv : Curve p q G) (z z' : CState p)
    (i : CInputs p G) (hstep : stepOne P cv z i z') (hi : i.authorised P cv z.txRootFinal = false) :
    z'.utxoRoot = z.utxoRoot ∧ z'.signerRoot = z.signerRoot ∧ z'.depositAcc = z.depositAcc ∧
    z'.signerAcc = shaField p P.sha (signerInput cv z.signerAcc 0) := by
  have f := (stepOne_iff h P cv z i z').1 hstep
  have hi' := hi
  unfold CInputs.authorised at hi'
  rw [Bool.or_eq_false_iff, decide_eq_false_iff_not] at hi'
  obtain ⟨h1, h2⟩ := hi'
  refine ⟨?_, ?_, ?_, ?_⟩
  · have := f.utxo
    simpa [CInputs.erases, CInputs.inserts, h1, hi, UtxoChain, UpdChain] using this
  · have := f.signer
    simpa [signerUpds, hi, UpdChain] using this
  · rcases f.books with ⟨_, b, _⟩ | ⟨_, _, _, b, _⟩
    · exact b
    · rw [b]; simp [depositList, h2, chain]
  · rw [f.signerAcc]; simp [signerList, hi, chain]

/-- **C52**: every slot that an accepted run fills holds a real output, not owned by the contract, of an
authorised transaction of the run. -/
theorem C52_created_only_if_authorised (h : Sizes p q) (P : Params p G) (cv : Curve p q G) (z z' : CState p)
    (bs : List (List (CInputs p G))) (hrun : runSteps P cv z bs z') (c : Nat → UTXO (ZMod p) G)
    (hc : RootOf P.hs (utxoEncVar cv) 32 c z.utxoRoot) :
    (∃ c', RootOf P.hs (utxoEncVar cv) 32 c' z'.utxoRoot ∧
      ∀ j, c' j ≠ UTXO.dummy → c' j ≠ c j →
        ∃ i ∈ bs.flatten, i.authorised P cv z.txRootFinal = true ∧ c' j ∈ i.tx.outputs.toList ∧
          (c' j).isDummy = false ∧ (c' j).pk ≠ P.contract) ∨
    Collision P.hs (utxoEncVar cv) 32 c (ledgerUpds P cv z.txRootFinal bs.flatten) := by
  rcases C50_runs_are_ledger_transitions h P cv z z' bs hrun c hc with ⟨hl, hr⟩ | hcol
  · left
    refine ⟨_, hr, fun j hj hne => ?_⟩
    rcases last_write (ledgerUpds P cv z.txRootFinal bs.flatten) c j with e | ⟨u, hu, _, e⟩
    · exact absurd e hne
    · rcases mem_ledgerUpds hu with ⟨i, hi, h1, h2, h3, h4⟩ | ⟨i, hi, h1, h2, h3, _⟩
      · rw [← e] at h4; exact absurd h4 hj
      · rw [← e] at h2 h3
        refine ⟨i, hi, h1, h2, ?_⟩
        simpa [UTXO.onLedger] using h3
  · exact Or.inr hcol

/-! ## C53 -/

/-- **C53**: in full mode, value is conserved as integers: ledger value after plus the amounts paid out
by authorised transactions equals ledger value before plus the recorded deposits, and the ledger stays
healthy (64-bit amounts, nothing owned by the contract). The deposit and withdrawal chains of the state
record exactly the deposits and withdrawals of the run. -/
theorem C53_full_mode_conservation (h : Sizes p q) (P : Params p G) (hfull : P.transferOnly = false)
    (cv : Curve p q G) (z z' : CState p) (bs : List (List (CInputs p G))) (hrun : runSteps P cv z bs z')
    (c : Nat → UTXO (ZMod p) G) (hc : RootOf P.hs (utxoEncVar cv) 32 c z.utxoRoot)
    (hh : Healthy P.contract c) :
    ((∃ c', RootOf P.hs (utxoEncVar cv) 32 c' z'.utxoRoot ∧ Healthy P.contract c' ∧
        valueOf c' UTXO_CAP + authorisedWithdrawals P cv z.txRootFinal bs.flatten =
          valueOf c UTXO_CAP + depositTotal P bs.flatten) ∨
      Collision P.hs (utxoEncVar cv) 32 c (ledgerUpds P cv z.txRootFinal bs.flatten)) ∧
    z'.depositAcc = chain (shaField p P.sha) (amountInput cv) z.depositAcc (depositList P bs.flatten) ∧
    z'.withdrawalAcc = chain (shaField p P.sha) (amountInput cv) z.withdrawalAcc
      (withdrawalList P bs.flatten) ∧
    authorisedWithdrawals P cv z.txRootFinal bs.flatten ≤ ((withdrawalList P bs.flatten).map (·.2)).sum := by
  have f := run_facts h hrun
  rcases f.books with ⟨t, _⟩ | ⟨_, b1, b2, b3, b4⟩
  · rw [hfull] at t; cases t
  refine ⟨?_, b3, b4, ?_⟩
  · rcases C50_runs_are_ledger_transitions h P cv z z' bs hrun c hc with ⟨hl, hr⟩ | hcol
    · exact Or.inl ⟨_, hr, healthy_applied b1 hh,
        run_value h bs.flatten f.shape f.owned f.sums b1 hh hl⟩
    · exact Or.inr hcol
  · generalize bs.flatten = is
    induction is with
    | nil => simp [authorisedWithdrawals, withdrawalList]
    | cons i is ih =>
      rw [authorisedWithdrawals_cons, withdrawalList_cons, List.map_append, List.sum_append]
      refine Nat.add_le_add ?_ ih
      by_cases hw : i.withdrawn P = 0 <;> simp [withdrawalList, hw]
      split <;> omega

/-! ## C54 -/

/-- **C54**: in any mode, if all output amounts of the run are below 2^64, value is conserved as integers
up to the outputs of contract-sent transactions and the amounts paid to the contract. -/
theorem C54_conservation_if_in_range (h : Sizes p q) (P : Params p G) (cv : Curve p q G) (z z' : CState p)
    (bs : List (List (CInputs p G))) (hrun : runSteps P cv z bs z')
    (hrange : ∀ i ∈ bs.flatten, ∀ u ∈ i.tx.outputs.toList, u.amount.val < 2 ^ 64)
    (c : Nat → UTXO (ZMod p) G) (hc : RootOf P.hs (utxoEncVar cv) 32 c z.utxoRoot)
    (hh : Healthy P.contract c) :
    (∃ c', RootOf P.hs (utxoEncVar cv) 32 c' z'.utxoRoot ∧ Healthy P.contract c' ∧
        valueOf c' UTXO_CAP + authorisedWithdrawals P cv z.txRootFinal bs.flatten =
          valueOf c UTXO_CAP + depositTotal P bs.flatten) ∨
      Collision P.hs (utxoEncVar cv) 32 c (ledgerUpds P cv z.txRootFinal bs.flatten) := by
  have f := run_facts h hrun
  rcases C50_runs_are_ledger_transitions h P cv z z' bs hrun c hc with ⟨hl, hr⟩ | hcol
  · exact Or.inl ⟨_, hr, healthy_applied hrange hh,
      run_value h bs.flatten f.shape f.owned f.sums hrange hh hl⟩
  · exact Or.inr hcol

/-- **C54**: in any mode and without any range assumption, value is conserved only modulo the field
characteristic (and up to unsigned contract-sent outputs and amounts paid to the contract). -/
theorem C54_conservation_in_field (h : Sizes p q) (P : Params p G) (cv : Curve p q G) (z z' : CState p)
    (bs : List (List (CInputs p G))) (hrun : runSteps P cv z bs z')
    (c : Nat → UTXO (ZMod p) G) (hc : RootOf P.hs (utxoEncVar cv) 32 c z.utxoRoot) :
    (∃ c', RootOf P.hs (utxoEncVar cv) 32 c' z'.utxoRoot ∧
        (valueOf c' UTXO_CAP + authorisedWithdrawals P cv z.txRootFinal bs.flatten) % p =
          (valueOf c UTXO_CAP + unsignedMint P cv z.txRootFinal bs.flatten) % p) ∨
      Collision P.hs (utxoEncVar cv) 32 c (ledgerUpds P cv z.txRootFinal bs.flatten) := by
  have f := run_facts h hrun
  rcases C50_runs_are_ledger_transitions h P cv z z' bs hrun c hc with ⟨hl, hr⟩ | hcol
  · exact Or.inl ⟨_, hr, (ZMod.natCast_eq_natCast_iff' _ _ _).1 (run_value_field bs.flatten f.shape f.sums hl)⟩
  · exact Or.inr hcol

/-- A transaction with one real input and at most two real outputs. -/
def smallTx (a b1 b2 : UTXO (ZMod p) G) : Tx (ZMod p) G :=
  ⟨⟨#[a, UTXO.dummy, UTXO.dummy, UTXO.dummy], rfl⟩, ⟨#[b1, b2, UTXO.dummy, UTXO.dummy], rfl⟩⟩

theorem smallTx_inputs (a b1 b2 : UTXO (ZMod p) G) :
    (smallTx a b1 b2).inputs.toList = [a, UTXO.dummy, UTXO.dummy, UTXO.dummy] := rfl

theorem smallTx_outputs (a b1 b2 : UTXO (ZMod p) G) :
    (smallTx a b1 b2).outputs.toList = [b1, b2, UTXO.dummy, UTXO.dummy] := rfl

theorem dummy_isDummy : (UTXO.dummy : UTXO (ZMod p) G).isDummy = true := rfl

theorem dummy_onLedger (k : G) : (UTXO.dummy : UTXO (ZMod p) G).onLedger k = false := rfl

/-- A state of the circuit from which a further transaction can be proved: the roots commit to contents,
and the transaction and signer slots of the current step are free. -/
structure Open (P : Params p G) (cv : Curve p q G) (z : CState p) (c : Nat → UTXO (ZMod p) G)
    (ct : Nat → Tx (ZMod p) G) (cs : Nat → G) : Prop where
  utxo : RootOf P.hs (utxoEncVar cv) 32 c z.utxoRoot
  tx : RootOf P.hs (txEncVar cv) 13 ct z.txRoot
  signer : RootOf P.hs (pkEncVar cv) 13 cs z.signerRoot
  txFree : ct (z.step.val % TX_CAP) = Tx.default
  signerFree : cs (z.step.val % TX_CAP) = 0

/-- **C54** fails without the range assumption, first witness: in transfer-only mode anybody can name the
contract as sender, without any signature, and create a UTXO of any amount; nothing is recorded. -/
theorem C54_unsigned_mint_unrecorded (h : Sizes p q) (hpq : p ≤ q) (P : Params p G)
    (hmode : P.transferOnly = true) (cv : Curve p q G) (z : CState p) (c : Nat → UTXO (ZMod p) G)
    (ct : Nat → Tx (ZMod p) G) (cs : Nat → G) (ho : Open P cv z c ct cs) (j : Nat) (hj : j < UTXO_CAP)
    (hfree : c j = UTXO.dummy) (owner : G) (hown : owner ≠ P.contract) (a : ZMod p) :
    ∃ i z' c', stepOne P cv z i z' ∧ i.signed cv P.hs z.txRootFinal = false ∧
      RootOf P.hs (utxoEncVar cv) 32 c' z'.utxoRoot ∧ c' j = UTXO.new owner a ∧
      valueOf c' UTXO_CAP = valueOf c UTXO_CAP + a.val ∧
      z'.depositAcc = z.depositAcc ∧ z'.withdrawalAcc = z.withdrawalAcc := by
  obtain ⟨i, z', h1, h2, h3, h4, h5, h6, h7⟩ := one_complete h hpq P cv z c ct cs ho.utxo ho.tx ho.signer
    (smallTx (UTXO.new P.contract a) (UTXO.new owner a) UTXO.dummy) P.contract
    (List.replicate (Circuit.modBits q) true) (List.replicate (Circuit.modBits q) true) (by simp) (by simp)
    [0, 0, 0, 0] [j, 0, 0, 0]
    (by intro u hu hd; rw [smallTx_inputs] at hu; simp at hu; rcases hu with rfl | rfl <;> first | rfl | cases hd)
    (by simp [smallTx_inputs, smallTx_outputs, totalVal, UTXO.new, dummy_isDummy])
    (by simp [hmode]) false (by simp [ones_not_lt])
    (by simp [smallTx_inputs, fits])
    (by
      simp only [smallTx_inputs, smallTx_outputs, placed, fits, Bool.false_and, Bool.false_eq_true, if_false,
        Bool.false_or, decide_true, Bool.true_and, dummy_onLedger, and_true]
      rw [if_pos (by simp [UTXO.onLedger, UTXO.new, hown])]
      exact ⟨hj, hfree⟩) ho.txFree (fun _ => ho.signerFree)
  refine ⟨i, z', _, h6, h5, h7, ?_, ?_, ?_⟩
  · simp [smallTx_inputs, smallTx_outputs, placed, UTXO.onLedger, UTXO.new, hown, dummy_isDummy, write]
  · have := valueOf_write c UTXO_CAP j (UTXO.new owner a) hj
    have e1 : sval (c j) = 0 := by rw [hfree]; rfl
    have e2 : sval (UTXO.new owner a) = a.val := rfl
    rw [e1, e2, add_zero] at this
    have onL : (UTXO.new owner a).onLedger P.contract = true := by simp [UTXO.onLedger, UTXO.new, hown]
    have e : placed (fun u => (false || decide (P.contract = P.contract)) && u.onLedger P.contract) id
        (placed (fun u => false && !u.isDummy) (fun _ => UTXO.dummy) c
          (smallTx (UTXO.new P.contract a) (UTXO.new owner a) UTXO.dummy).inputs.toList [0, 0, 0, 0])
        (smallTx (UTXO.new P.contract a) (UTXO.new owner a) UTXO.dummy).outputs.toList [j, 0, 0, 0] =
        write c j (UTXO.new owner a) := by
      simp only [smallTx_inputs, smallTx_outputs, placed, dummy_isDummy, Bool.false_and, Bool.false_eq_true,
        if_false, id, Bool.false_or, decide_true, Bool.true_and, dummy_onLedger, onL, if_true]
    rw [e, ← this]
  · have f := (stepOne_iff h P cv z i z').1 h6
    rcases f.books with ⟨_, b⟩ | ⟨t, _⟩
    · exact b
    · rw [hmode] at t; cases t

/-- **C54** fails without the range assumption, second witness: in transfer-only mode a user who owns one
UTXO can sign a transaction whose outputs are worth the whole field characteristic more. -/
theorem C54_signed_inflation [Fact q.Prime] (h : Sizes p q) (hpq : p ≤ q) (P : Params p G)
    (hmode : P.transferOnly = true) (cv : Curve p q G) (z : CState p) (c : Nat → UTXO (ZMod p) G)
    (ct : Nat → Tx (ZMod p) G) (cs : Nat → G) (ho : Open P cv z c ct cs)
    (sk : ZMod q) (hsk : sk • cv.gen ≠ P.contract) (a : ZMod p) (ha : a.val < 2 ^ 64)
    (j k : Nat) (hj : j < UTXO_CAP) (hk : k < UTXO_CAP) (hjk : j ≠ k)
    (hold : c j = UTXO.new (sk • cv.gen) a) (hfree : c k = UTXO.dummy) :
    ∃ i z' c', stepOne P cv z i z' ∧ i.senderPk = sk • cv.gen ∧
      i.signed cv P.hs z.txRootFinal = true ∧ RootOf P.hs (utxoEncVar cv) 32 c' z'.utxoRoot ∧
      valueOf c' UTXO_CAP = valueOf c UTXO_CAP + p ∧
      z'.depositAcc = z.depositAcc ∧ z'.withdrawalAcc = z.withdrawalAcc := by
  have hp := one_lt_p h
  have hNZ : NeZero p := ⟨by omega⟩
  have hl := h.large
  set pk := sk • cv.gen with hpk
  let tx : Tx (ZMod p) G := smallTx (UTXO.new pk a) (UTXO.new pk (a + 1)) (UTXO.new pk (-1))
  obtain ⟨sig, hsig⟩ := Agg.exists_sig cv (by omega) hpq P.hs.crh sk (txEncVar cv tx ++ [z.txRootFinal])
  have hq : 0 < q := h.pos
  have hNQ : NeZero q := ⟨by omega⟩
  have bS : Circuit.bitsVal (Circuit.natBits (Circuit.modBits q) sig.1.val) = sig.1.val := by
    rw [Circuit.bitsVal_natBits]
    exact Nat.mod_eq_of_lt (lt_trans (ZMod.val_lt _) (Nat.lt_size_self q))
  have bE : Circuit.bitsVal (Circuit.natBits (Circuit.modBits q) sig.2.val) = sig.2.val := by
    rw [Circuit.bitsVal_natBits]
    exact Nat.mod_eq_of_lt (lt_trans (ZMod.val_lt _) (Nat.lt_size_self q))
  have v1 : (a + 1 : ZMod p).val = a.val + 1 := by
    have : ((a.val + 1 : Nat) : ZMod p) = a + 1 := by push_cast; rw [ZMod.natCast_zmod_val]
    rw [← this, ZMod.val_natCast, Nat.mod_eq_of_lt (by omega)]
  have v2 : (-1 : ZMod p).val = p - 1 := by
    have : ((p - 1 : Nat) : ZMod p) = -1 := by
      rw [Nat.cast_sub (by omega)]; simp
    rw [← this, ZMod.val_natCast, Nat.mod_eq_of_lt (by omega)]
  have onL : ∀ x : ZMod p, (UTXO.new pk x).onLedger P.contract = true := by
    intro x; simp [UTXO.onLedger, UTXO.new, hsk]
  have rd : ∀ x : ZMod p, (UTXO.new pk x).isDummy = false := fun _ => rfl
  obtain ⟨i, z', h1, h2, h3, h4, h5, h6, h7⟩ := one_complete h hpq P cv z c ct cs ho.utxo ho.tx ho.signer
    tx pk (Circuit.natBits (Circuit.modBits q) sig.1.val) (Circuit.natBits (Circuit.modBits q) sig.2.val)
    (Circuit.natBits_length _ _) (Circuit.natBits_length _ _) [j, 0, 0, 0] [j, k, 0, 0]
    (by intro u hu hd; rw [smallTx_inputs] at hu; simp at hu; rcases hu with rfl | rfl <;> first | rfl | cases hd)
    (by
      simp only [tx, smallTx_inputs, smallTx_outputs, totalVal, List.map_cons, List.map_nil, rd, dummy_isDummy,
        Bool.false_eq_true, if_false, if_true, List.sum_cons, List.sum_nil, add_zero, UTXO.new, Nat.cast_add,
        ZMod.natCast_zmod_val]
      ring)
    (by simp [hmode]) true
    (by rw [bS, bE, ZMod.natCast_zmod_val, ZMod.natCast_zmod_val, hsig]; simp [ZMod.val_lt])
    (by
      simp only [tx, smallTx_inputs, fits, rd, dummy_isDummy, Bool.not_false, Bool.not_true, Bool.and_true,
        Bool.and_false, if_true, Bool.false_eq_true, if_false, and_true, id]
      exact ⟨hj, hold⟩)
    (by
      simp only [tx, smallTx_inputs, smallTx_outputs, placed, fits, rd, dummy_isDummy, Bool.not_false,
        Bool.not_true, Bool.and_true, Bool.and_false, if_true, Bool.false_eq_true, if_false, and_true, id,
        Bool.true_or, Bool.true_and, dummy_onLedger, onL]
      refine ⟨hj, by simp [write], hk, ?_⟩
      simp [write, hjk.symm, hfree])
    ho.txFree (fun _ => ho.signerFree)
  refine ⟨i, z', _, h6, h2, h5, h7, ?_, ?_⟩
  · have e : placed (fun u => (true || decide (pk = P.contract)) && u.onLedger P.contract) id
        (placed (fun u => true && !u.isDummy) (fun _ => UTXO.dummy) c tx.inputs.toList [j, 0, 0, 0])
        tx.outputs.toList [j, k, 0, 0] =
        write (write (write c j UTXO.dummy) j (UTXO.new pk (a + 1))) k (UTXO.new pk (-1)) := by
      simp only [tx, smallTx_inputs, smallTx_outputs, placed, rd, dummy_isDummy, Bool.not_false,
        Bool.not_true, Bool.and_true, Bool.and_false, if_true, Bool.false_eq_true, if_false, id,
        Bool.true_or, Bool.true_and, dummy_onLedger, onL]
    rw [e]
    have w1 := valueOf_write c UTXO_CAP j UTXO.dummy hj
    have w2 := valueOf_write (write c j UTXO.dummy) UTXO_CAP j (UTXO.new pk (a + 1)) hj
    have w3 := valueOf_write (write (write c j UTXO.dummy) j (UTXO.new pk (a + 1))) UTXO_CAP k
      (UTXO.new pk (-1)) hk
    have s0 : sval (UTXO.dummy : UTXO (ZMod p) G) = 0 := rfl
    have s1 : sval (UTXO.new pk (a + 1)) = a.val + 1 := v1
    have s2 : sval (UTXO.new pk (-1 : ZMod p)) = p - 1 := v2
    have s3 : sval (c j) = a.val := by rw [hold]; rfl
    have s4 : sval (write c j (UTXO.dummy : UTXO (ZMod p) G) j) = 0 := by simp [write, s0]
    have s5 : sval (write (write c j (UTXO.dummy : UTXO (ZMod p) G)) j (UTXO.new pk (a + 1)) k) = 0 := by
      simp [write, hjk.symm, hfree, s0]
    rw [s3, s0] at w1
    rw [s4, s1] at w2
    rw [s5, s2] at w3
    generalize valueOf c UTXO_CAP = V0 at *
    generalize valueOf (write c j UTXO.dummy) UTXO_CAP = V1 at *
    generalize valueOf (write (write c j UTXO.dummy) j (UTXO.new pk (a + 1))) UTXO_CAP = V2 at *
    omega
  · have f := (stepOne_iff h P cv z i z').1 h6
    rcases f.books with ⟨_, b⟩ | ⟨t, _⟩
    · exact b
    · rw [hmode] at t; cases t

/-! ## C55 -/

/-- **C55**: in full mode the withdrawal chain records, for every transaction of the run that pays to the
contract — authorised or not — its sender and the amount; the recorded total is the authorised one
exactly when no unauthorised transaction pays to the contract. -/
theorem C55_withdrawals_recorded (h : Sizes p q) (P : Params p G) (hfull : P.transferOnly = false)
    (cv : Curve p q G) (z z' : CState p) (bs : List (List (CInputs p G))) (hrun : runSteps P cv z bs z') :
    z'.withdrawalAcc = chain (shaField p P.sha) (amountInput cv) z.withdrawalAcc
      (withdrawalList P bs.flatten) ∧
    (((withdrawalList P bs.flatten).map (·.2)).sum = authorisedWithdrawals P cv z.txRootFinal bs.flatten ↔
      ∀ i ∈ bs.flatten, i.authorised P cv z.txRootFinal = false → i.withdrawn P = 0) := by
  have f := run_facts h hrun
  rcases f.books with ⟨t, _⟩ | ⟨_, b1, b2, b3, b4⟩
  · rw [hfull] at t; cases t
  refine ⟨b4, ?_⟩
  generalize bs.flatten = is
  have le : ∀ is : List (CInputs p G), authorisedWithdrawals P cv z.txRootFinal is ≤
      ((withdrawalList P is).map (·.2)).sum := by
    intro is
    induction is with
    | nil => simp [authorisedWithdrawals, withdrawalList]
    | cons i is ih =>
      rw [authorisedWithdrawals_cons, withdrawalList_cons, List.map_append, List.sum_append]
      refine Nat.add_le_add ?_ ih
      by_cases hw : i.withdrawn P = 0 <;> simp [withdrawalList, hw]
      split <;> omega
  induction is with
  | nil => simp [authorisedWithdrawals, withdrawalList]
  | cons i is ih =>
    rw [authorisedWithdrawals_cons, withdrawalList_cons, List.map_append, List.sum_append]
    have h1 := le is
    have h2 : ((withdrawalList P [i]).map (·.2)).sum = i.withdrawn P := by
      by_cases hw : i.withdrawn P = 0 <;> simp [withdrawalList, hw]
    rw [h2]
    simp only [List.mem_cons, forall_eq_or_imp]
    refine Iff.trans ?_ (and_congr_right fun _ => ih)
    cases ha : i.authorised P cv z.txRootFinal
    · simp; omega
    · simp

/-- **C55** fails as first stated: in full mode anybody can have a withdrawal of any amount recorded for
any key, without a signature of that key and without any UTXO being spent. -/
theorem C55_unsigned_withdrawal_from_nothing (h : Sizes p q) (hpq : p ≤ q) (P : Params p G)
    (hmode : P.transferOnly = false) (cv : Curve p q G) (z : CState p) (c : Nat → UTXO (ZMod p) G)
    (ct : Nat → Tx (ZMod p) G) (cs : Nat → G) (ho : Open P cv z c ct cs) (pk : G) (hpk : pk ≠ P.contract)
    (a : Nat) (ha : a < 2 ^ 64) (ha0 : a ≠ 0) :
    ∃ i z', stepOne P cv z i z' ∧ i.authorised P cv z.txRootFinal = false ∧ i.senderPk = pk ∧
      z'.utxoRoot = z.utxoRoot ∧
      z'.withdrawalAcc = shaField p P.sha (amountInput cv z.withdrawalAcc (pk, a)) := by
  have hl := h.large
  have hva : ((a : ZMod p)).val = a := by rw [ZMod.val_natCast, Nat.mod_eq_of_lt (by omega)]
  have hP0 : ((UTXO.dummy : UTXO (ZMod p) G).amount).val = 0 := by simp [UTXO.dummy]
  have hout : ∀ u ∈ [UTXO.new P.contract ((a : ZMod p)), UTXO.dummy, UTXO.dummy, UTXO.dummy],
      u.amount.val < 2 ^ 64 := by
    intro u hu
    simp only [List.mem_cons, List.not_mem_nil, or_false] at hu
    rcases hu with rfl | rfl | rfl | rfl
    · show ((a : ZMod p)).val < _; rw [hva]; exact ha
    all_goals rw [hP0]; decide
  have hw : totalVal (([UTXO.new P.contract ((a : ZMod p)), UTXO.dummy, UTXO.dummy, UTXO.dummy]).filter
      fun u => decide (u.pk = P.contract)) = a := by
    rw [List.filter_cons_of_pos (by simp [UTXO.new])]
    by_cases h0 : (UTXO.dummy : UTXO (ZMod p) G).pk = P.contract
    · simp [totalVal, h0, UTXO.new, dummy_isDummy, hva]
    · simp [totalVal, h0, UTXO.new, hva]
  obtain ⟨i, z', h1, h2, h3, h4, h5, h6, h7⟩ := one_complete h hpq P cv z c ct cs ho.utxo ho.tx ho.signer
    (smallTx (UTXO.new pk (a : ZMod p)) (UTXO.new P.contract (a : ZMod p)) UTXO.dummy) pk
    (List.replicate (Circuit.modBits q) true) (List.replicate (Circuit.modBits q) true) (by simp) (by simp)
    [0, 0, 0, 0] [0, 0, 0, 0]
    (by intro u hu hd; rw [smallTx_inputs] at hu; simp at hu; rcases hu with rfl | rfl <;> first | rfl | cases hd)
    (by simp [smallTx_inputs, smallTx_outputs, totalVal, UTXO.new, dummy_isDummy])
    (fun _ => ⟨by rw [smallTx_outputs]; exact hout, by rw [smallTx_outputs, hw]; exact ha⟩)
    false (by simp [ones_not_lt])
    (by simp [smallTx_inputs, fits])
    (by simp [smallTx_inputs, smallTx_outputs, placed, fits, hpk])
    ho.txFree (by simp [hpk])
  have hna : i.authorised P cv z.txRootFinal = false := by simp [CInputs.authorised, h5, h2, hpk]
  refine ⟨i, z', h6, hna, h2, (C52_unauthorised_is_inert h P cv z z' i h6 hna).1, ?_⟩
  have f := (stepOne_iff h P cv z i z').1 h6
  rcases f.books with ⟨t, _⟩ | ⟨_, _, _, _, b⟩
  · rw [hmode] at t; cases t
  · have e : i.withdrawn P = a := by
      unfold CInputs.withdrawn; rw [h1, smallTx_outputs, hw]
    rw [b]
    simp [withdrawalList, e, ha0, h2, chain]

/-! ## C60 -/

/-- **C60**: only the sequence of transactions matters, not how it is cut into batches; in particular a
batch of `n` is `n` batches of one. -/
theorem C60_batching_irrelevant (P : Params p G) (cv : Curve p q G) (z z' : CState p)
    (bs bs' : List (List (CInputs p G))) (he : bs.flatten = bs'.flatten) :
    runSteps P cv z bs z' ↔ runSteps P cv z bs' z' := by
  rw [runSteps_flatten, runSteps_flatten, he]

theorem C60_batch_is_single_steps (P : Params p G) (cv : Curve p q G) (z z' : CState p)
    (b : List (CInputs p G)) :
    stepBatch P cv z b z' ↔ runSteps P cv z (b.map fun i => [i]) z' := by
  rw [runSteps_flatten, ← List.flatMap_def, List.flatMap_singleton']

end PF.Props
