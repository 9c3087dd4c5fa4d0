import Verif.Proof.CleanAccept
import Verif.Props.AggregatorProvable
import Verif.Props.Grumpkin

/-!
# Concrete cases for the theorems about the aggregator's circuit (C50–C56, C59, C60, C74)

One run over the fields and the group order used in the repository: the contract (key 1) deposits 5 for the
key 2, which pays them to the key 3, which withdraws them. The hashes are those of `CleanHash`/`CleanRun`, for
which no tree of the run exhibits a collision, so every conclusion below is stated without the collision
disjunct. The run satisfies the hypotheses of all the theorems at once.
-/
set_option linter.unusedSectionVars false

namespace PF.Cases
open PF PF.Spec PF.MT PF.AggC PF.Circuit PF.Contract PF.Agg PF.Props

abbrev F := bn254r
abbrev K := ZMod grumpkinQ
def k0 : K := ((1 : Nat) : K)
def a : K := ((2 : Nat) : K)
def b : K := ((3 : Nat) : K)

theorem ha : a ≠ k0 := bn_ne (by decide)
theorem hb : b ≠ k0 := bn_ne (by decide)
theorem hab : a ≠ b := bn_ne (by decide)
theorem h0 : k0 ≠ 0 := by have := bn_ne (i := 1) (j := 0) (by decide); rwa [Nat.cast_zero] at this
theorem ha0 : a ≠ 0 := by have := bn_ne (i := 2) (j := 0) (by decide); rwa [Nat.cast_zero] at this
theorem hb0 : b ≠ 0 := by have := bn_ne (i := 3) (j := 0) (by decide); rwa [Nat.cast_zero] at this
theorem hp : 1000 < F := by decide
theorem hq : 1 < grumpkinQ := by decide

theorem gen2 : ((2 : Nat) : ZMod grumpkinQ) • (bnCurve.gen : K) = a := by
  show ((2 : Nat) : ZMod grumpkinQ) • (1 : K) = _
  rw [smul_eq_mul, mul_one]; rfl

/-- Circuit constants, start state, end state and external inputs. -/
def P (mode : Bool) : Params F K := Clean.P bnCurve k0 a b toySha mode
def z : CState F := Clean.z bnCurve k0 a b
def zEnd (mode : Bool) : CState F := Clean.zEnd bnCurve k0 a b toySha mode
def is : List (CInputs F K) := Clean.is bnCurve k0 a b

/-- Batches of one and of two transactions. -/
def bs : List (List (CInputs F K)) := [[Clean.i0 bnCurve k0 a b], [Clean.i1 bnCurve k0 a b, Clean.i2 bnCurve k0 a b]]

theorem flat : bs.flatten = is := rfl

/-- C50_honest_runs_accepted applies: the run is accepted. -/
theorem run (mode : Bool) : runSteps (P mode) bnCurve z bs (zEnd mode) :=
  Clean.run sizes_bn254 bn254_le hp hq ha hb hab h0 ha0 hb0 toySha mode bs rfl

theorem clean_utxo (mode : Bool) :
    ¬ Collision (P mode).hs (utxoEncVar bnCurve) 32 Clean.c0 (ledgerUpds (P mode) bnCurve z.txRootFinal bs.flatten) :=
  (Clean.ledger_ready hp hq ha hb hab toySha mode _).2.2

theorem clean_tx (mode : Bool) :
    ¬ Collision (P mode).hs (txEncVar bnCurve) 13 Clean.ct0 (txUpds z.step bs.flatten) :=
  (Clean.tx_ready hp ha).2.2

theorem clean_signer (mode : Bool) :
    ¬ Collision (P mode).hs (pkEncVar bnCurve) 13 Clean.cs0
      (signerUpds (P mode) bnCurve z.txRootFinal z.step bs.flatten) :=
  (Clean.signer_ready hp hq ha h0 ha0 hb0 toySha mode _).2.2

theorem root0 (mode : Bool) : RootOf (P mode).hs (utxoEncVar bnCurve) 32 Clean.c0 z.utxoRoot :=
  Clean.root_utxo toySha mode

theorem upds (mode : Bool) (r : ZMod F) : ledgerUpds (P mode) bnCurve r is =
      [⟨0, UTXO.dummy, Clean.uA F a, trueSibs (Clean.lhU bnCurve k0 a b) (Clean.h2 F) 32 Clean.c0 0⟩,
       ⟨0, Clean.uA F a, UTXO.dummy, trueSibs (Clean.lhU bnCurve k0 a b) (Clean.h2 F) 32 (Clean.c1 a) 0⟩,
       ⟨1, UTXO.dummy, Clean.uA F b, trueSibs (Clean.lhU bnCurve k0 a b) (Clean.h2 F) 32 (Clean.c2 a) 1⟩,
       ⟨1, Clean.uA F b, UTXO.dummy, trueSibs (Clean.lhU bnCurve k0 a b) (Clean.h2 F) 32 (Clean.c3 a b) 1⟩] :=
  Clean.ledgerUpds_eq (lt_trans (by decide) hp) hq ha hb toySha mode r

/-- The four ledger writes are legal, and the last root commits to the ledger they leave. -/
example (mode : Bool) : Legal Clean.c0 (ledgerUpds (P mode) bnCurve z.txRootFinal bs.flatten) ∧
    RootOf (P mode).hs (utxoEncVar bnCurve) 32
      (applied Clean.c0 (ledgerUpds (P mode) bnCurve z.txRootFinal bs.flatten)) (zEnd mode).utxoRoot :=
  (C50_runs_are_ledger_transitions sizes_bn254 _ _ _ _ bs (run mode) Clean.c0 rfl).resolve_right (clean_utxo mode)

/-- The run without the deposit, on the ledger that holds the deposit at position 0: `C51` says who signed the
transaction that removed it. -/
theorem spend_run (mode : Bool) : ∃ z1, runSteps (P mode) bnCurve z1 [[Clean.i1 bnCurve k0 a b, Clean.i2 bnCurve k0 a b]] (zEnd mode) ∧
    stepOne (P mode) bnCurve z (Clean.i0 bnCurve k0 a b) z1 ∧
    RootOf (P mode).hs (utxoEncVar bnCurve) 32 (Clean.c1 a) z1.utxoRoot ∧ z1.txRootFinal = z.txRootFinal ∧
    ¬ Collision (P mode).hs (utxoEncVar bnCurve) 32 (Clean.c1 a) (ledgerUpds (P mode) bnCurve z.txRootFinal
        [Clean.i1 bnCurve k0 a b, Clean.i2 bnCurve k0 a b]) := by
  obtain ⟨z1, h1, h2⟩ := run mode
  have h1' : runSteps (P mode) bnCurve z [[Clean.i0 bnCurve k0 a b]] z1 := ⟨z1, h1, rfl⟩
  have happ : ledgerUpds (P mode) bnCurve z.txRootFinal is = ledgerUpds (P mode) bnCurve z.txRootFinal [Clean.i0 bnCurve k0 a b] ++
      ledgerUpds (P mode) bnCurve z.txRootFinal [Clean.i1 bnCurve k0 a b, Clean.i2 bnCurve k0 a b] :=
    by simp only [ledgerUpds, is, Clean.is, List.flatMap_cons, List.flatMap_nil, List.append_nil]
  have hcol := clean_utxo mode
  rw [flat, happ] at hcol
  have e0 : ledgerUpds (P mode) bnCurve z.txRootFinal [Clean.i0 bnCurve k0 a b] =
      [⟨0, UTXO.dummy, Clean.uA F a, trueSibs (Clean.lhU bnCurve k0 a b) (Clean.h2 F) 32 Clean.c0 0⟩] :=
    Clean.ledgerUpds_first (lt_trans (by decide) hp) hq ha toySha mode _
  obtain ⟨_, hr⟩ := (C50_runs_are_ledger_transitions sizes_bn254 _ _ _ _ _ h1' Clean.c0 rfl).resolve_right
    (fun hc => hcol (hc.left _))
  rw [List.flatten_cons, List.flatten_nil, List.append_nil, e0] at hr
  rw [e0] at hcol
  have hfin : z1.txRootFinal = z.txRootFinal := (run_facts sizes_bn254 h1').final
  have hstep : stepOne (P mode) bnCurve z (Clean.i0 bnCurve k0 a b) z1 := by
    obtain ⟨z1', h3, h4⟩ := h1
    have h4' : z1 = z1' := h4
    rw [h4']; exact h3
  have hc : ¬ Collision (P mode).hs (utxoEncVar bnCurve) 32 (Clean.c1 a) (ledgerUpds (P mode) bnCurve z.txRootFinal
      [Clean.i1 bnCurve k0 a b, Clean.i2 bnCurve k0 a b]) := fun hc => hcol (Collision.right _ hc)
  exact ⟨z1, h2, hstep, hr, hfin, hc⟩

/-- **C51**: the deposit sits at position 0 before the payment; whatever the last root says about that
position, if it is no longer there then its owner, key 2, signed the transaction that took it. -/
example (mode : Bool) : ∃ (z1 : CState F) (c' : Nat → UTXO (ZMod F) K),
    RootOf (P mode).hs (utxoEncVar bnCurve) 32 (Clean.c1 a) z1.utxoRoot ∧ Clean.c1 a 0 = UTXO.new a (5 : ZMod F) ∧
    RootOf (P mode).hs (utxoEncVar bnCurve) 32 c' (zEnd mode).utxoRoot ∧
    (c' 0 ≠ Clean.c1 a 0 → ∃ i ∈ [Clean.i1 bnCurve k0 a b, Clean.i2 bnCurve k0 a b],
      i.signed bnCurve (P mode).hs z.txRootFinal = true ∧ Clean.c1 a 0 ∈ i.tx.inputs.toList ∧ i.senderPk = a) := by
  obtain ⟨z1, hr, -, hroot, hfin, hcl⟩ := spend_run mode
  have h51 := C51_removed_only_by_owner sizes_bn254 _ _ _ _ _ hr (Clean.c1 a) hroot
  rw [List.flatten_cons, List.flatten_nil, List.append_nil, hfin] at h51
  obtain ⟨c', hc', hown⟩ := h51.resolve_right hcl
  have hne : Clean.c1 a 0 ≠ (UTXO.dummy : UTXO (ZMod F) K) := Clean.five_ne hp
  refine ⟨z1, c', hroot, rfl, hc', fun hd => ?_⟩
  obtain ⟨i, hi, h1, h2, _, h3⟩ := hown 0 hne hd
  exact ⟨i, hi, h1, h2, h3.symm⟩

/-- **C51**, at every moment: the deposit created by the first transaction is taken by the second one. -/
example (mode : Bool) := (C51_every_removal sizes_bn254 _ _ _ _ bs (run mode) Clean.c0 rfl _ rfl).resolve_right
  (clean_utxo mode)

/-- **C52**: the UTXOs of the last ledger that were not there before come from authorised transactions. -/
example (mode : Bool) := (C52_created_only_if_authorised sizes_bn254 _ _ _ _ bs (run mode) Clean.c0 rfl).resolve_right
  (clean_utxo mode)

/-- **C53**: with the deposits of 5 and withdrawals of 5 recorded, the value of the ledger is unchanged. -/
example := (C53_full_mode_conservation sizes_bn254 (P false) rfl bnCurve z (zEnd false) bs (run false) Clean.c0
  (root0 false) (Clean.healthy0 _)).1.resolve_right (clean_utxo false)

example : PF.AggC.depositList (P false) bs.flatten = [(a, 5)] ∧ PF.AggC.withdrawalList (P false) bs.flatten = [(b, 5)] :=
  ⟨Clean.deposits_eq hp ha hb toySha false, Clean.withdrawals_eq hp ha hb toySha false⟩

/-- **C54**: the outputs of the run are in range in either mode. -/
theorem in_range : ∀ i ∈ bs.flatten, ∀ u ∈ i.tx.outputs.toList, u.amount.val < 2 ^ 64 := by
  rw [flat]; exact Clean.range_all hp

example (mode : Bool) := (C54_conservation_if_in_range sizes_bn254 (P mode) bnCurve z (zEnd mode) bs (run mode) in_range
  Clean.c0 rfl (Clean.healthy0 _)).resolve_right (clean_utxo mode)

example (mode : Bool) := (C54_conservation_in_field sizes_bn254 (P mode) bnCurve z (zEnd mode) bs (run mode)
  Clean.c0 rfl).resolve_right (clean_utxo mode)

/-- An unsigned mint of 9 for key 2 at position 7 of the empty ledger. -/
example := C54_unsigned_mint_unrecorded sizes_bn254 bn254_le (P true) rfl bnCurve z Clean.c0 Clean.ct0 Clean.cs0
  (Clean.z_open toySha true) 7 (by decide) rfl a ha 9

/-- **C55** on the run, and an unsigned withdrawal of 9 by key 2 from the empty ledger. -/
example := C55_withdrawals_recorded sizes_bn254 (P false) rfl bnCurve z (zEnd false) bs (run false)

example := C55_unsigned_withdrawal_from_nothing sizes_bn254 bn254_le (P false) rfl bnCurve z Clean.c0 Clean.ct0
  Clean.cs0 (Clean.z_open toySha false) a ha 9 (by decide) (by decide)

/-- **C52** on that withdrawal: it is not authorised and leaves the ledger, the signers and the deposits
alone. -/
example : ∃ i z', stepOne (P false) bnCurve z i z' ∧ i.authorised (P false) bnCurve z.txRootFinal = false ∧
    z'.utxoRoot = z.utxoRoot ∧ z'.signerRoot = z.signerRoot ∧ z'.depositAcc = z.depositAcc := by
  obtain ⟨i, z', h1, h2, -⟩ := C55_unsigned_withdrawal_from_nothing sizes_bn254 bn254_le (P false) rfl bnCurve z
    Clean.c0 Clean.ct0 Clean.cs0 (Clean.z_open toySha false) a ha 9 (by decide) (by decide)
  obtain ⟨k1, k2, k3, -⟩ := C52_unauthorised_is_inert sizes_bn254 (P false) bnCurve z z' i h1 h2
  exact ⟨i, z', h1, h2, k1, k2, k3⟩

/-- Key 2 signs a transaction that turns its 5 into 6 and -1. -/
example := @C54_signed_inflation F grumpkinQ K _ _ _ grumpkinQ_fact sizes_bn254 bn254_le (P true) rfl bnCurve
  (Clean.zPaid bnCurve k0 a b) (Clean.c1 a) Clean.ct0 Clean.cs0 (Clean.paid_open toySha true) ((2 : Nat) : ZMod grumpkinQ)
  (by rw [gen2]; exact ha) 5 (Clean.five_lt hp) 0 1 (by decide) (by decide) (by decide)
  (by rw [gen2]; rfl) rfl

/-- **C56**: counter, list of transactions, list of signers and capacity. -/
example (mode : Bool) := C56_counter_and_final_root sizes_bn254 (P mode) bnCurve z (zEnd mode) bs (run mode)

theorem step0 : z.step.val + bs.flatten.length ≤ TX_CAP := by
  have : z.step.val = 0 := ZMod.val_zero
  rw [this]; show 0 + 3 ≤ 4096; omega

example (mode : Bool) := (C56_transactions_listed sizes_bn254 (P mode) bnCurve z (zEnd mode) bs (run mode) Clean.ct0 rfl
  step0).resolve_right (clean_tx mode)

example (mode : Bool) := (C56_signers_listed sizes_bn254 (P mode) bnCurve z (zEnd mode) bs (run mode) Clean.cs0 rfl
  step0).resolve_right (clean_signer mode)

example (mode : Bool) := (C56_capacity sizes_bn254 (P mode) bnCurve z (zEnd mode) bs (run mode) Clean.ct0 rfl rfl
  (by intro i hi; obtain ⟨y, hy⟩ := Clean.tx_of i hi; rw [hy]; exact Clean.tx0_ne_default _ _)).resolve_right
  (clean_tx mode)

/-- **C59**: four ledger writes at two positions; the UTXO erased at position 0 is the one put there. -/
example (mode : Bool) := (C59_no_double_spend sizes_bn254 (P mode) bnCurve z (zEnd mode) bs (run mode) Clean.c0 rfl
  _ rfl).resolve_right (clean_utxo mode)

example (mode : Bool) := (C59_copies sizes_bn254 (P mode) bnCurve z (zEnd mode) bs (run mode) Clean.c0 rfl).resolve_right
  (clean_utxo mode)

/-- **C60**: the run in one batch of three and in three batches of one. -/
example (mode : Bool) : runSteps (P mode) bnCurve z [is] (zEnd mode) :=
  (C60_batching_irrelevant (P mode) bnCurve z (zEnd mode) bs [is] (by simp [flat])).1 (run mode)

example (mode : Bool) : stepBatch (P mode) bnCurve z is (zEnd mode) :=
  (C60_batch_is_single_steps (P mode) bnCurve z (zEnd mode) is).2
    ((C60_batching_irrelevant (P mode) bnCurve z (zEnd mode) bs _ (by simp [flat, is, Clean.is])).1 (run mode))

/-- **C74**: the contract derives the final state of the run from a block with a deposit, a withdrawal and
three signers. -/
theorem public_inputs : derivePublicInputs bnCurve toySha (Clean.reg k0 a b) (Clean.block bnCurve k0 a b toySha) =
    .ok (zEnd false).toList := Clean.public_inputs hp hq ha hb toySha

theorem amounts : BlockAmounts (Clean.block bnCurve k0 a b toySha) := by
  constructor <;> intro d hd <;> rw [List.mem_singleton.1 hd] <;> decide

example := C74_accepted_block sizes_bn254 (P false) rfl bnCurve (Clean.reg k0 a b) (Clean.block bnCurve k0 a b toySha)
  amounts _ _ _ _ bs (zEnd false) (run false) public_inputs

example : RootOf (P false).hs (txEncVar bnCurve) 13 (fun j => ((is.map fun i => i.tx)[j]?).getD Tx.default)
      (Clean.block bnCurve k0 a b toySha).txRoot ∧
    RootOf (P false).hs (pkEncVar bnCurve) 13 (fun j => (([k0, a, b] : List K)[j]?).getD 0)
      (Clean.block bnCurve k0 a b toySha).signerRoot := by
  have h := C74_block_roots sizes_bn254 (P false) rfl bnCurve (Clean.reg k0 a b) (Clean.block bnCurve k0 a b toySha)
    amounts _ _ _ _ bs (zEnd false) (run false) public_inputs (by show 3 ≤ 4096; omega) rfl rfl
  have e : signerList (P false) bnCurve (Clean.block bnCurve k0 a b toySha).txRoot bs.flatten = [k0, a, b] :=
    Clean.signers_eq hp hq toySha false _
  refine ⟨h.1.resolve_right (clean_tx false), ?_⟩
  have := h.2.resolve_right (clean_signer false)
  rwa [e] at this

example := C74_block_value sizes_bn254 (P false) rfl bnCurve (Clean.reg k0 a b) (Clean.block bnCurve k0 a b toySha)
  amounts _ _ _ _ bs (zEnd false) (run false) public_inputs Clean.c0 rfl (Clean.healthy0 _)

end PF.Cases
