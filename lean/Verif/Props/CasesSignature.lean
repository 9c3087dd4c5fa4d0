import Verif.Props.SignatureUse
import Verif.Props.CasesInstances

/-!
# Concrete cases for C122
-/
set_option linter.unusedSectionVars false

namespace PF.CasesSignature
open PF PF.Spec PF.MT PF.AggC PF.Circuit PF.Contract PF.Agg PF.Props
open PF.Cases (F K k0 a b ha hb hab h0 ha0 hb0 hp hq)

/-! ## A run of the circuit with another response string -/

section
variable {p q : Nat} {G : Type} [AddCommGroup G] [Module (ZMod q) G] [DecidableEq G]

/-- The payment of the run `Clean.is` with another response string. -/
def other (cv : Curve p q G) (k0 a b : G) (s : List Bool) : CInputs p G := { Clean.i1 cv k0 a b with sigS := s }

theorem other_signed (cv : Curve p q G) (k0 a b : G) (s : List Bool) (hp : 1 < p) (hq : 1 < q) (r : ZMod p) :
    (other cv k0 a b s).signed cv (Clean.hs cv k0 a b) r = true := by
  unfold CInputs.signed
  have h1 := (Clean.verify_one cv k0 a b hp hq a (Clean.tx0 p a b) r ((bitsVal s : Nat) : ZMod q)).1
  have h2 : bitsVal (other cv k0 a b s).sigE = 1 := Clean.bitsVal_one hq
  rw [h2, Nat.cast_one]
  simp only [Bool.and_eq_true, decide_eq_true_eq]
  exact ⟨hq, h1⟩

theorem other_run (h : Sizes p q) (hpq : p ≤ q) (cv : Curve p q G) (k0 a b : G) (P : Params p G)
    (hP : P.hs = Clean.hs cv k0 a b) (z z' : CState p) (s : List Bool) (hs : s.length = modBits q) (hp : 1 < p)
    (hq : 1 < q) (hrun : runSteps P cv z [[Clean.i0 cv k0 a b], [Clean.i1 cv k0 a b, Clean.i2 cv k0 a b]] z') :
    runSteps P cv z [[Clean.i0 cv k0 a b], [other cv k0 a b s, Clean.i2 cv k0 a b]] z' := by
  have l1 : (Clean.noSig q).length = modBits q := List.length_replicate
  have l2 : (natBits (modBits q) 1).length = modBits q := natBits_length _ _
  refine C122_run_uses_validity_only h hpq P cv z z' _ _ ?_ hrun
  refine List.Forall₂.cons (List.Forall₂.cons ⟨l1, l1, rfl, rfl⟩ List.Forall₂.nil)
    (List.Forall₂.cons (List.Forall₂.cons ⟨hs, l2, rfl, ?_⟩
      (List.Forall₂.cons ⟨l1, l2, rfl, rfl⟩ List.Forall₂.nil)) List.Forall₂.nil)
  rw [hP, other_signed cv k0 a b s hp hq]
  exact Clean.signed1 hp hq _

theorem other_ne (cv : Curve p q G) (k0 a b : G) (s : List Bool) (hs : bitsVal s ≠ 0) :
    (other cv k0 a b s).sigS ≠ (Clean.i1 cv k0 a b).sigS := by
  intro h
  have e : bitsVal (Clean.i1 cv k0 a b).sigS = 0 := bitsVal_replicate_false _
  exact hs ((congrArg bitsVal h).trans e)
end

/-- The witness with any other response string is different, and the run is accepted with the same final state. -/
example (s : List Bool) (hs : s.length = modBits grumpkinQ) (h0 : bitsVal s ≠ 0) :
    (other bnCurve k0 a b s).sigS ≠ (Clean.i1 bnCurve k0 a b).sigS ∧
    runSteps (Cases.P false) bnCurve Cases.z
      [[Clean.i0 bnCurve k0 a b], [other bnCurve k0 a b s, Clean.i2 bnCurve k0 a b]] (Cases.zEnd false) :=
  ⟨other_ne bnCurve k0 a b s h0, other_run sizes_bn254 bn254_le bnCurve k0 a b (Cases.P false) rfl _ _ s hs
    (lt_trans (by decide) hp) hq (Cases.run false)⟩

/-- With the real group order, at least every fourth response has a second string. -/
example (s : ZMod grumpkinQ) (h : 4 * s.val < grumpkinQ) : s.val + grumpkinQ < 2 ^ modBits grumpkinQ := by
  have h2 : 253 < modBits grumpkinQ := Nat.lt_size.2 (by decide)
  have h3 : 2 ^ 254 ≤ 2 ^ modBits grumpkinQ := Nat.pow_le_pow_right (by decide) h2
  have h1 : 5 * grumpkinQ < 4 * 2 ^ 254 := by decide
  have key : ∀ v n : Nat, 4 * v < n → 4 * (v + n) < 5 * n := fun v n h => by omega
  have h4 := key _ _ h
  exact lt_of_mul_lt_mul_left (lt_of_lt_of_le (lt_trans h4 h1) (Nat.mul_le_mul_left 4 h3)) (by decide)

/-! ## The aggregator with other signatures -/

/-- The answers of `CasesEpoch.sigs` with other responses, and a signature for the contract's deposit. -/
def sigs2 : List (Pair grumpkinQ K) := [(k0, some (8, 9)), (a, some (4, 1)), (b, some (3, 1))]

example : sigs2 ≠ CasesEpoch.sigs ∧
    (processSignatures .debug bnCurve CasesEpoch.P.hs CasesEpoch.P.contract sigs2 CasesEpoch.s1).2 = .ok () ∧
    withoutSignatures CasesEpoch.s2 =
      withoutSignatures (processSignatures .debug bnCurve CasesEpoch.P.hs CasesEpoch.P.contract sigs2 CasesEpoch.s1).1 := by
  have := C122_aggregator_uses_validity_only .debug bnCurve CasesEpoch.P.hs CasesEpoch.P.contract CasesEpoch.s1 CasesEpoch.reached1.1
    CasesEpoch.sigs sigs2 rfl (fun k tx x x' _ hx hx' => by
      have hv : ∀ (m : List (ZMod F)) (k : K) (s : ZMod grumpkinQ),
          Schnorr.verify bnCurve CasesEpoch.P.hs.crh k m (s, 1) = true :=
        fun m k s => (oneHs_verify (lt_trans (by decide) hp) hq bnCurve k m s).1
      match k with
      | 0 =>
        cases hx; cases hx'
        simp [Approves, CasesEpoch.P]
      | 1 =>
        cases hx; cases hx'
        unfold Approves
        simp only [Option.getD_some]
        rw [hv, hv]
      | 2 =>
        cases hx; cases hx'
        unfold Approves
        simp only [Option.getD_some]
        rw [hv, hv]
      | k + 3 => cases hx)
  rw [CasesEpoch.answered] at this
  refine ⟨fun h => ?_, this.1.symm, this.2.1⟩
  simp [sigs2, CasesEpoch.sigs, triSigs] at h

end PF.CasesSignature
