import Verif.Props.Domain
import Verif.Props.CasesCircuit

/-!
# A concrete case for C126
-/
set_option linter.unusedSectionVars false

namespace PF.CasesDomain
open PF PF.Spec PF.MT PF.AggC PF.Circuit PF.Contract PF.Agg PF.Props
open PF.Cases (F K k0 a b ha hb hab h0 ha0 hb0 hp hq)

theorem foreign_pay {p q : Nat} {G : Type} [AddCommGroup G] [Module (ZMod q) G] [DecidableEq G]
    (cv : Curve p q G) (k0 a b k : G) (h1 : a ≠ k) (h2 : b ≠ k) :
    ForeignInput k (Clean.i1 cv k0 a b).senderPk (Clean.i1 cv k0 a b).tx := by
  refine ⟨h1, fun u hu hd => ?_⟩
  have hu' : u ∈ [UTXO.new a (5 : ZMod p), UTXO.dummy, UTXO.dummy, UTXO.dummy, UTXO.new b 5, UTXO.dummy, UTXO.dummy,
      UTXO.dummy] := hu
  simp only [List.mem_cons, List.not_mem_nil, or_false] at hu'
  rcases hu' with rfl | rfl | rfl | rfl | rfl | rfl | rfl | rfl
  · exact h1
  · exact absurd hd (by simp [UTXO.dummy])
  · exact absurd hd (by simp [UTXO.dummy])
  · exact absurd hd (by simp [UTXO.dummy])
  · exact h2
  · exact absurd hd (by simp [UTXO.dummy])
  · exact absurd hd (by simp [UTXO.dummy])
  · exact absurd hd (by simp [UTXO.dummy])

/-- The payment of the run of `CasesCircuit` is accepted by the circuit of every rollup whose contract key is neither
the payer's nor the receiver's, and leads to the same state. -/
example (k : K) (h1 : a ≠ k) (h2 : b ≠ k) : ∃ z1 z2,
    runSteps (Cases.P false) bnCurve z1 [[Clean.i1 bnCurve k0 a b]] z2 ∧
    runSteps { Cases.P false with contract := k } bnCurve z1 [[Clean.i1 bnCurve k0 a b]] z2 := by
  obtain ⟨z1, hrun, -⟩ := Cases.spend_run false
  have h' := hrun
  rw [runSteps_flatten] at h'
  obtain ⟨z2, h3, -⟩ := h'
  have hr : runSteps (Cases.P false) bnCurve z1 [[Clean.i1 bnCurve k0 a b]] z2 := by
    rw [runSteps_flatten]; exact ⟨z2, h3, rfl⟩
  refine ⟨z1, z2, hr, (C126_same_circuit (Cases.P false) { Cases.P false with contract := k } rfl rfl rfl bnCurve
    z1 z2 _ fun i hi => ?_).1 hr⟩
  obtain rfl : i = Clean.i1 bnCurve k0 a b := List.mem_singleton.1 hi
  exact ⟨foreign_pay bnCurve k0 a b k0 ha hb, foreign_pay bnCurve k0 a b k h1 h2⟩

/-- Such keys exist. -/
example : a ≠ (0 : K) ∧ b ≠ (0 : K) ∧ (0 : K) ≠ k0 := ⟨ha0, hb0, h0.symm⟩

end PF.CasesDomain
