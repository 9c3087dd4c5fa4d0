import Verif.Spec.AggregatorCircuit
import Verif.Props.Contract

/-!
# The parameters used in the repository meet the size conditions

BN254 scalar field (circuit field) and Grumpkin scalar field. `bnCurve` is not Grumpkin but a group of the
same order with an injective coordinate map; it is used in examples only.
-/

namespace PF.AggC
open PF PF.Props

/-- Order of the scalar field of Grumpkin (= base field of BN254). -/
def grumpkinQ : Nat := 21888242871839275222246405745257275088696311157297823662689037894645226208583

theorem sizes_bn254 : Sizes bn254r grumpkinQ where
  large := by decide
  pos := by decide
  bits := by
    have h : Circuit.modBits grumpkinQ ≤ 254 := Nat.size_le.2 (by decide)
    have := C32_bn254.1
    unfold Circuit.modBits at *
    omega

theorem bn254_le : bn254r ≤ grumpkinQ := by decide

/-- A group of order `q` with coordinates: point `P ≠ 0` has coordinates `(P mod p, P / p)`. -/
def lineCurve {p q : Nat} (hp : 1 < p) (hq : 1 < q) (h : q ≤ p * p) : Curve p q (ZMod q) :=
  have hq0 : NeZero q := ⟨by omega⟩
  have hp0 : NeZero p := ⟨by omega⟩
  { gen := 1
    gen_ne := by
      have : Fact (1 < q) := ⟨hq⟩
      exact one_ne_zero
    xy := fun P => if P = 0 then none else some ((P.val : ZMod p), ((P.val / p : Nat) : ZMod p))
    xy_none := by
      intro P
      by_cases hP : P = 0 <;> simp [hP]
    xy_inj := by
      intro P Q hPQ
      by_cases h1 : P = 0 <;> by_cases h2 : Q = 0
      · rw [h1, h2]
      · simp [h1, h2] at hPQ
      · simp [h1, h2] at hPQ
      · simp only [h1, h2, if_false, Option.some.injEq, Prod.mk.injEq] at hPQ
        obtain ⟨e1, e2⟩ := hPQ
        have lt : ∀ R : ZMod q, R.val / p < p := fun R =>
          Nat.div_lt_of_lt_mul (lt_of_lt_of_le (ZMod.val_lt R) h)
        have d1 : P.val % p = Q.val % p := by
          have := congrArg ZMod.val e1
          rwa [ZMod.val_natCast, ZMod.val_natCast] at this
        have d2 : P.val / p = Q.val / p := by
          have := congrArg ZMod.val e2
          rwa [ZMod.val_natCast, ZMod.val_natCast, Nat.mod_eq_of_lt (lt P), Nat.mod_eq_of_lt (lt Q)] at this
        apply ZMod.val_injective
        rw [← Nat.div_add_mod P.val p, ← Nat.div_add_mod Q.val p, d1, d2] }

/-- Example group of the size of Grumpkin. -/
def bnCurve : Curve bn254r grumpkinQ (ZMod grumpkinQ) := lineCurve (by decide) (by decide) (by decide)

end PF.AggC
