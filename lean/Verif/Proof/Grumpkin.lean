import Mathlib.AlgebraicGeometry.EllipticCurve.Affine.Point
import Mathlib.Algebra.Module.ZMod
import Mathlib.GroupTheory.OrderOfElement
import Verif.Proof.Primes
import Verif.Proof.GrumpkinCert
import Verif.Proof.BnSizes

/-!
# Grumpkin

The curve `y² = x³ - 17` over the BN254 scalar field (crate ark-grumpkin, used throughout the repository with
`ark_grumpkin::Projective`): its group has prime order `grumpkinQ`, and its points with their affine
coordinates form a `Curve` in the sense of the model.
-/

namespace PF.Grumpkin
open WeierstrassCurve WeierstrassCurve.Affine

section
variable {p : Nat} [Fact p.Prime]

/-- `y² = x³ + b`. -/
abbrev short (b : ZMod p) : WeierstrassCurve.Affine (ZMod p) := ⟨0, 0, 0, 0, b⟩

/-- `P` is the point with the given coordinates. -/
def At {b : ZMod p} (P : (short b).Point) (A : Nat × Nat) : Prop :=
  ∃ h, P = .some (A.1 : ZMod p) (A.2 : ZMod p) h

theorem at_of_eq {b : ZMod p} {P : (short b).Point} {x y : ZMod p} {h : (short b).Nonsingular x y}
    (hP : P = .some x y h) (A : Nat × Nat) (hx : (A.1 : ZMod p) = x) (hy : (A.2 : ZMod p) = y) : At P A := by
  subst hx; subst hy; exact ⟨h, hP⟩

theorem at_add {b : ZMod p} {P Q : (short b).Point} {A B C : Nat × Nat} (l : ZMod p) (hP : At P A) (hQ : At Q B)
    (hne : (A.1 : ZMod p) ≠ B.1) (hl : l * ((A.1 : ZMod p) - B.1) = A.2 - B.2)
    (hx : (C.1 : ZMod p) = l * l - A.1 - B.1) (hy : (C.2 : ZMod p) = l * (A.1 - C.1) - A.2) : At (P + Q) C := by
  obtain ⟨h1, rfl⟩ := hP
  obtain ⟨h2, rfl⟩ := hQ
  have hs : (short b).slope (A.1 : ZMod p) B.1 A.2 B.2 = l := by
    rw [slope_of_X_ne hne, ← hl, mul_div_assoc, div_self (sub_ne_zero.2 hne), mul_one]
  refine at_of_eq (Point.add_of_X_ne hne) C ?_ ?_
  · rw [hs, hx]; simp only [addX]; ring
  · rw [hs, hy]; simp only [addY, negAddY, addX, negY, hx]; ring

theorem at_dbl {b : ZMod p} {P : (short b).Point} {A C : Nat × Nat} (l : ZMod p) (hP : At P A)
    (hne : (2 : ZMod p) * A.2 ≠ 0) (hl : l * (2 * A.2) = 3 * (A.1 * A.1))
    (hx : (C.1 : ZMod p) = l * l - A.1 - A.1) (hy : (C.2 : ZMod p) = l * (A.1 - C.1) - A.2) : At (P + P) C := by
  obtain ⟨h1, rfl⟩ := hP
  have hn : (A.2 : ZMod p) ≠ (short b).negY A.1 A.2 := by
    simp only [negY, zero_mul, sub_zero]
    intro h
    apply hne
    rw [two_mul]; nth_rw 1 [h]; ring
  have hs : (short b).slope (A.1 : ZMod p) A.1 A.2 A.2 = l := by
    rw [slope_of_Y_ne rfl hn]
    simp only [negY, zero_mul, sub_zero, mul_zero, add_zero, sub_neg_eq_add]
    rw [← two_mul, div_eq_iff hne, hl]; ring
  refine at_of_eq (Point.add_self_of_Y_ne hn) C ?_ ?_
  · rw [hs, hx]; simp only [addX]; ring
  · rw [hs, hy]; simp only [addY, negAddY, addX, negY, hx]; ring

/-- Residue of `-a`. -/
def neg (p a : Nat) : Nat := p - a % p

theorem neg_cast (a : Nat) : ((neg p a : Nat) : ZMod p) = -(a : ZMod p) := by
  have hp : 0 < p := (Fact.out : p.Prime).pos
  unfold neg
  rw [Nat.cast_sub (Nat.mod_lt _ hp).le, ZMod.natCast_self, ZMod.natCast_mod, zero_sub]

/-- Third point of the chord or tangent with slope `l`, reflected. -/
def third (p l : Nat) (A B : Nat × Nat) : Nat × Nat :=
  let x := (l * l + neg p A.1 + neg p B.1) % p
  (x, (l * (A.1 + neg p x) + neg p A.2) % p)

theorem third_x (l : Nat) (A B : Nat × Nat) :
    (((third p l A B).1 : Nat) : ZMod p) = (l : ZMod p) * l - A.1 - B.1 := by
  simp only [third, ZMod.natCast_mod, Nat.cast_add, Nat.cast_mul, neg_cast]; ring

theorem third_y (l : Nat) (A B : Nat × Nat) :
    (((third p l A B).2 : Nat) : ZMod p) = (l : ZMod p) * (A.1 - (third p l A B).1) - A.2 := by
  simp only [third, ZMod.natCast_mod, Nat.cast_add, Nat.cast_mul, neg_cast]; ring

/-- Checked addition with a given slope. -/
def addStep (p l : Nat) (A B : Nat × Nat) : Option (Nat × Nat) :=
  if (l * (A.1 + neg p B.1)) % p = (A.2 + neg p B.2) % p ∧ A.1 % p ≠ B.1 % p then some (third p l A B) else none

/-- Checked doubling with a given slope. -/
def dblStep (p l : Nat) (A : Nat × Nat) : Option (Nat × Nat) :=
  if (l * (2 * A.2)) % p = (3 * (A.1 * A.1)) % p ∧ 2 * A.2 % p ≠ 0 then some (third p l A A) else none

theorem addStep_sound {b : ZMod p} {P Q : (short b).Point} {A B C : Nat × Nat} {l : Nat} (hP : At P A)
    (hQ : At Q B) (h : addStep p l A B = some C) : At (P + Q) C := by
  unfold addStep at h
  split at h
  · rename_i hc
    cases h
    have e := (ZMod.natCast_eq_natCast_iff' _ _ p).2 hc.1
    simp only [Nat.cast_add, Nat.cast_mul, neg_cast] at e
    refine at_add (l : ZMod p) hP hQ (fun hh => hc.2 ((ZMod.natCast_eq_natCast_iff' _ _ p).1 hh)) ?_ (third_x _ _ _)
      (third_y _ _ _)
    rw [sub_eq_add_neg, sub_eq_add_neg, e]
  · cases h

theorem dblStep_sound {b : ZMod p} {P : (short b).Point} {A C : Nat × Nat} {l : Nat} (hP : At P A)
    (h : dblStep p l A = some C) : At (P + P) C := by
  unfold dblStep at h
  split at h
  · rename_i hc
    cases h
    have e := (ZMod.natCast_eq_natCast_iff' _ _ p).2 hc.1
    simp only [Nat.cast_mul, Nat.cast_ofNat] at e
    refine at_dbl (l : ZMod p) hP ?_ e (third_x _ _ _) (third_y _ _ _)
    intro hh
    apply hc.2
    have : ((2 * A.2 : Nat) : ZMod p) = ((0 : Nat) : ZMod p) := by
      rw [Nat.cast_mul, Nat.cast_zero]; exact_mod_cast hh
    rw [(ZMod.natCast_eq_natCast_iff' _ _ p).1 this, Nat.zero_mod]
  · cases h

/-- Double-and-add over a list of slopes. -/
def ladder (p : Nat) (g : Nat × Nat) : List (Nat × Option Nat) → Nat × Nat → Option (Nat × Nat)
  | [], A => some A
  | (l, none) :: cs, A => (dblStep p l A).bind (ladder p g cs)
  | (l, some m) :: cs, A => (dblStep p l A).bind fun B => (addStep p m B g).bind (ladder p g cs)

/-- Scalar computed by a ladder. -/
def scalar : List (Nat × Option Nat) → Nat → Nat
  | [], n => n
  | (_, none) :: cs, n => scalar cs (2 * n)
  | (_, some _) :: cs, n => scalar cs (2 * n + 1)

theorem ladder_sound {b : ZMod p} {g : (short b).Point} {gc : Nat × Nat} (hg : At g gc) :
    ∀ (cs : List (Nat × Option Nat)) (n : Nat) (A C : Nat × Nat), At (n • g) A →
      ladder p gc cs A = some C → At (scalar cs n • g) C
  | [], n, A, C, hA, h => by
    simp only [ladder, Option.some.injEq] at h
    subst h; exact hA
  | (l, none) :: cs, n, A, C, hA, h => by
    simp only [ladder, Option.bind_eq_some_iff] at h
    obtain ⟨B, h1, h2⟩ := h
    have := dblStep_sound hA h1
    rw [← two_nsmul, ← mul_nsmul'] at this
    exact ladder_sound hg cs (2 * n) B C this h2
  | (l, some m) :: cs, n, A, C, hA, h => by
    simp only [ladder, Option.bind_eq_some_iff] at h
    obtain ⟨B, h1, D, h2, h3⟩ := h
    have := dblStep_sound hA h1
    rw [← two_nsmul, ← mul_nsmul'] at this
    have := addStep_sound this hg h2
    rw [← succ_nsmul] at this
    exact ladder_sound hg cs (2 * n + 1) D C this h3

/-- Half of the field to which `y` belongs. -/
def low (y : ZMod p) : Bool := decide (2 * y.val < p)

theorem low_inj (h2 : p ≠ 2) {y y' : ZMod p} (h : y ^ 2 = y' ^ 2) (hl : low y = low y') : y = y' := by
  rcases sq_eq_sq_iff_eq_or_eq_neg.1 h with h | h
  · exact h
  · subst h
    by_cases h0 : y' = 0
    · rw [h0, neg_zero]
    · exfalso
      have : NeZero y' := ⟨h0⟩
      have hv := ZMod.val_neg_of_ne_zero y'
      have hlt := ZMod.val_lt y'
      have hodd := (Fact.out : p.Prime).eq_two_or_odd'.resolve_left h2
      obtain ⟨k, hk⟩ := hodd
      unfold low at hl
      rw [hv, decide_eq_decide] at hl
      omega

/-- A curve has at most `2p + 1` points. -/
theorem card_le (h2 : p ≠ 2) (b : ZMod p) :
    Finite (short b).Point ∧ Nat.card (short b).Point ≤ 2 * p + 1 := by
  let f : (short b).Point → Option (ZMod p × Bool) := fun P =>
    match P with
    | .zero => none
    | .some x y _ => some (x, low y)
  have hf : Function.Injective f := by
    intro P Q h
    match P, Q with
    | .zero, .zero => rfl
    | .zero, .some _ _ _ => simp [f] at h
    | .some _ _ _, .zero => simp [f] at h
    | .some x y hx, .some x' y' hx' =>
      simp only [f, Option.some.injEq, Prod.mk.injEq] at h
      obtain ⟨rfl, hl⟩ := h
      have e1 := ((short b).equation_iff x y).1 hx.1
      have e2 := ((short b).equation_iff x y').1 hx'.1
      simp only [zero_mul, add_zero] at e1 e2
      obtain rfl := low_inj h2 (e1.trans e2.symm) hl
      rfl
  refine ⟨Finite.of_injective f hf, ?_⟩
  refine (Nat.card_le_card_of_injective f hf).trans ?_
  rw [Nat.card_eq_fintype_card]
  simp [ZMod.card]; omega

/-- From a certificate: the generator has order `q`, and it generates the whole group. -/
theorem order_of_cert {q : Nat} (hq : q.Prime) (h2 : p ≠ 2) (hpq : 2 * p + 1 < 2 * q) (b : ZMod p) (gc : Nat × Nat)
    (cs : List (Nat × Option Nat)) (hon : (gc.2 : ZMod p) ^ 2 = (gc.1 : ZMod p) ^ 3 + b)
    (hy : (gc.2 : ZMod p) ≠ 0) (hs : scalar cs 1 = q - 1)
    (hl : ladder p gc cs gc = some (gc.1, neg p gc.2)) :
    ∃ g : (short b).Point, At g gc ∧ g ≠ 0 ∧ Nat.card (short b).Point = q ∧ ∀ P : (short b).Point, q • P = 0 := by
  have htwo : (2 : ZMod p) ≠ 0 := by
    intro h
    have : ((2 : Nat) : ZMod p) = 0 := by exact_mod_cast h
    rw [ZMod.natCast_eq_zero_iff] at this
    exact h2 ((Nat.prime_dvd_prime_iff_eq Fact.out Nat.prime_two).1 this)
  have hns : (short b).Nonsingular (gc.1 : ZMod p) gc.2 := by
    rw [nonsingular_iff]
    refine ⟨(equation_iff _ _).2 (by simp only [zero_mul, add_zero]; exact hon), Or.inr ?_⟩
    simp only [zero_mul, sub_zero]
    intro h
    have h3 : 2 * (gc.2 : ZMod p) = 0 := by rw [two_mul]; nth_rw 1 [h]; ring
    rcases mul_eq_zero.1 h3 with h4 | h4
    · exact htwo h4
    · exact hy h4
  let g : (short b).Point := .some (gc.1 : ZMod p) gc.2 hns
  have hg : At g gc := ⟨hns, rfl⟩
  have hg0 : g ≠ 0 := Point.some_ne_zero hns
  have hlad := ladder_sound hg cs 1 gc _ (by rw [one_nsmul]; exact hg) hl
  rw [hs] at hlad
  obtain ⟨h', he⟩ := hlad
  have hqg : q • g = 0 := by
    have : q = (q - 1) + 1 := by have := hq.pos; omega
    rw [this, succ_nsmul, he]
    refine Point.add_of_Y_eq rfl ?_
    simp only [negY, zero_mul, sub_zero]
    exact neg_cast _
  have hord : addOrderOf g = q := by
    rcases (Nat.dvd_prime hq).1 (addOrderOf_dvd_of_nsmul_eq_zero hqg) with h | h
    · exact absurd (AddMonoid.addOrderOf_eq_one_iff.1 h) hg0
    · exact h
  obtain ⟨hfin, hle⟩ := card_le h2 b
  have hdvd : q ∣ Nat.card (short b).Point := hord ▸ addOrderOf_dvd_natCard g
  have hcard : Nat.card (short b).Point = q := by
    obtain ⟨k, hk⟩ := hdvd
    have hpos : 0 < Nat.card (short b).Point := Nat.card_pos
    rw [hk] at hle hpos ⊢
    have : k = 1 := by
      rcases k with _ | _ | k
      · omega
      · rfl
      · exfalso
        have : q * 2 ≤ q * (k + 1 + 1) := Nat.mul_le_mul_left _ (by omega)
        omega
    rw [this, mul_one]
  exact ⟨g, hg, hg0, hcard, fun P => by rw [← hcard]; exact card_nsmul_eq_zero'⟩

/-- Affine coordinates. -/
def coords {b : ZMod p} : (short b).Point → Option (ZMod p × ZMod p)
  | .zero => none
  | .some x y _ => some (x, y)

theorem coords_none {b : ZMod p} (P : (short b).Point) : coords P = none ↔ P = 0 := by
  match P with
  | .zero => simp [coords]; rfl
  | .some x y h => simp [coords]

theorem coords_inj {b : ZMod p} (P Q : (short b).Point) (h : coords P = coords Q) : P = Q := by
  match P, Q with
  | .zero, .zero => rfl
  | .zero, .some _ _ _ => simp [coords] at h
  | .some _ _ _, .zero => simp [coords] at h
  | .some x y hx, .some x' y' hx' =>
    simp only [coords, Option.some.injEq, Prod.mk.injEq] at h
    obtain ⟨rfl, rfl⟩ := h
    rfl

/-- The curve is smooth: every solution of the equation is a point. -/
theorem coords_iff {b : ZMod p} (h2 : ((2 : Nat) : ZMod p) ≠ ((0 : Nat) : ZMod p))
    (h3 : ((3 : Nat) : ZMod p) ≠ ((0 : Nat) : ZMod p)) (hb : b ≠ 0)
    (x y : ZMod p) : (∃ P : (short b).Point, coords P = some (x, y)) ↔ y ^ 2 = x ^ 3 + b := by
  constructor
  · rintro ⟨P, hP⟩
    match P with
    | .zero => simp [coords] at hP
    | .some x' y' h =>
      simp only [coords, Option.some.injEq, Prod.mk.injEq] at hP
      obtain ⟨rfl, rfl⟩ := hP
      have := ((short b).equation_iff x' y').1 h.1
      simpa only [zero_mul, add_zero] using this
  · intro h
    have hns : (short b).Nonsingular x y := by
      rw [nonsingular_iff]
      refine ⟨(equation_iff _ _).2 (by simp only [zero_mul, add_zero]; exact h), ?_⟩
      simp only [zero_mul, sub_zero, mul_zero, add_zero]
      by_contra hc
      rw [not_or, not_not, not_not] at hc
      obtain ⟨hx, hy⟩ := hc
      have hy0 : y = 0 := by
        have e : ((2 : Nat) : ZMod p) * y = 0 := by
          rw [Nat.cast_ofNat, two_mul]; nth_rw 1 [hy]; ring
        rcases mul_eq_zero.1 e with e | e
        · exact absurd (by rw [e, Nat.cast_zero]) h2
        · exact e
      have hx0 : x = 0 := by
        have e : ((3 : Nat) : ZMod p) * x ^ 2 = 0 := by rw [Nat.cast_ofNat]; exact hx.symm
        rcases mul_eq_zero.1 e with e | e
        · exact absurd (by rw [e, Nat.cast_zero]) h3
        · exact pow_eq_zero_iff (two_ne_zero) |>.1 e
      subst hx0; subst hy0
      apply hb
      simpa using h.symm
    exact ⟨.some x y hns, rfl⟩

end

end PF.Grumpkin
