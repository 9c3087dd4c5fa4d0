import Verif.Model.Circuit
import Mathlib.Algebra.Field.ZMod
import Mathlib.Tactic.Ring
import Mathlib.Tactic.Linarith
import Mathlib.Tactic.Positivity
import Mathlib.Tactic.NormNum

/-! Lemmas about bits and comparisons. -/

namespace PF.Circuit

theorem natBits_length (n x : Nat) : (natBits n x).length = n := by
  induction n generalizing x with
  | zero => rfl
  | succ n ih => simp [natBits, ih]

theorem bitsVal_natBits (n x : Nat) : bitsVal (natBits n x) = x % 2 ^ n := by
  induction n generalizing x with
  | zero => simp [natBits, bitsVal, Nat.mod_one]
  | succ n ih =>
    simp only [natBits, bitsVal, ih]
    rw [pow_succ', Nat.mod_mul]
    congr 1
    rcases Nat.mod_two_eq_zero_or_one x with h | h <;> simp [h]

theorem bitsVal_lt (l : List Bool) : bitsVal l < 2 ^ l.length := by
  induction l with
  | nil => simp [bitsVal]
  | cons b t ih =>
    simp only [bitsVal, List.length_cons, pow_succ]
    have := Bool.toNat_le b
    omega

theorem natBits_bitsVal (l : List Bool) : natBits l.length (bitsVal l) = l := by
  induction l with
  | nil => rfl
  | cons b t ih =>
    simp only [List.length_cons, natBits, bitsVal]
    have h1 : (b.toNat + 2 * bitsVal t) / 2 = bitsVal t := by
      cases b
      · simp
      · simp; omega
    have h2 : (b.toNat + 2 * bitsVal t) % 2 = b.toNat := by cases b <;> simp
    rw [h1, ih, h2]
    cases b <;> simp

variable {p : Nat}

theorem lt_two_pow_modBits (hp : 0 < p) (x : ZMod p) : x.val < 2 ^ modBits p := by
  have : NeZero p := ⟨by omega⟩
  exact lt_trans (ZMod.val_lt x) (Nat.lt_size_self p)

theorem toBitsLe_length (x : ZMod p) : (toBitsLe x).length = modBits p := natBits_length _ _

theorem bitsVal_toBitsLe (hp : 0 < p) (x : ZMod p) : bitsVal (toBitsLe x) = x.val := by
  rw [toBitsLe, bitsVal_natBits, Nat.mod_eq_of_lt (lt_two_pow_modBits hp x)]

/-- Correctness of the comparison bit: for operands in the lower half of an odd prime field it is
"strictly smaller". -/
theorem cmpBit_eq (hp2 : 2 < p) (hodd : p % 2 = 1) (l r : ZMod p) (h : cmpRange l r) :
    cmpBit l r = decide (l.val < r.val) := by
  have : NeZero p := ⟨by omega⟩
  obtain ⟨h1, h2⟩ := h
  unfold cmpBit
  have hl : ((l.val : Nat) : ZMod p) = l := ZMod.natCast_zmod_val l
  have hr : ((r.val : Nat) : ZMod p) = r := ZMod.natCast_zmod_val r
  have e : (2 * (l - r)).val = (2 * l.val + 2 * (p - r.val)) % p := by
    have hrp : r.val < p := ZMod.val_lt r
    rw [← ZMod.val_natCast]
    congr 1
    push_cast [Nat.cast_sub hrp.le]
    rw [hl, hr]; simp; ring
  rw [e]
  congr 1
  have hrp : r.val < p := ZMod.val_lt r
  generalize hA : l.val = A at *
  generalize hB : r.val = B at *
  by_cases hlt : A < B
  · have : (2 * A + 2 * (p - B)) % p = 2 * A + 2 * (p - B) - p := by
      rw [Nat.mod_eq_sub_mod (by omega), Nat.mod_eq_of_lt (by omega)]
    rw [this]
    simp only [hlt, eq_iff_iff, iff_true]; omega
  · have : (2 * A + 2 * (p - B)) % p = 2 * (A - B) := by
      have : 2 * A + 2 * (p - B) = 2 * (A - B) + p + p := by omega
      rw [this, Nat.add_mod_right, Nat.add_mod_right, Nat.mod_eq_of_lt (by omega)]
    rw [this]
    simp only [hlt, eq_iff_iff, iff_false]; omega

theorem prime_odd_of_gt [hp : Fact p.Prime] (h : 2 < p) : p % 2 = 1 := by
  rcases hp.out.eq_two_or_odd with h2 | h2
  · omega
  · exact h2

theorem isLess_iff [hp : Fact p.Prime] (h : 2 < p) (l r : ZMod p) (out : Bool) :
    isLess l r out ↔ l.val ≤ (p - 1) / 2 ∧ r.val ≤ (p - 1) / 2 ∧ out = decide (l.val < r.val) := by
  unfold isLess
  constructor
  · rintro ⟨h1, h2⟩
    rw [cmpBit_eq h (prime_odd_of_gt h) l r h1] at h2
    exact ⟨h1.1, h1.2, h2⟩
  · rintro ⟨h1, h2, h3⟩
    refine ⟨⟨h1, h2⟩, ?_⟩
    rw [cmpBit_eq h (prime_odd_of_gt h) l r ⟨h1, h2⟩]; exact h3

/-- `enforce_cmp(Less, true)` means `≤` on small values; the only extra effect is the range check
`r + 1 ≤ (p-1)/2`. -/
theorem enforceLe_iff [hp : Fact p.Prime] (h : 2 < p) (l r : ZMod p) :
    enforceLe l r ↔ l.val ≤ r.val ∧ r.val + 1 ≤ (p - 1) / 2 := by
  have : NeZero p := ⟨by omega⟩
  have : Fact (1 < p) := ⟨by omega⟩
  unfold enforceLe
  have hval : r.val + 1 < p → (r + 1).val = r.val + 1 := by
    intro h'; rw [ZMod.val_add_of_lt]
    · rw [ZMod.val_one]
    · rw [ZMod.val_one]; exact h'
  have hwrap : ¬ r.val + 1 < p → (r + 1).val = 0 := by
    intro h'
    have hr := ZMod.val_lt r
    rw [ZMod.val_add, ZMod.val_one]
    have : r.val + 1 = p := by omega
    rw [this, Nat.mod_self]
  constructor
  · rintro ⟨h1, h2⟩
    rw [cmpBit_eq h (prime_odd_of_gt h) _ _ h1] at h2
    simp only [decide_eq_true_eq] at h2
    by_cases hw : r.val + 1 < p
    · rw [hval hw] at h2
      have := h1.2
      rw [hval hw] at this
      omega
    · rw [hwrap hw] at h2; omega
  · rintro ⟨h1, h2⟩
    have hw : r.val + 1 < p := by omega
    have hr : cmpRange l (r + 1) := ⟨by omega, by rw [hval hw]; exact h2⟩
    refine ⟨hr, ?_⟩
    rw [cmpBit_eq h (prime_odd_of_gt h) _ _ hr, hval hw]
    simp; omega

end PF.Circuit
