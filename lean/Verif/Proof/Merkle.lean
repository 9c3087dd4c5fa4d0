import Verif.Spec.Merkle
import Mathlib.Tactic.Ring
import Mathlib.Data.Nat.Log
import Mathlib.Tactic.Linarith
import Mathlib.Tactic.Positivity
import Mathlib.Tactic.Set

/-! Lemmas about the Merkle specification. -/

namespace PF.Spec
variable {L D : Type}

theorem nodeAt_congr (h2 : D → D → D) (f g : Nat → D) (ℓ j : Nat)
    (h : ∀ i, j * 2 ^ ℓ ≤ i → i < (j + 1) * 2 ^ ℓ → f i = g i) :
    nodeAt h2 f ℓ j = nodeAt h2 g ℓ j := by
  induction ℓ generalizing j with
  | zero => simp only [nodeAt]; exact h j (by simp) (by simp)
  | succ ℓ ih =>
    simp only [nodeAt]
    have e : 2 ^ (ℓ + 1) = 2 ^ ℓ * 2 := pow_succ 2 ℓ
    congr 1
    · apply ih
      intro i h1 h2'
      apply h i
      · rw [e]; calc j * (2 ^ ℓ * 2) = 2 * j * 2 ^ ℓ := by ring
          _ ≤ i := h1
      · rw [e]; calc i < (2 * j + 1) * 2 ^ ℓ := h2'
          _ ≤ (2 * j + 2) * 2 ^ ℓ := Nat.mul_le_mul_right _ (by omega)
          _ = (j + 1) * (2 ^ ℓ * 2) := by ring
    · apply ih
      intro i h1 h2'
      apply h i
      · rw [e]; calc j * (2 ^ ℓ * 2) = 2 * j * 2 ^ ℓ := by ring
          _ ≤ (2 * j + 1) * 2 ^ ℓ := Nat.mul_le_mul_right _ (by omega)
          _ ≤ i := h1
      · rw [e]; calc i < (2 * j + 1 + 1) * 2 ^ ℓ := h2'
          _ = (j + 1) * (2 ^ ℓ * 2) := by ring

/-- Writing at `i` leaves every node that is not an ancestor of `i` unchanged. -/
theorem nodeAt_write_other (h2 : D → D → D) (lh : L → D) (c : Nat → L) (i : Nat) (v : L) (ℓ j : Nat)
    (h : j ≠ i / 2 ^ ℓ) :
    nodeAt h2 (fun k => lh (write c i v k)) ℓ j = nodeAt h2 (fun k => lh (c k)) ℓ j := by
  apply nodeAt_congr
  intro k h1 h2'
  have : k / 2 ^ ℓ = j := by
    rw [Nat.div_eq_iff (by positivity)]
    constructor
    · exact h1
    · rw [Nat.add_mul, Nat.one_mul] at h2'; omega
  have : k ≠ i := by rintro rfl; exact h this.symm
  simp [write, this]

theorem nodeAt_const (h2 : D → D → D) (x : D) (ℓ j j' : Nat) :
    nodeAt h2 (fun _ => x) ℓ j = nodeAt h2 (fun _ => x) ℓ j' := by
  induction ℓ generalizing j j' with
  | zero => rfl
  | succ ℓ ih => simp only [nodeAt]; rw [ih (2 * j) 0, ih (2 * j + 1) 0, ih (2 * j') 0, ih (2 * j' + 1) 0]

theorem pathFrom_length (h2 : D → D → D) (f : Nat → D) (ℓ n j : Nat) :
    (pathFrom h2 f ℓ n j).length = n := by
  induction n generalizing ℓ j with
  | zero => rfl
  | succ n ih => simp [pathFrom, ih]

theorem nodeAt_succ_half (h2 : D → D → D) (f : Nat → D) (ℓ j : Nat) :
    nodeAt h2 f (ℓ + 1) (j / 2) =
      h2 (nodeAt h2 f ℓ (2 * (j / 2))) (nodeAt h2 f ℓ (2 * (j / 2) + 1)) := rfl

theorem climbPairs_length (h2 : D → D → D) (sibs : List D) (h : D) (i : Nat) :
    (climbPairs h2 sibs h i).length = sibs.length := by
  induction sibs generalizing h i with
  | nil => rfl
  | cons s t ih => simp [climbPairs, ih]

theorem climb_cons (h2 : D → D → D) (s : D) (rest : List D) (h : D) (i : Nat) :
    climb h2 (s :: rest) h i =
      climb h2 rest (if i % 2 = 0 then h2 h s else h2 s h) (i / 2) := rfl

theorem climbPairs_cons (h2 : D → D → D) (s : D) (rest : List D) (h : D) (i : Nat) :
    climbPairs h2 (s :: rest) h i =
      (if i % 2 = 0 then (h, s) else (s, h)) ::
        climbPairs h2 rest (if i % 2 = 0 then h2 h s else h2 s h) (i / 2) := by
  simp only [climbPairs]
  split <;> rfl

/-- A path collision in the tails is one in the whole. -/
theorem PathCollision.cons {h2 : D → D → D} {x y : D × D} {p q : List (D × D)}
    (h : PathCollision h2 p q) : PathCollision h2 (x :: p) (y :: q) := by
  obtain ⟨ℓ, a, b, h1, h2', h3⟩ := h
  exact ⟨ℓ + 1, a, b, by simpa using h1, by simpa using h2', h3⟩

theorem PathCollision.head {h2 : D → D → D} {x y : D × D} {p q : List (D × D)}
    (h : x ≠ y) (e : h2 x.1 x.2 = h2 y.1 y.2) : PathCollision h2 (x :: p) (y :: q) :=
  ⟨0, x, y, rfl, rfl, h, e⟩

/-- Two trees with the same digest at an ancestor of node `j` have the same digest at `j`, or the two paths
exhibit a collision. -/
theorem nodeAt_binds (h2 : D → D → D) (f g : Nat → D) (n ℓ j : Nat)
    (e : nodeAt h2 f (ℓ + n) (j / 2 ^ n) = nodeAt h2 g (ℓ + n) (j / 2 ^ n)) :
    nodeAt h2 f ℓ j = nodeAt h2 g ℓ j ∨ PathCollision h2 (pathFrom h2 f ℓ n j) (pathFrom h2 g ℓ n j) := by
  induction n generalizing ℓ j with
  | zero => left; simpa using e
  | succ n ih =>
    have e' : nodeAt h2 f (ℓ + 1 + n) (j / 2 / 2 ^ n) = nodeAt h2 g (ℓ + 1 + n) (j / 2 / 2 ^ n) := by
      rw [Nat.div_div_eq_div_mul, ← pow_succ', Nat.add_right_comm]; exact e
    rcases ih (ℓ + 1) (j / 2) e' with h | h
    · rw [nodeAt_succ_half, nodeAt_succ_half] at h
      by_cases hp : ((nodeAt h2 f ℓ (2 * (j / 2)), nodeAt h2 f ℓ (2 * (j / 2) + 1)) : D × D) =
          (nodeAt h2 g ℓ (2 * (j / 2)), nodeAt h2 g ℓ (2 * (j / 2) + 1))
      · left
        simp only [Prod.mk.injEq] at hp
        rcases Nat.mod_two_eq_zero_or_one j with hj | hj
        · rw [show j = 2 * (j / 2) by omega]; exact hp.1
        · rw [show j = 2 * (j / 2) + 1 by omega]; exact hp.2
      · exact Or.inr (PathCollision.head hp h)
    · exact Or.inr h.cons

/-- Equal roots mean equal contents, unless the two trees exhibit a collision. -/
theorem merkleRoot_binds (lh : L → D) (h2 : D → D → D) (height : Nat) (c d : Nat → L)
    (e : merkleRoot lh h2 height c = merkleRoot lh h2 height d) :
    (∀ j, j < 2 ^ (height - 1) → c j = d j) ∨ TreeClash lh h2 height c d := by
  by_cases hc : TreeClash lh h2 height c d
  · exact Or.inr hc
  · left
    intro j hj
    by_contra hne
    apply hc
    refine ⟨j, hj, ?_⟩
    have hz : j / 2 ^ (height - 1) = 0 := Nat.div_eq_of_lt hj
    rcases nodeAt_binds h2 (fun i => lh (c i)) (fun i => lh (d i)) (height - 1) 0 j
      (by rw [Nat.zero_add, hz]; exact e) with h | h
    · exact Or.inl ⟨hne, h⟩
    · exact Or.inr h

/-- Climbing along siblings to the root of a tree: the starting digest is the true node and the
siblings are the true siblings, or a collision shows on the path. -/
theorem climb_sound (h2 : D → D → D) (f : Nat → D) (sibs : List D) (h : D) (ℓ j : Nat)
    (e : climb h2 sibs h j = nodeAt h2 f (ℓ + sibs.length) (j / 2 ^ sibs.length)) :
    (h = nodeAt h2 f ℓ j ∧ climbPairs h2 sibs h j = pathFrom h2 f ℓ sibs.length j) ∨
      PathCollision h2 (climbPairs h2 sibs h j) (pathFrom h2 f ℓ sibs.length j) := by
  induction sibs generalizing h ℓ j with
  | nil => left; simpa [climb, pathFrom, climbPairs] using e
  | cons s rest ih =>
    rw [climb_cons] at e
    rw [climbPairs_cons]
    simp only [List.length_cons, pathFrom]
    have e' : climb h2 rest (if j % 2 = 0 then h2 h s else h2 s h) (j / 2) =
        nodeAt h2 f (ℓ + 1 + rest.length) (j / 2 / 2 ^ rest.length) := by
      rw [e, List.length_cons, Nat.div_div_eq_div_mul, ← pow_succ']
      congr 1; omega
    rcases ih _ _ _ e' with ⟨h1, h3⟩ | h3
    · rw [nodeAt_succ_half] at h1
      set a := nodeAt h2 f ℓ (2 * (j / 2)) with ha
      set b := nodeAt h2 f ℓ (2 * (j / 2) + 1) with hb
      by_cases hp : (if j % 2 = 0 then (h, s) else (s, h)) = (a, b)
      · left
        refine ⟨?_, by rw [hp, h3]⟩
        by_cases hj : j % 2 = 0
        · simp only [hj, if_true, Prod.mk.injEq] at hp
          rw [hp.1, ha]; congr 1; omega
        · simp only [hj, if_false, Prod.mk.injEq] at hp
          rw [hp.2, hb]; congr 1; omega
      · right
        apply PathCollision.head hp
        rw [← h1]; split <;> rfl
    · exact Or.inr h3.cons

theorem climb_mod (h2 : D → D → D) (sibs : List D) (h : D) (j : Nat) :
    climb h2 sibs h (j % 2 ^ sibs.length) = climb h2 sibs h j := by
  induction sibs generalizing h j with
  | nil => rfl
  | cons s rest ih =>
    simp only [climb_cons, List.length_cons]
    have h1 : (j % 2 ^ (rest.length + 1)) % 2 = j % 2 := by
      rw [pow_succ', Nat.mod_mul]; omega
    have h2' : (j % 2 ^ (rest.length + 1)) / 2 = j / 2 % 2 ^ rest.length := by
      rw [pow_succ', Nat.mod_mul]; omega
    rw [h2', ih, h1]

end PF.Spec
