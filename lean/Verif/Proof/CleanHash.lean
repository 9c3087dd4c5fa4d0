import Verif.Proof.AggregatorCircuitComplete

/-!
# A compression hash without collisions on small trees (for examples)

Many theorems conclude "… or a collision is exhibited". Over a finite field every hash has collisions, so
examples with arbitrary hashes could satisfy such a theorem through its second half only. The hash of this
file has no collision among the pairs met in trees with at most three non-default leaves, at positions 0, 1
and 2, filled in order (or moved from position 0 to position 1), so that examples can exclude that half.

A digest `8 ℓ + k` means: level `ℓ`, kind `k`, and kind 0 is the empty subtree.
-/
set_option linter.unusedSectionVars false

namespace PF.Clean
open PF PF.Spec PF.MT
variable {p : Nat} {L : Type}

def bump (k : Nat) : Nat := if k = 2 then 4 else if k = 3 then 1 else 0

def h2 (p : Nat) (x y : ZMod p) : ZMod p := x + ((8 + bump (y.val % 8) : Nat) : ZMod p)

def dig (p ℓ k : Nat) : ZMod p := ((8 * ℓ + k : Nat) : ZMod p)

theorem dig_val (hp : 1000 < p) {ℓ k : Nat} (hℓ : ℓ < 100) (hk : k < 8) : (dig p ℓ k).val = 8 * ℓ + k := by
  unfold dig
  rw [ZMod.val_natCast, Nat.mod_eq_of_lt (by omega)]

theorem dig_inj (hp : 1000 < p) {ℓ k ℓ' k' : Nat} (hℓ : ℓ < 100) (hk : k < 8) (hℓ' : ℓ' < 100) (hk' : k' < 8)
    (h : dig p ℓ k = dig p ℓ' k') : ℓ = ℓ' ∧ k = k' := by
  have := congrArg ZMod.val h
  rw [dig_val hp hℓ hk, dig_val hp hℓ' hk'] at this
  omega

theorem h2_dig (hp : 1000 < p) {ℓ k k' : Nat} (hℓ : ℓ < 100) (hk' : k' < 8) :
    h2 p (dig p ℓ k) (dig p ℓ k') = dig p (ℓ + 1) (k + bump k') := by
  unfold h2
  rw [dig_val hp hℓ hk', show (8 * ℓ + k') % 8 = k' by omega]
  unfold dig
  rw [← Nat.cast_add]
  congr 1
  omega

/-- Kinds of the three first leaves. -/
def profiles : List (Nat × Nat × Nat) := [(0, 0, 0), (1, 0, 0), (0, 2, 0), (1, 2, 0), (1, 2, 3)]

/-- Leaf digests of a tree whose first three leaves have the kinds of a profile, and which is empty after. -/
def Good (p : Nat) (f : Nat → ZMod p) : Prop :=
  ∃ t ∈ profiles, f 0 = dig p 0 t.1 ∧ f 1 = dig p 0 t.2.1 ∧ f 2 = dig p 0 t.2.2 ∧ ∀ j, 3 ≤ j → f j = dig p 0 0

def table : Nat → List (Nat × Nat)
  | 0 => [(0, 0), (1, 0), (1, 2), (3, 0), (0, 2)]
  | 1 => [(0, 0), (1, 0), (4, 0), (5, 0), (5, 3)]
  | _ => [(0, 0), (1, 0), (4, 0), (5, 0), (6, 0)]

def PairOk (p : Nat) (x : ZMod p × ZMod p) : Prop :=
  ∃ ℓ, ℓ < 50 ∧ ∃ k ∈ table ℓ, x = (dig p ℓ k.1, dig p ℓ k.2)

theorem table_facts (ℓ : Nat) : (∀ k ∈ table ℓ, k.1 < 8 ∧ k.2 < 8 ∧ k.1 + bump k.2 < 8) ∧
    ∀ k ∈ table ℓ, ∀ k' ∈ table ℓ, k.1 + bump k.2 = k'.1 + bump k'.2 → k = k' := by
  match ℓ with
  | 0 => decide
  | 1 => decide
  | ℓ + 2 => show (∀ k ∈ table 2, _) ∧ ∀ k ∈ table 2, ∀ k' ∈ table 2, _; decide

/-- No two different pairs of the table have the same hash. -/
theorem pairOk_inj (hp : 1000 < p) {x y : ZMod p × ZMod p} (hx : PairOk p x) (hy : PairOk p y)
    (h : h2 p x.1 x.2 = h2 p y.1 y.2) : x = y := by
  obtain ⟨ℓ, hℓ, k, hk, rfl⟩ := hx
  obtain ⟨ℓ', hℓ', k', hk', rfl⟩ := hy
  obtain ⟨a1, a2, a3⟩ := (table_facts ℓ).1 k hk
  obtain ⟨b1, b2, b3⟩ := (table_facts ℓ').1 k' hk'
  simp only at h
  rw [h2_dig hp (by omega) a2, h2_dig hp (by omega) b2] at h
  obtain ⟨e1, e2⟩ := dig_inj hp (by omega) a3 (by omega) b3 h
  have : ℓ = ℓ' := by omega
  subst this
  rw [(table_facts ℓ).2 k hk k' hk' e2]

theorem node_empty (hp : 1000 < p) {f : Nat → ZMod p} (hf : ∀ j, 3 ≤ j → f j = dig p 0 0) :
    ∀ ℓ j, ℓ < 50 → 3 ≤ j * 2 ^ ℓ → nodeAt (h2 p) f ℓ j = dig p ℓ 0
  | 0, j, _, h => hf j (by simpa using h)
  | ℓ + 1, j, hℓ, h => by
    have h' : 3 ≤ 2 * j * 2 ^ ℓ := by rw [pow_succ] at h; linarith
    rw [nodeAt, node_empty hp hf ℓ (2 * j) (by omega) h', node_empty hp hf ℓ (2 * j + 1) (by omega)
      (le_trans h' (Nat.mul_le_mul_right _ (by omega))), h2_dig hp (by omega) (by omega)]
    rfl

/-- Kinds along the left edge of the tree. -/
theorem node_left (hp : 1000 < p) {f : Nat → ZMod p} {t : Nat × Nat × Nat} (ht : t ∈ profiles)
    (h0 : f 0 = dig p 0 t.1) (h1 : f 1 = dig p 0 t.2.1) (h2' : f 2 = dig p 0 t.2.2)
    (hf : ∀ j, 3 ≤ j → f j = dig p 0 0) :
    nodeAt (h2 p) f 1 0 = dig p 1 (t.1 + bump t.2.1) ∧ nodeAt (h2 p) f 1 1 = dig p 1 t.2.2 ∧
    ∀ ℓ, ℓ < 40 → nodeAt (h2 p) f (ℓ + 2) 0 = dig p (ℓ + 2) (t.1 + bump t.2.1 + bump t.2.2) := by
  have b : t.2.1 < 8 ∧ t.2.2 < 8 := by
    revert ht; revert t; intro t _ _ _ ht
    simp only [profiles, List.mem_cons, List.not_mem_nil, or_false] at ht
    rcases ht with rfl | rfl | rfl | rfl | rfl <;> decide
  have e1 : nodeAt (h2 p) f 1 0 = dig p 1 (t.1 + bump t.2.1) := by
    show h2 p (f 0) (f 1) = _
    rw [h0, h1, h2_dig hp (by omega) b.1]
  have e2 : nodeAt (h2 p) f 1 1 = dig p 1 t.2.2 := by
    show h2 p (f 2) (f 3) = _
    rw [h2', hf 3 (by omega), h2_dig hp (by omega) (by omega)]
    rfl
  refine ⟨e1, e2, fun ℓ hℓ => ?_⟩
  induction ℓ with
  | zero =>
    show h2 p (nodeAt (h2 p) f 1 0) (nodeAt (h2 p) f 1 1) = _
    rw [e1, e2, h2_dig hp (by omega) b.2]
  | succ ℓ ih =>
    show h2 p (nodeAt (h2 p) f (ℓ + 2) 0) (nodeAt (h2 p) f (ℓ + 2) 1) = _
    rw [ih (by omega), node_empty hp hf (ℓ + 2) 1 (by omega)
      (by rw [one_mul, pow_add]; have := Nat.one_le_two_pow (n := ℓ); omega), h2_dig hp (by omega) (by omega)]
    rfl

theorem mem_pathFrom {D : Type} (g : D → D → D) (f : Nat → D) (n ℓ j : Nat) (x : D × D)
    (h : x ∈ pathFrom g f ℓ n j) : ∃ k, k < n ∧
      x = (nodeAt g f (ℓ + k) (2 * (j / 2 ^ (k + 1))), nodeAt g f (ℓ + k) (2 * (j / 2 ^ (k + 1)) + 1)) := by
  induction n generalizing ℓ j with
  | zero => simp [pathFrom] at h
  | succ n ih =>
    simp only [pathFrom, List.mem_cons] at h
    rcases h with rfl | h
    · exact ⟨0, by omega, by simp⟩
    · obtain ⟨k, hk, rfl⟩ := ih _ _ h
      refine ⟨k + 1, by omega, ?_⟩
      have : j / 2 / 2 ^ (k + 1) = j / 2 ^ (k + 1 + 1) := by
        rw [Nat.div_div_eq_div_mul]; congr 1; ring
      rw [this, show ℓ + 1 + k = ℓ + (k + 1) by omega]

/-- All pairs on the paths of positions 0, 1 and 2 are in the table. -/
theorem path_ok (hp : 1000 < p) {f : Nat → ZMod p} (hf : Good p f) {i n : Nat} (hi : i < 3) (hn : n ≤ 40)
    {x : ZMod p × ZMod p} (hx : x ∈ pathFrom (h2 p) f 0 n i) : PairOk p x := by
  obtain ⟨t, ht, h0, h1, h2', hrest⟩ := hf
  obtain ⟨k, hk, rfl⟩ := mem_pathFrom _ _ _ _ _ _ hx
  obtain ⟨e1, e2, e3⟩ := node_left hp ht h0 h1 h2' hrest
  have hz : ∀ k, i / 2 ^ (k + 2) = 0 := fun k => Nat.div_eq_of_lt (by
    have := Nat.one_le_two_pow (n := k); rw [pow_add]; omega)
  rw [Nat.zero_add]
  match k with
  | 0 =>
    refine ⟨0, by omega, ?_⟩
    have : i / 2 ^ (0 + 1) = 0 ∨ i / 2 ^ (0 + 1) = 1 := by
      rw [show 2 ^ (0 + 1) = 2 from rfl]; omega
    rcases this with e | e <;> rw [e]
    · refine ⟨(t.1, t.2.1), ?_, ?_⟩
      · simp only [profiles, List.mem_cons, List.not_mem_nil, or_false] at ht
        rcases ht with rfl | rfl | rfl | rfl | rfl <;> decide
      · show (f 0, f 1) = _; rw [h0, h1]
    · refine ⟨(t.2.2, 0), ?_, ?_⟩
      · simp only [profiles, List.mem_cons, List.not_mem_nil, or_false] at ht
        rcases ht with rfl | rfl | rfl | rfl | rfl <;> decide
      · show (f 2, f 3) = _; rw [h2', hrest 3 (by omega)]
  | 1 =>
    refine ⟨1, by omega, (t.1 + bump t.2.1, t.2.2), ?_, ?_⟩
    · simp only [profiles, List.mem_cons, List.not_mem_nil, or_false] at ht
      rcases ht with rfl | rfl | rfl | rfl | rfl <;> decide
    · rw [hz 0]
      show (nodeAt (h2 p) f 1 0, nodeAt (h2 p) f 1 1) = _
      rw [e1, e2]
  | k + 2 =>
    refine ⟨k + 2, by omega, (t.1 + bump t.2.1 + bump t.2.2, 0), ?_, ?_⟩
    · show _ ∈ table 2
      simp only [profiles, List.mem_cons, List.not_mem_nil, or_false] at ht
      rcases ht with rfl | rfl | rfl | rfl | rfl <;> decide
    · rw [hz (k + 1)]
      show (nodeAt (h2 p) f (k + 2) 0, nodeAt (h2 p) f (k + 2) 1) = _
      rw [e3 k (by omega), node_empty hp hrest (k + 2) 1 (by omega)
        (by rw [one_mul, pow_add]; have := Nat.one_le_two_pow (n := k); omega)]

theorem climbPairs_true {D : Type} (g : D → D → D) (f : Nat → D) (n ℓ j : Nat) :
    climbPairs g (sibsFrom g f ℓ n j) (nodeAt g f ℓ j) j = pathFrom g f ℓ n j := by
  induction n generalizing ℓ j with
  | zero => rfl
  | succ n ih =>
    simp only [sibsFrom, climbPairs, pathFrom]
    by_cases h : j % 2 = 0
    · have h' : 2 * (j / 2) = j := by omega
      have hs : sibPos j = j + 1 := by simp [sibPos, h]
      simp only [h, if_true, h', hs]
      have : g (nodeAt g f ℓ j) (nodeAt g f ℓ (j + 1)) = nodeAt g f (ℓ + 1) (j / 2) := by
        rw [nodeAt, h']
      rw [this, ih]
    · have h' : 2 * (j / 2) = j - 1 := by omega
      have h'' : 2 * (j / 2) + 1 = j := by omega
      have hs : sibPos j = j - 1 := by simp [sibPos, h]
      simp only [h, if_false, h', hs]
      rw [show j - 1 + 1 = j by omega]
      have : g (nodeAt g f ℓ (j - 1)) (nodeAt g f ℓ j) = nodeAt g f (ℓ + 1) (j / 2) := by
        rw [nodeAt, h'', h']
      rw [this, ih]

/-- Honest updates at positions 0, 1 and 2 of trees that stay good exhibit no collision, provided the leaf
hash separates the leaves. -/
theorem no_collision (hp : 1000 < p) (hs : Hashes p) (hh : hs.h2 = h2 p) (enc : L → List (ZMod p))
    {height : Nat} (hheight : height ≤ 40) (us : List (Upd L (ZMod p))) (c : Nat → L) (leaves : List L)
    (hsep : ∀ a ∈ leaves, ∀ b ∈ leaves, hs.crh (enc a) = hs.crh (enc b) → enc a = enc b)
    (hl : Legal c us) (ho : Honest (fun l => hs.crh (enc l)) hs.h2 height c us)
    (hleaf : ∀ u ∈ us, u.old ∈ leaves) (hidx : ∀ u ∈ us, u.idx < 3)
    (hgood : ∀ k, k < us.length → Good p (fun j => hs.crh (enc (applied c (us.take k) j)))) :
    ¬ Collision hs enc height c us := by
  have key : (∀ x ∈ hashedPairs (fun l => hs.crh (enc l)) hs.h2 height c us, PairOk p x) ∧
      ∀ a ∈ hashedLeaves c us, a ∈ leaves := by
    induction us generalizing c with
    | nil => exact ⟨by simp [hashedPairs], by simp [hashedLeaves]⟩
    | cons u us ih =>
      have hg0 : Good p (fun j => hs.crh (enc (c j))) := by
        have := hgood 0 (by simp); simpa [applied] using this
      obtain ⟨l1, l2⟩ := (legal_cons _ _ _).1 hl
      obtain ⟨i1, i2⟩ := ih (write c u.idx u.new) l2 ho.2 (fun v hv => hleaf v (by simp [hv]))
        (fun v hv => hidx v (by simp [hv])) (fun k hk => by
          have := hgood (k + 1) (by simpa using hk)
          rwa [List.take_succ_cons, applied_cons] at this)
      have hpath : ∀ x ∈ truePath (fun l => hs.crh (enc l)) hs.h2 height c u.idx, PairOk p x := by
        intro x hx
        unfold truePath at hx
        rw [hh] at hx
        exact path_ok hp hg0 (hidx u (by simp)) (by omega) hx
      constructor
      · intro x hx
        simp only [hashedPairs, List.mem_append] at hx
        rcases hx with (hx | hx) | hx
        · rw [ho.1, trueSibs_eq, ← l1] at hx
          have := climbPairs_true hs.h2 (fun k => hs.crh (enc (c k))) (height - 1) 0 u.idx
          rw [show nodeAt hs.h2 (fun k => hs.crh (enc (c k))) 0 u.idx = hs.crh (enc (c u.idx)) from rfl] at this
          rw [this] at hx
          exact hpath x hx
        · exact hpath x hx
        · exact i1 x hx
      · intro a ha
        simp only [hashedLeaves, List.mem_cons] at ha
        rcases ha with rfl | rfl | ha
        · exact hleaf u (by simp)
        · rw [l1]; exact hleaf u (by simp)
        · exact i2 a ha
  rintro (⟨a, ha, b, hb, hne, he⟩ | ⟨x, hx, y, hy, hne, he⟩)
  · exact hne (hsep a (key.2 a ha) b (key.2 b hb) he)
  · rw [hh] at he
    exact hne (pairOk_inj hp (key.1 x hx) (key.1 y hy) he)

end PF.Clean
