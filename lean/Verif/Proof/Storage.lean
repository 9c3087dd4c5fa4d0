import Verif.Spec.Storage
import Verif.Proof.SparseMTBuild

/-!
# The stored nodes of a sparse tree
-/
set_option linter.unusedSectionVars false

namespace PF.BMap
variable {V : Type}

theorem insert_sorted (m : BMap V) (k : Nat) (v : V) (h : m.keys.Pairwise (· < ·)) :
    (m.insert k v).keys.Pairwise (· < ·) := by
  induction m with
  | nil => simp [insert, keys]
  | cons e t ih =>
    obtain ⟨k', v'⟩ := e
    have h' : (k' :: keys t).Pairwise (· < ·) := h
    rw [List.pairwise_cons] at h'
    unfold insert
    split
    · next hlt =>
      show (k :: k' :: keys t).Pairwise (· < ·)
      rw [List.pairwise_cons]
      refine ⟨fun a ha => ?_, h⟩
      rcases List.mem_cons.1 ha with rfl | ha
      · exact hlt
      · exact Nat.lt_trans hlt (h'.1 a ha)
    · split
      · next he => subst he; exact h
      · next hlt hne =>
        show (k' :: keys (insert k v t)).Pairwise (· < ·)
        rw [List.pairwise_cons]
        refine ⟨fun a ha => ?_, ih h'.2⟩
        rcases (mem_keys_insert t k a v).1 ha with rfl | ha
        · omega
        · exact h'.1 a ha

theorem get_lt_none (m : BMap V) (k : Nat) (h : ∀ a ∈ m.keys, k < a) : m.get k = none := by
  rw [get_eq_none_iff]
  intro hk
  exact absurd (h k hk) (Nat.lt_irrefl k)

/-- Two ordered maps with the same entries are the same map. -/
theorem ext_sorted (m m' : BMap V) (h : m.keys.Pairwise (· < ·)) (h' : m'.keys.Pairwise (· < ·))
    (he : ∀ k, m.get k = m'.get k) : m = m' := by
  induction m generalizing m' with
  | nil =>
    cases m' with
    | nil => rfl
    | cons e t =>
      obtain ⟨k, v⟩ := e
      have := he k
      simp [get] at this
  | cons e t ih =>
    obtain ⟨k, v⟩ := e
    cases m' with
    | nil =>
      have := he k
      simp [get] at this
    | cons e' t' =>
      obtain ⟨k', v'⟩ := e'
      have h1 : (k :: keys t).Pairwise (· < ·) := h
      have h2 : (k' :: keys t').Pairwise (· < ·) := h'
      rw [List.pairwise_cons] at h1 h2
      have hk : k = k' := by
        rcases Nat.lt_trichotomy k k' with hlt | heq | hlt
        · have a := he k
          have b : get ((k', v') :: t') k = none := get_lt_none _ k (by
            intro a ha
            rcases List.mem_cons.1 (show a ∈ k' :: keys t' from ha) with rfl | ha
            · exact hlt
            · exact Nat.lt_trans hlt (h2.1 a ha))
          rw [b] at a
          simp [get] at a
        · exact heq
        · have a := he k'
          have b : get ((k, v) :: t) k' = none := get_lt_none _ k' (by
            intro a ha
            rcases List.mem_cons.1 (show a ∈ k :: keys t from ha) with rfl | ha
            · exact hlt
            · exact Nat.lt_trans hlt (h1.1 a ha))
          rw [b] at a
          simp [get] at a
      subst hk
      have hv : v = v' := by
        have a := he k
        simpa [get] using a
      subst hv
      rw [ih t' h1.2 h2.2 fun j => ?_]
      by_cases hj : j = k
      · subst hj
        rw [get_lt_none t j h1.1, get_lt_none t' j h2.1]
      · have a := he j
        simpa [get, hj] using a

end PF.BMap

namespace PF.MT
open PF PF.Spec
variable {L D : Type}

/-! ## order -/

theorem insertLoop_sorted {ε : Type} (h2 : D → D → D) (s : List D) (m : BMap D) (x : D) (i : Nat)
    (h : m.keys.Pairwise (· < ·)) (r : BMap D × D)
    (hr : (insertLoop h2 s m x i : Outcome ε _) = .ok r) : r.1.keys.Pairwise (· < ·) := by
  induction s generalizing m x i with
  | nil =>
    simp only [insertLoop, Outcome.ok.injEq] at hr
    subst hr; exact h
  | cons a s ih =>
    unfold insertLoop at hr
    cases hp : parent i with
    | none => simp [hp] at hr
    | some y =>
      simp only [hp, Outcome.unwrap_some, Outcome.bind_ok] at hr
      exact ih _ _ _ (BMap.insert_sorted m i x h) hr

theorem updateAndProve_sorted {ε : Type} {cfg : Config L D} {t t' : STree D} {i : Nat} {v : L} {π : List D}
    (h : t.tree.keys.Pairwise (· < ·))
    (hu : (updateAndProve cfg t i v : Outcome ε _) = .ok (t', π)) : t'.tree.keys.Pairwise (· < ·) := by
  simp only [updateAndProve, bind, Outcome.bind] at hu
  split at hu <;> try contradiction
  split at hu <;> try contradiction
  next hm =>
  cases hu
  exact BMap.insert_sorted _ _ _ (insertLoop_sorted _ _ _ _ _ h _ hm)

theorem insertLeaves_sorted (cfg : Config L D) (leaves : BMap L) (t : BMap D)
    (h : t.keys.Pairwise (· < ·)) : (insertLeaves cfg leaves t).keys.Pairwise (· < ·) := by
  induction leaves generalizing t with
  | nil => exact h
  | cons e l ih => exact ih _ (BMap.insert_sorted _ _ _ h)

theorem newLevel_sorted {ε : Type} (cfg : Config L D) (es : List D) (lv : Nat) (ms : List Nat) (t t' : BMap D)
    (h : t.keys.Pairwise (· < ·)) (hr : (newLevel cfg es lv ms t : Outcome ε _) = .ok t') :
    t'.keys.Pairwise (· < ·) := by
  induction ms generalizing t with
  | nil => cases hr; exact h
  | cons a ms ih =>
    simp only [newLevel, bind, Outcome.bind] at hr
    split at hr <;> try contradiction
    split at hr <;> try contradiction
    exact ih _ (BMap.insert_sorted _ _ _ h) hr

theorem newLoop_sorted {ε : Type} (cfg : Config L D) (es : List D) (n lv : Nat) (ms : List Nat) (t t' : BMap D)
    (h : t.keys.Pairwise (· < ·)) (hr : (newLoop cfg es n lv ms t : Outcome ε _) = .ok t') :
    t'.keys.Pairwise (· < ·) := by
  induction n generalizing lv ms t with
  | zero => cases hr; exact h
  | succ n ih =>
    simp only [newLoop, bind, Outcome.bind] at hr
    split at hr <;> try contradiction
    next hl => exact ih _ _ _ (newLevel_sorted _ _ _ _ _ _ h hl) hr

theorem new_sorted {cfg : Config L D} {leaves : BMap L} {t : STree D} (h : new cfg leaves = .ok t) :
    t.tree.keys.Pairwise (· < ·) := by
  simp only [new, bind, Outcome.bind] at h
  split at h <;> try contradiction
  split at h <;> try contradiction
  split at h <;> try contradiction
  next hl =>
  split at h <;> try contradiction
  cases h
  exact newLoop_sorted _ _ _ _ _ _ _ (insertLeaves_sorted _ _ _ List.Pairwise.nil) hl

/-! ## which nodes -/

theorem insertLoop_keys {ε : Type} (h2 : D → D → D) (s : List D) (m : BMap D) (x : D) (j : Nat)
    (r : BMap D × D) (hr : (insertLoop h2 s m x (hidx s.length j) : Outcome ε _) = .ok r) (k : Nat) :
    k ∈ r.1.keys ↔ k ∈ m.keys ∨ ∃ d ℓ, 0 < d ∧ d + ℓ = s.length ∧ k = hidx d (j / 2 ^ ℓ) := by
  induction s generalizing m x j with
  | nil =>
    simp only [insertLoop, Outcome.ok.injEq] at hr
    subst hr
    constructor
    · exact Or.inl
    · rintro (h | ⟨d, ℓ, h1, h2, _⟩)
      · exact h
      · simp at h2; omega
  | cons a s ih =>
    simp only [insertLoop, List.length_cons, parent_hidx, Outcome.unwrap_some, Outcome.bind_ok] at hr
    rw [ih _ _ _ hr, BMap.mem_keys_insert]
    constructor
    · rintro ((h | h) | ⟨d, ℓ, h1, h3, h4⟩)
      · exact Or.inr ⟨s.length + 1, 0, by omega, by simp, by simpa using h⟩
      · exact Or.inl h
      · refine Or.inr ⟨d, ℓ + 1, h1, by simp; omega, ?_⟩
        rw [h4, Nat.div_div_eq_div_mul, ← pow_succ']
    · rintro (h | ⟨d, ℓ, h1, h3, h4⟩)
      · exact Or.inl (Or.inr h)
      · cases ℓ with
        | zero =>
          left; left
          simp only [List.length_cons, Nat.add_zero] at h3
          simpa [h3] using h4
        | succ ℓ =>
          refine Or.inr ⟨d, ℓ, h1, by simp at h3; omega, ?_⟩
          rw [h4, Nat.div_div_eq_div_mul, ← pow_succ']

/-- The map after `update_and_prove`, for any index. -/
theorem updateAndProve_keys {ε : Type} {cfg : Config L D} {t t' : STree D}
    (he : t.emptyHashes = genEmptyHashes cfg cfg.height) {i : Nat} {v : L} {π : List D}
    (hu : (updateAndProve cfg t i v : Outcome ε _) = .ok (t', π)) (k : Nat) :
    k ∈ t'.tree.keys ↔ k = 0 ∨ k ∈ t.tree.keys ∨
      ∃ d ℓ, 0 < d ∧ d + ℓ = cfg.height - 1 ∧ k = hidx d (i / 2 ^ ℓ) := by
  obtain ⟨s, h1, h2⟩ := siblingsLoop_total he (ε := ε) (cfg.height - 1) 0 i (by omega)
  simp only [updateAndProve, siblings, convertIndex_eq, h1, Outcome.bind_ok] at hu
  rw [← h2] at hu
  rcases hm : (insertLoop cfg.h2 s t.tree (cfg.leafHash v) (hidx s.length i) : Outcome ε _) with r | e | _
  · rw [hm] at hu
    simp only [Outcome.bind_ok, Outcome.ok.injEq, Prod.mk.injEq] at hu
    rw [← hu.1, ← h2]
    simp only [BMap.mem_keys_insert, insertLoop_keys _ _ _ _ _ _ hm]
  · rw [hm] at hu; simp at hu
  · rw [hm] at hu; simp at hu

theorem onPath_iff {height i k : Nat} (hH : 1 ≤ height) (hi : i < 2 ^ (height - 1)) :
    OnPath height i k ↔ k = 0 ∨ ∃ d ℓ, 0 < d ∧ d + ℓ = height - 1 ∧ k = hidx d (i / 2 ^ ℓ) := by
  constructor
  · rintro ⟨ℓ, h1, h2⟩
    by_cases h0 : ℓ = height - 1
    · left
      subst h0
      rw [Nat.div_eq_of_lt hi] at h2
      simpa using h2
    · exact Or.inr ⟨height - 1 - ℓ, ℓ, by omega, by omega, h2⟩
  · rintro (rfl | ⟨d, ℓ, h1, h2, h3⟩)
    · exact ⟨height - 1, by omega, by rw [Nat.div_eq_of_lt hi]; simp⟩
    · exact ⟨ℓ, by omega, by rw [h3, show height - 1 - ℓ = d by omega]; rfl⟩

theorem pathsOf_update {ε : Type} {cfg : Config L D} {t t' : STree D} (hH : 1 ≤ cfg.height)
    (he : t.emptyHashes = genEmptyHashes cfg cfg.height) {W : Nat → Prop}
    (h : PathsOf cfg.height t.tree.keys W) {i : Nat} (hi : i < 2 ^ (cfg.height - 1)) {v : L} {π : List D}
    (hu : (updateAndProve cfg t i v : Outcome ε _) = .ok (t', π)) :
    PathsOf cfg.height t'.tree.keys (fun j => j = i ∨ W j) := by
  refine ⟨updateAndProve_sorted h.1 hu, fun k => ?_⟩
  rw [updateAndProve_keys he hu, h.2]
  have := onPath_iff (k := k) hH hi
  constructor
  · rintro (h0 | ⟨j, h1, h2⟩ | h0)
    · exact ⟨i, Or.inl rfl, this.2 (Or.inl h0)⟩
    · exact ⟨j, Or.inr h1, h2⟩
    · exact ⟨i, Or.inl rfl, this.2 (Or.inr h0)⟩
  · rintro ⟨j, rfl | h1, h2⟩
    · rcases this.1 h2 with h0 | h0
      · exact Or.inl h0
      · exact Or.inr (Or.inr h0)
    · exact Or.inr (Or.inl ⟨j, h1, h2⟩)

/-- Every node number inside the tree is a position on some level. -/
theorem exists_hidx (N k : Nat) (h : k < 2 ^ (N + 1) - 1) : ∃ d j, d ≤ N ∧ j < 2 ^ d ∧ k = hidx d j := by
  refine ⟨Nat.log 2 (k + 1), k + 1 - 2 ^ Nat.log 2 (k + 1), ?_, ?_, ?_⟩
  · have : k + 1 < 2 ^ (N + 1) := by omega
    have := Nat.log_lt_of_lt_pow (b := 2) (by omega) this
    omega
  · have h1 := Nat.lt_pow_succ_log_self (b := 2) (by omega) (k + 1)
    rw [pow_succ] at h1
    omega
  · have h1 := Nat.pow_log_le_self 2 (x := k + 1) (by omega)
    have h2 := Nat.two_pow_pos (Nat.log 2 (k + 1))
    simp only [hidx]; omega

end PF.MT
