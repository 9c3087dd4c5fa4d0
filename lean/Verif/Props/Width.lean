import Verif.Model.SparseMTWidth
import Verif.Props.SparseMT

/-!
# Tree operations with machine-width indices (C103)

`PF.MT.W.*` are the tree operations with `u64` index arithmetic, `PF.MT.*` those with unbounded indices,
about which C01–C11, C87 and C98 speak. They agree for every index with `index + 2^(HEIGHT-1) < 2^64`; all
other indices but one are refused or panic before the tree is changed.
-/
set_option linter.unusedSectionVars false

namespace PF.Props
open PF PF.MT
variable {L D : Type} {ε : Type}

theorem w_convert_ok (b : Build) {index height : Nat} (hi : index + 2 ^ (height - 1) < U64) :
    (W.convertIndex b index height : Outcome ε Nat) = .ok (convertIndex index height) := by
  have h1 : 1 ≤ 2 ^ (height - 1) := Nat.one_le_two_pow
  unfold W.convertIndex addU64
  rw [if_pos hi]
  simp only [Outcome.bind_ok, subU64, convertIndex]
  rw [if_pos (by omega)]

theorem w_sibling_ok (b : Build) {i : Nat} (hi : i + 1 < U64) :
    (W.sibling b i : Outcome ε (Option Nat)) = .ok (sibling i) := by
  unfold W.sibling sibling addU64
  rw [if_pos hi]
  split
  · rfl
  · split <;> rfl

theorem parent_le {i k : Nat} (h : parent i = some k) : k ≤ i ∧ 2 * k + 1 ≤ i := by
  unfold parent at h
  split at h
  · simp at h; omega
  · simp at h

theorem w_siblingsLoop (b : Build) (t : STree D) (n i index : Nat) (hi : index + 1 < U64) :
    (W.siblingsLoop b t n i index : Outcome ε _) = siblingsLoop t n i index := by
  induction n generalizing i index with
  | zero => rfl
  | succ n ih =>
    unfold W.siblingsLoop siblingsLoop
    rw [w_sibling_ok b hi]
    simp only [Outcome.bind_ok]
    rcases hs : sibling index with _ | s
    · rfl
    · rcases he : t.emptyHashes[i]? with _ | e
      · rfl
      · rcases hp : parent index with _ | k
        · rfl
        · simp only [Outcome.unwrap_some, Outcome.bind_ok]
          rw [ih (i + 1) k (by have := parent_le hp; omega)]

theorem w_memLoop (b : Build) (t : BMap D) (es : List D) (cur : Nat) (hi : cur + 1 < U64) :
    (W.memLoop b t es cur : Outcome ε _) = memLoop t es cur := by
  induction es generalizing cur with
  | nil =>
    rw [W.memLoop.eq_def, memLoop.eq_def]
    dsimp only
    rw [w_sibling_ok b hi]
    rfl
  | cons e es ih =>
    rw [W.memLoop.eq_def, memLoop.eq_def]
    dsimp only
    rw [w_sibling_ok b hi]
    split
    · rfl
    · simp only [Outcome.bind_ok]
      rcases hs : sibling cur with _ | s
      · rfl
      · rcases hp : parent cur with _ | k
        · rfl
        · simp only [Outcome.unwrap_some, Outcome.bind_ok]
          rw [ih k (by have := parent_le hp; omega)]

theorem w_children (b : Build) {i : Nat} (hi : 2 * i + 2 < U64) :
    (W.leftChild b i : Outcome ε Nat) = .ok (leftChild i) ∧
    (W.rightChild b i : Outcome ε Nat) = .ok (rightChild i) := by
  unfold W.leftChild W.rightChild W.mulU64 addU64
  constructor
  · rw [if_pos (by omega)]; simp only [Outcome.bind_ok]; rw [if_pos (by omega)]; rfl
  · rw [if_pos (by omega)]; simp only [Outcome.bind_ok]; rw [if_pos hi]; rfl

theorem upNodes_bound {mids : List Nat} {B : Nat} (h : ∀ i ∈ mids, 2 * i + 2 < B) :
    ∀ i ∈ upNodes mids, 2 * i + 2 < B := by
  intro i hi
  unfold upNodes at hi
  rw [mem_bsetOf, List.mem_filterMap] at hi
  obtain ⟨k, hk, hp⟩ := hi
  have := parent_le hp
  have := h k hk
  omega

theorem w_newLevel (b : Build) (cfg : Config L D) (es : List D) (level : Nat) (mids : List Nat) (t : BMap D)
    (h : ∀ i ∈ mids, 2 * i + 2 < U64) :
    (W.newLevel b cfg es level mids t : Outcome ε _) = newLevel cfg es level mids t := by
  induction mids generalizing t with
  | nil => rfl
  | cons i mids ih =>
    unfold W.newLevel newLevel
    rw [(w_children b (h i (by simp))).1, (w_children b (h i (by simp))).2]
    simp only [Outcome.bind_ok]
    congr 1; funext l
    congr 1; funext r
    exact ih _ (fun j hj => h j (by simp [hj]))

theorem w_newLoop (b : Build) (cfg : Config L D) (es : List D) (n level : Nat) (mids : List Nat) (t : BMap D)
    (h : ∀ i ∈ mids, 2 * i + 2 < U64) :
    (W.newLoop b cfg es n level mids t : Outcome ε _) = newLoop cfg es n level mids t := by
  induction n generalizing level mids t with
  | zero => rfl
  | succ n ih =>
    unfold W.newLoop newLoop
    rw [w_newLevel b cfg es level mids t h]
    congr 1; funext t'
    exact ih _ _ _ (upNodes_bound h)

theorem w_validateLoop [DecidableEq D] (b : Build) (cfg : Config L D) (t : STree D) (n level : Nat)
    (mids : List Nat) (h : ∀ i ∈ mids, 2 * i + 2 < U64) :
    (W.validateLoop b cfg t n level mids : Outcome ε _) = validateLoop cfg t n level mids := by
  have key : ∀ level (mids : List Nat), (∀ i ∈ mids, 2 * i + 2 < U64) →
      (W.validateLevel b cfg t level mids : Outcome ε _) = validateLevel cfg t level mids := by
    intro level mids h
    induction mids with
    | nil => rfl
    | cons i mids ih =>
      unfold W.validateLevel validateLevel
      rw [(w_children b (h i (by simp))).1, (w_children b (h i (by simp))).2,
        ih (fun j hj => h j (by simp [hj]))]
      rfl
  induction n generalizing level mids with
  | zero => rfl
  | succ n ih =>
    unfold W.validateLoop validateLoop
    rw [key level mids h, ih _ _ (upNodes_bound h)]

theorem w_insertLeaves (b : Build) (cfg : Config L D) (leaves : BMap L) (t : BMap D)
    (h : ∀ k ∈ leaves.keys, k + 2 ^ (cfg.height - 1) < U64) :
    (W.insertLeaves b cfg leaves t : Outcome ε _) = .ok (insertLeaves cfg leaves t) := by
  have h1 : 1 ≤ 2 ^ (cfg.height - 1) := Nat.one_le_two_pow
  induction leaves generalizing t with
  | nil => rfl
  | cons e rest ih =>
    have he := h e.1 (by simp [BMap.keys])
    unfold W.insertLeaves addU64
    rw [if_pos (by omega)]
    simp only [Outcome.bind_ok]
    rw [ih _ (fun k hk => h k (by simp [BMap.keys] at hk ⊢; right; exact hk))]
    rfl

theorem w_leafParents (b : Build) (last : Nat) (ks : List Nat) (s : List Nat)
    (h : ∀ k ∈ ks, k + last + 1 < U64) :
    (W.leafParents b last ks s : Outcome ε _) = leafParents last ks s := by
  induction ks generalizing s with
  | nil => rfl
  | cons k ks ih =>
    unfold W.leafParents leafParents addU64
    have := h k (by simp)
    rw [if_pos (by omega)]
    simp only [Outcome.bind_ok]
    congr 1; funext q
    exact ih _ (fun j hj => h j (by simp [hj]))

theorem leafParents_bound {last : Nat} {ks s m : List Nat} (h : ∀ k ∈ ks, k + last + 1 < U64)
    (hs : ∀ i ∈ s, 2 * i + 2 < U64) (hm : (leafParents last ks s : Outcome ε _) = .ok m) :
    ∀ i ∈ m, 2 * i + 2 < U64 := by
  induction ks generalizing s with
  | nil => simp [leafParents] at hm; subst hm; exact hs
  | cons k ks ih =>
    unfold leafParents at hm
    rcases hp : parent (last + k) with _ | x
    · rw [hp] at hm; simp at hm
    · rw [hp] at hm
      simp only [Outcome.unwrap_some, Outcome.bind_ok] at hm
      refine ih (fun j hj => h j (by simp [hj])) ?_ hm
      intro i hi
      rw [mem_bsetInsert] at hi
      rcases hi with rfl | hi
      · have := parent_le hp
        have := h k (by simp)
        omega
      · exact hs i hi

/-- **C103**, index helpers: computing a child wraps modulo `2^64` in a release build; in a debug build it
panics exactly when the child's index does not fit. -/
theorem C103_child_wraps (i : Nat) :
    (W.leftChild .release i : Outcome ε Nat) = .ok ((2 * i + 1) % U64) ∧
    (W.rightChild .release i : Outcome ε Nat) = .ok ((2 * i + 2) % U64) ∧
    ((W.leftChild .debug i : Outcome ε Nat) = if 2 * i + 1 < U64 then .ok (2 * i + 1) else .panic) ∧
    ((W.rightChild .debug i : Outcome ε Nat) = if 2 * i + 2 < U64 then .ok (2 * i + 2) else .panic) := by
  have add : ∀ x y : Nat, (addU64 .release x y : Outcome ε Nat) = .ok ((x + y) % U64) := by
    intro x y
    unfold addU64
    split
    · rename_i h; rw [Nat.mod_eq_of_lt h]
    · rfl
  have mul : (W.mulU64 .release 2 i : Outcome ε Nat) = .ok ((2 * i) % U64) := by
    unfold W.mulU64
    split
    · rename_i h; rw [Nat.mod_eq_of_lt h]
    · rfl
  refine ⟨?_, ?_, ?_, ?_⟩
  · unfold W.leftChild; rw [mul]; simp only [Outcome.bind_ok]; rw [add, Nat.mod_add_mod]
  · unfold W.rightChild; rw [mul]; simp only [Outcome.bind_ok]; rw [add, Nat.mod_add_mod]
  · unfold W.leftChild W.mulU64 addU64
    by_cases h : 2 * i < U64
    · rw [if_pos h]; rfl
    · rw [if_neg h, if_neg (by omega)]; rfl
  · unfold W.rightChild W.mulU64 addU64
    by_cases h : 2 * i < U64
    · rw [if_pos h]; rfl
    · rw [if_neg h, if_neg (by omega)]; rfl

example : (W.leftChild .release (2 ^ 63) : Outcome ε Nat) = .ok 1 ∧
    (W.leftChild .debug (2 ^ 63) : Outcome ε Nat) = .panic := by
  obtain ⟨h1, -, h2, -⟩ := C103_child_wraps (ε := ε) (2 ^ 63)
  exact ⟨h1.trans (congrArg _ (by decide)), h2.trans (if_neg (by decide))⟩

/-- **C103**: for every index with `index + 2^(HEIGHT-1) < 2^64`, and for trees built from such indices, the
operations with `u64` arithmetic compute exactly what the operations with unbounded indices compute, in both
build profiles. -/
theorem C103_width_agrees [DecidableEq D] (b : Build) (cfg : Config L D) :
    (∀ (t : STree D) (index : Nat), index + 2 ^ (cfg.height - 1) < 2 ^ 64 →
      (∀ leaf, (W.updateAndProve b cfg t index leaf : Outcome ε _) = updateAndProve cfg t index leaf) ∧
      (W.siblings b cfg t index : Outcome ε _) = siblings cfg t index ∧
      W.genMembershipProof b cfg t index = genMembershipProof cfg t index ∧
      ∀ leaf, W.genProof b cfg t index leaf = genProof cfg t index leaf) ∧
    (∀ leaves : BMap L, (∀ k ∈ leaves.keys, k + 2 ^ (cfg.height - 1) < 2 ^ 64) →
      W.new b cfg leaves = new cfg leaves) ∧
    (∀ t : STree D, (∀ k ∈ t.tree.keys, k + 1 < 2 ^ 64) → W.validate b cfg t = validate cfg t) := by
  have h1 : 1 ≤ 2 ^ (cfg.height - 1) := Nat.one_le_two_pow
  refine ⟨fun t index hi => ?_, fun leaves hk => ?_, fun t hk => ?_⟩
  · have hi' : index + 2 ^ (cfg.height - 1) < U64 := hi
    have hc : convertIndex index cfg.height + 1 < U64 := by unfold convertIndex; omega
    have hs : ∀ {ε : Type}, (W.siblings b cfg t index : Outcome ε _) = siblings cfg t index := by
      intro ε
      unfold W.siblings siblings
      rw [w_convert_ok b hi', Outcome.bind_ok, w_siblingsLoop b t _ _ _ hc]
    have hm : W.genMembershipProof b cfg t index = genMembershipProof cfg t index := by
      unfold W.genMembershipProof genMembershipProof
      rw [w_convert_ok b hi', Outcome.bind_ok, w_memLoop b _ _ _ hc]
    refine ⟨fun leaf => ?_, hs, hm, fun leaf => ?_⟩
    · unfold W.updateAndProve updateAndProve
      rw [hs, w_convert_ok b hi']
      rfl
    · unfold W.genProof genProof
      rw [w_convert_ok b hi', Outcome.bind_ok, hm]
      cases t.tree.get (convertIndex index cfg.height) <;> rfl
  · have hk' : ∀ k ∈ leaves.keys, k + (2 ^ (cfg.height - 1) - 1) + 1 < U64 := by
      intro k hkm
      have h2 : k + 2 ^ (cfg.height - 1) < U64 := hk k hkm
      omega
    unfold W.new new
    dsimp only
    split
    · rfl
    · rw [w_insertLeaves b cfg leaves [] hk, w_leafParents b _ _ _ hk']
      simp only [Outcome.bind_ok]
      rcases hm : (leafParents (2 ^ (cfg.height - 1) - 1) leaves.keys [] : Outcome Unit _) with m | e | _
      · simp only [Outcome.bind_ok]
        rw [w_newLoop b cfg _ _ _ _ _ (leafParents_bound hk' (by simp) hm)]
        congr 1
      · rfl
      · rfl
  · unfold W.validate validate
    refine w_validateLoop b cfg t _ _ _ ?_
    intro i hi
    rw [mem_bsetOf, List.mem_filterMap] at hi
    obtain ⟨k, hkm, hp⟩ := hi
    have := parent_le hp
    have h2 : k + 1 < U64 := hk k (List.mem_filter.1 hkm).1
    omega

/-- **C103**: every position that exists satisfies the condition of `C103_width_agrees`, for every height the
code supports (`1u64 << (HEIGHT - 1)`). -/
theorem C103_in_range_agrees [DecidableEq D] (b : Build) (cfg : Config L D) (hh : 1 ≤ cfg.height)
    (hh' : cfg.height ≤ 64) (t : STree D) (index : Nat) (hi : index < 2 ^ (cfg.height - 1)) (leaf : L) :
    (W.updateAndProve b cfg t index leaf : Outcome ε _) = updateAndProve cfg t index leaf ∧
    W.genMembershipProof b cfg t index = genMembershipProof cfg t index ∧
    W.genProof b cfg t index leaf = genProof cfg t index leaf := by
  have hp : (2 : Nat) * 2 ^ (cfg.height - 1) ≤ 2 ^ 64 := by
    have e : (2 : Nat) * 2 ^ (cfg.height - 1) = 2 ^ cfg.height := by
      obtain ⟨m, hm⟩ : ∃ m, cfg.height = m + 1 := ⟨cfg.height - 1, by omega⟩
      rw [hm, Nat.add_sub_cancel, pow_succ, Nat.mul_comm]
    rw [e]
    exact Nat.pow_le_pow_right (by decide) hh'
  have h2 : index + 2 ^ (cfg.height - 1) < 2 ^ 64 := by
    generalize (2 : Nat) ^ 64 = N at hp ⊢
    omega
  obtain ⟨h3, -, h4, h5⟩ := (C103_width_agrees (ε := ε) b cfg).1 t index h2
  exact ⟨h3 leaf, h4, h5 leaf⟩

example : 1 ≤ toy.height ∧ toy.height ≤ 64 ∧ 3 < 2 ^ (toy.height - 1) ∧
    (∀ b, W.genMembershipProof b toy toyTree 2 = .ok [(10, 1), (501, 1001)]) :=
  ⟨by decide, by decide, by decide, fun b => by cases b <;> decide⟩

/-- **C103**, debug builds: an index whose conversion overflows makes every operation panic. -/
theorem C103_overflow_debug [DecidableEq D] (cfg : Config L D) (t : STree D) (index : Nat)
    (hi : 2 ^ 64 ≤ index + 2 ^ (cfg.height - 1)) (leaf : L) :
    (W.updateAndProve .debug cfg t index leaf : Outcome ε _) = .panic ∧
    W.genMembershipProof .debug cfg t index = .panic ∧ W.genProof .debug cfg t index leaf = .panic := by
  have hc : ∀ {ε : Type}, (W.convertIndex .debug index cfg.height : Outcome ε Nat) = .panic := by
    intro ε
    unfold W.convertIndex addU64
    rw [if_neg (by unfold U64; omega)]
    rfl
  refine ⟨?_, ?_, ?_⟩
  · unfold W.updateAndProve W.siblings; rw [hc]; rfl
  · unfold W.genMembershipProof; rw [hc]; rfl
  · unfold W.genProof; rw [hc]; rfl

/-- Walking up from a node above the leaf level meets the root too early. -/
theorem w_siblingsLoop_panics (b : Build) (t : STree D) (n i index : Nat) (hi : index + 1 < U64)
    (h : index + 1 < 2 ^ n) : (W.siblingsLoop b t n i index : Outcome ε _) = .panic := by
  induction n generalizing i index with
  | zero => simp at h
  | succ n ih =>
    unfold W.siblingsLoop
    rw [w_sibling_ok b hi]
    simp only [Outcome.bind_ok]
    by_cases h0 : index = 0
    · subst h0; rfl
    · obtain ⟨s, hs⟩ : ∃ s, sibling index = some s := by
        unfold sibling; rw [if_neg h0]; split <;> exact ⟨_, rfl⟩
      have hp : parent index = some ((index - 1) / 2) := by
        unfold parent; rw [if_pos (by omega)]
      rw [hs, hp]
      rcases he : t.emptyHashes[i]? with _ | e
      · rfl
      · simp only [Outcome.unwrap_some, Outcome.bind_ok]
        rw [ih (i + 1) _ (by omega) (by rw [pow_succ] at h; omega)]
        rfl

/-- A path from a node above the leaf level is too short. -/
theorem w_memLoop_short (b : Build) (t : BMap D) (n : Nat) (es : List D) (cur : Nat) (hi : cur + 1 < U64)
    (h : cur + 1 < 2 ^ (n + 1)) (path : List (D × D)) (hp : (W.memLoop b t es cur : Outcome ε _) = .ok path) :
    path.length ≤ n := by
  induction n generalizing es cur path with
  | zero =>
    have : cur = 0 := by omega
    subst this
    rw [W.memLoop.eq_def] at hp
    simp [isRoot] at hp
    subst hp; simp
  | succ n ih =>
    rw [W.memLoop.eq_def] at hp
    dsimp only at hp
    rw [w_sibling_ok b hi] at hp
    by_cases h0 : cur = 0
    · subst h0; simp [isRoot] at hp; subst hp; simp
    · have hr : isRoot cur = false := by simpa [isRoot] using h0
      obtain ⟨s, hs⟩ : ∃ s, sibling cur = some s := by
        unfold sibling; rw [if_neg h0]; split <;> exact ⟨_, rfl⟩
      have hpar : parent cur = some ((cur - 1) / 2) := by
        unfold parent; rw [if_pos (by omega)]
      rw [hr, hs, hpar] at hp
      simp only [Outcome.bind_ok, Outcome.unwrap_some] at hp
      rcases es with _ | ⟨e, es⟩
      · simp at hp
      · simp only [Bool.false_eq_true, if_false] at hp
        rcases hm : (W.memLoop b t es ((cur - 1) / 2) : Outcome ε _) with rest | x | _
        · rw [hm] at hp
          simp only [Outcome.bind_ok, Outcome.ok.injEq] at hp
          have := ih es _ (by omega) (by rw [pow_succ] at h; omega) rest hm
          rw [← hp]
          simp; omega
        · rw [hm] at hp; simp at hp
        · rw [hm] at hp; simp at hp

theorem w_pow_le {h : Nat} (hh : 2 ≤ h) (hh' : h ≤ 64) : 2 * 2 ^ (h - 1) ≤ U64 := by
  have e : (2 : Nat) * 2 ^ (h - 1) = 2 ^ h := by
    obtain ⟨m, rfl⟩ : ∃ m, h = m + 1 := ⟨h - 1, by omega⟩
    rw [Nat.add_sub_cancel, pow_succ, Nat.mul_comm]
  rw [e]
  exact Nat.pow_le_pow_right (by decide) hh'

/-- Addition and decrement that wrap once. -/
theorem w_wrap {N index p : Nat} (h1 : 1 ≤ p) (h2 : 2 * p ≤ N) (hu : index < N) (hi : N < index + p) :
    ¬ index + p < N ∧ (index + p) % N = index + p - N ∧ 1 ≤ index + p - N ∧
      index + p - N - 1 + 1 < N ∧ index + p - N - 1 + 1 < p := by
  refine ⟨by omega, ?_, by omega, by omega, by omega⟩
  rw [Nat.mod_eq_sub_mod (by omega), Nat.mod_eq_of_lt (by omega)]

theorem w_add_wraps {x y : Nat} (h : ¬ x + y < U64) :
    (addU64 .release x y : Outcome ε Nat) = .ok ((x + y) % U64) := by
  unfold addU64; rw [if_neg h]

theorem w_sub_ok {b : Build} {x y : Nat} (h : y ≤ x) : (subU64 b x y : Outcome ε Nat) = .ok (x - y) := by
  unfold subU64; rw [if_pos h]

theorem w_convert_wraps {index h : Nat} (hh : 2 ≤ h) (hh' : h ≤ 64) (hu : index < U64)
    (hi : U64 < index + 2 ^ (h - 1)) : ∃ k, (∀ {ε : Type}, (W.convertIndex .release index h : Outcome ε Nat) = .ok k) ∧
      k + 1 < U64 ∧ k + 1 < 2 ^ (h - 1) := by
  obtain ⟨a1, a2, a3, a4, a5⟩ := w_wrap Nat.one_le_two_pow (w_pow_le hh hh') hu hi
  refine ⟨index + 2 ^ (h - 1) - U64 - 1, ?_, a4, a5⟩
  intro ε
  unfold W.convertIndex
  rw [w_add_wraps a1, Outcome.bind_ok, a2, w_sub_ok a3]

/-- **C103**, release builds: an index whose conversion wraps past zero is refused: updating panics before
anything is changed, and no proof is generated. -/
theorem C103_overflow_release [DecidableEq D] (cfg : Config L D) (hh : 2 ≤ cfg.height) (hh' : cfg.height ≤ 64)
    (t : STree D) (index : Nat) (hu : index < 2 ^ 64) (hi : 2 ^ 64 < index + 2 ^ (cfg.height - 1)) (leaf : L) :
    (W.updateAndProve .release cfg t index leaf : Outcome ε _) = .panic ∧
    (∀ path, W.genMembershipProof .release cfg t index ≠ .ok path) ∧
    (∀ path, W.genProof .release cfg t index leaf ≠ .ok path) := by
  obtain ⟨m, hm⟩ : ∃ m, cfg.height = m + 2 := ⟨cfg.height - 2, by omega⟩
  have e1 : cfg.height - 1 = m + 1 := by omega
  obtain ⟨k, hc, hb1, hb2⟩ := w_convert_wraps hh hh' hu hi
  have hmem : ∀ path, W.genMembershipProof .release cfg t index ≠ .ok path := by
    intro path hp
    unfold W.genMembershipProof at hp
    rw [hc] at hp
    simp only [Outcome.bind_ok] at hp
    rcases hl : (W.memLoop .release t.tree t.emptyHashes k : Outcome Unit _) with q | e | _
    · rw [hl] at hp
      have hq := w_memLoop_short .release t.tree m t.emptyHashes _ hb1 (by rw [← e1]; exact hb2) q hl
      simp only [Outcome.bind_ok] at hp
      rw [if_pos (by omega)] at hp
      cases hp
    · rw [hl] at hp; cases hp
    · rw [hl] at hp; cases hp
  refine ⟨?_, hmem, ?_⟩
  · unfold W.updateAndProve W.siblings
    rw [hc]
    simp only [Outcome.bind_ok]
    rw [w_siblingsLoop_panics .release t _ 0 _ hb1 hb2]
    rfl
  · intro path hp
    unfold W.genProof at hp
    rw [hc] at hp
    simp only [Outcome.bind_ok] at hp
    split at hp
    · split at hp
      · cases hp
      · exact hmem path hp
    · exact hmem path hp

theorem w_sibling_ones (k : Nat) (hk : k + 1 ≤ 64) : ∃ s, (W.sibling .release (2 ^ (k + 1) - 1) : Outcome ε _) =
    .ok (some s) ∧ (k + 1 = 64 → s = 0) := by
  have h1 : 1 ≤ 2 ^ k := Nat.one_le_two_pow
  have h2 : 2 ^ (k + 1) = 2 * 2 ^ k := by rw [pow_succ, Nat.mul_comm]
  unfold W.sibling
  rw [if_neg (by omega), if_pos (by simp [isLeftChild])]
  unfold addU64
  by_cases hlt : 2 ^ (k + 1) - 1 + 1 < U64
  · rw [if_pos hlt]
    refine ⟨_, rfl, fun h => ?_⟩
    rw [h] at hlt
    exact absurd hlt (by decide)
  · rw [if_neg hlt]
    refine ⟨_, rfl, fun h => ?_⟩
    rw [h]; decide

theorem w_siblings_ones (t : STree D) (n i k : Nat) (hk : k ≤ 64) (hn : n ≤ k)
    (hes : i + n ≤ t.emptyHashes.length) : ∃ sibs, (W.siblingsLoop .release t n i (2 ^ k - 1) : Outcome ε _) =
      .ok sibs ∧ sibs.length = n ∧ (k = 64 → 1 ≤ n → ∀ r, t.tree.get 0 = some r → sibs[0]? = some r) := by
  induction n generalizing i k with
  | zero => exact ⟨[], rfl, rfl, fun _ h => absurd h (by omega)⟩
  | succ n ih =>
    obtain ⟨k, rfl⟩ : ∃ j, k = j + 1 := ⟨k - 1, by omega⟩
    have h1 : 1 ≤ 2 ^ k := Nat.one_le_two_pow
    have h2 : 2 ^ (k + 1) = 2 * 2 ^ k := by rw [pow_succ, Nat.mul_comm]
    obtain ⟨s, hs, hz⟩ := w_sibling_ones (ε := ε) k hk
    have hp : parent (2 ^ (k + 1) - 1) = some (2 ^ k - 1) := by
      unfold parent
      rw [if_pos (by omega)]
      congr 1; omega
    obtain ⟨sibs, e1, e2, -⟩ := ih (i + 1) k (by omega) (by omega) (by omega)
    have he : t.emptyHashes[i]? = some (t.emptyHashes[i]'(by omega)) := List.getElem?_eq_getElem (by omega)
    unfold W.siblingsLoop
    rw [hs, hp, he]
    simp only [Outcome.bind_ok, Outcome.unwrap_some]
    rw [e1]
    refine ⟨_, rfl, by simp [e2], fun hk64 _ r hr => ?_⟩
    rw [hz hk64, hr]; rfl

theorem w_insert_ones (h2 : D → D → D) (sibs : List D) (t : BMap D) (h : D) (k : Nat) (hn : sibs.length ≤ k) :
    ∃ m, (insertLoop h2 sibs t h (2 ^ k - 1) : Outcome ε _) = .ok (m, sibs.foldl h2 h) := by
  induction sibs generalizing t h k with
  | nil => exact ⟨t, rfl⟩
  | cons s sibs ih =>
    obtain ⟨k, rfl⟩ : ∃ j, k = j + 1 := ⟨k - 1, by simp at hn; omega⟩
    have h1 : 1 ≤ 2 ^ k := Nat.one_le_two_pow
    have e : 2 ^ (k + 1) = 2 * 2 ^ k := by rw [pow_succ, Nat.mul_comm]
    have hp : parent (2 ^ (k + 1) - 1) = some (2 ^ k - 1) := by
      unfold parent
      rw [if_pos (by omega)]
      congr 1; omega
    have hl : isLeftChild (2 ^ (k + 1) - 1) = true := by simp [isLeftChild]
    unfold insertLoop
    rw [hp, hl]
    simp only [Outcome.unwrap_some, Outcome.bind_ok, if_true]
    exact ih _ _ k (by simp at hn; omega)

/-- The path from node `2^k - 1` to the root has `k` levels. -/
theorem w_memLoop_ones (t : BMap D) (es : List D) (k : Nat) (hk : k ≤ 64) (path : List (D × D))
    (hp : (W.memLoop .release t es (2 ^ k - 1) : Outcome ε _) = .ok path) : path.length = k := by
  induction k generalizing es path with
  | zero =>
    rw [W.memLoop.eq_def] at hp
    simp [isRoot] at hp
    subst hp; rfl
  | succ k ih =>
    have h1 : 1 ≤ 2 ^ k := Nat.one_le_two_pow
    have e : 2 ^ (k + 1) = 2 * 2 ^ k := by rw [pow_succ, Nat.mul_comm]
    obtain ⟨s, hs, -⟩ := w_sibling_ones (ε := ε) k hk
    have hpar : parent (2 ^ (k + 1) - 1) = some (2 ^ k - 1) := by
      unfold parent
      rw [if_pos (by omega)]
      congr 1; omega
    have hr : isRoot (2 ^ (k + 1) - 1) = false := by
      have : 2 ^ (k + 1) - 1 ≠ 0 := by omega
      simpa [isRoot] using this
    rw [W.memLoop.eq_def] at hp
    dsimp only at hp
    rw [hs, hr, hpar] at hp
    simp only [Outcome.bind_ok, Outcome.unwrap_some] at hp
    rcases es with _ | ⟨x, es⟩
    · simp at hp
    · simp only [Bool.false_eq_true, if_false] at hp
      rcases hm : (W.memLoop .release t es (2 ^ k - 1) : Outcome ε _) with rest | x | _
      · rw [hm] at hp
        simp only [Outcome.bind_ok, Outcome.ok.injEq] at hp
        have := ih es (by omega) rest hm
        rw [← hp]
        simp only [List.length_cons, this]
      · rw [hm] at hp; simp at hp
      · rw [hm] at hp; simp at hp

/-- **C103**, the one index in between: in a release build, updating at the index `2^64 - 2^(HEIGHT-1)`
succeeds, although the position does not exist. The new root is computed as if the new leaf were the leftmost
leaf of a tree in which the right neighbour of that leaf is the old root (`sibling` of the last `u64` wraps to
node 0). No membership proof is generated for that position. -/
theorem C103_boundary_release (cfg : Config L D) (hh : 2 ≤ cfg.height) (hh' : cfg.height ≤ 64) (t : STree D)
    (ht : cfg.height ≤ t.emptyHashes.length) (r : D) (hr : t.tree.get 0 = some r)
    (index : Nat) (hi : index + 2 ^ (cfg.height - 1) = 2 ^ 64) (leaf : L) :
    ∃ t' sibs, (W.updateAndProve .release cfg t index leaf : Outcome ε _) = .ok (t', sibs) ∧
      sibs.length = cfg.height - 1 ∧ sibs[0]? = some r ∧
      t'.root = some (sibs.foldl cfg.h2 (cfg.leafHash leaf)) ∧
      (∀ path, W.genMembershipProof .release cfg t index ≠ .ok path) ∧
      (∀ path, W.genMembershipProof .release cfg t' index ≠ .ok path) := by
  have hc : ∀ {ε : Type}, (W.convertIndex .release index cfg.height : Outcome ε Nat) = .ok (2 ^ 64 - 1) := by
    intro ε
    unfold W.convertIndex addU64
    rw [hi]
    rfl
  have hmem : ∀ (t : STree D) path, W.genMembershipProof .release cfg t index ≠ .ok path := by
    intro t path hp
    unfold W.genMembershipProof at hp
    rw [hc] at hp
    simp only [Outcome.bind_ok] at hp
    rcases hl : (W.memLoop .release t.tree t.emptyHashes (2 ^ 64 - 1) : Outcome Unit _) with q | e | _
    · rw [hl] at hp
      have hq := w_memLoop_ones t.tree t.emptyHashes 64 (le_refl _) q hl
      simp only [Outcome.bind_ok] at hp
      rw [if_pos (by omega)] at hp
      cases hp
    · rw [hl] at hp; cases hp
    · rw [hl] at hp; cases hp
  obtain ⟨sibs, e1, e2, e3⟩ := w_siblings_ones (ε := ε) t (cfg.height - 1) 0 64 (le_refl _) (by omega) (by omega)
  obtain ⟨m, e4⟩ := w_insert_ones (ε := ε) cfg.h2 sibs t.tree (cfg.leafHash leaf) 64 (by omega)
  refine ⟨{ t with tree := m.insert 0 (sibs.foldl cfg.h2 (cfg.leafHash leaf)),
                   root := some (sibs.foldl cfg.h2 (cfg.leafHash leaf)) }, sibs, ?_, e2, e3 rfl (by omega) r hr, rfl,
    hmem t, hmem _⟩
  · unfold W.updateAndProve W.siblings
    rw [hc]
    simp only [Outcome.bind_ok]
    rw [e1]
    simp only [Outcome.bind_ok]
    rw [e4]
    rfl

/-- A concrete case: position `2^64 - 4` of a tree with four leaves. -/
example : 2 ≤ toy.height ∧ toy.height ≤ 64 ∧ toy.height ≤ toyTree.emptyHashes.length ∧
    toyTree.tree.get 0 = some 51101 ∧ (2 ^ 64 - 4) + 2 ^ (toy.height - 1) = 2 ^ 64 ∧
    (match (W.updateAndProve .release toy toyTree (2 ^ 64 - 4) 7 : Outcome Unit _) with
      | .ok (t, sibs) => t.root == some (100 * (100 * 8 + 51101) + 101) && sibs == [51101, 101]
      | _ => false) = true ∧
    (W.updateAndProve .debug toy toyTree (2 ^ 64 - 4) 7 : Outcome Unit _) = .panic ∧
    (W.updateAndProve .release toy toyTree (2 ^ 64 - 3) 7 : Outcome Unit _) = .panic :=
  ⟨by decide, by decide, by decide, by decide, by decide, by decide +kernel,
    (C103_overflow_debug toy toyTree _ (by decide) 7).1,
    (C103_overflow_release toy (by decide) (by decide) toyTree _ (by decide) (by decide) 7).1⟩

end PF.Props
