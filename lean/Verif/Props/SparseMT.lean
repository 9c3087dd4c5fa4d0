import Verif.Proof.SparseMTBuild

/-!
# Properties C01–C11: the native sparse Merkle tree
-/

namespace PF.Props
open PF PF.MT PF.Spec
variable {L D : Type}

/-- A sequence of `update_and_prove` calls. -/
def applyWrites (cfg : Config L D) : STree D → List (Nat × L) → Outcome Unit (STree D)
  | t, [] => .ok t
  | t, (i, v) :: ws => do
    let (t', _) ← updateAndProve cfg t i v
    applyWrites cfg t' ws

/-- Trees reachable through the public API with in-range indices, with the contents a user expects. -/
inductive Built (cfg : Config L D) : STree D → (Nat → L) → Prop
  | blank {t} : blank cfg = .ok t → Built cfg t (fun _ => cfg.dflt)
  | new {t leaves} : leaves.keys.Pairwise (· < ·) → (∀ i ∈ leaves.keys, i < 2 ^ (cfg.height - 1)) →
      MT.new cfg leaves = .ok t → Built cfg t (fun i => (leaves.get i).getD cfg.dflt)
  | update {t c i v t' p} : Built cfg t c → i < 2 ^ (cfg.height - 1) →
      (updateAndProve cfg t i v : Outcome Unit _) = .ok (t', p) → Built cfg t' (write c i v)

/-- In-range list of writes. -/
def InRange (cfg : Config L D) (ws : List (Nat × L)) : Prop := ∀ w ∈ ws, w.1 < 2 ^ (cfg.height - 1)

theorem Built.rep {cfg : Config L D} (hH : 2 ≤ cfg.height) {t : STree D} {c : Nat → L}
    (h : Built cfg t c) : Rep cfg t c := by
  induction h with
  | blank e =>
    obtain ⟨t', h1, h2⟩ := blank_rep cfg
    rw [h1] at e; cases e; exact h2
  | new hs hr e =>
    rename_i t leaves
    have hnd : leaves.keys.Nodup := hs.imp (fun h => Nat.ne_of_lt h)
    obtain ⟨h1, h2⟩ := new_spec cfg leaves hH hnd hr
    by_cases hl : leaves = []
    · rw [h1 hl] at e; cases e
    · obtain ⟨t', h3, h4⟩ := h2 hl
      rw [h3] at e; cases e; exact h4
  | update _ hi e ih =>
    obtain ⟨t', h1, h2⟩ := updateAndProve_rep ih (ε := Unit) _ _ hi
    rw [h1] at e; cases e; exact h2

/-- Toy configuration used for the non-vacuity examples: 4 leaves. -/
def toy : Config Nat Nat :=
  { leafHash := fun x => x + 1, h2 := fun a b => 100 * a + b, dflt := 0, height := 3 }

/-- Contents of the toy tree used below: two writes to position 2 and one to position 0. -/
def toyTree : STree Nat :=
  match blank toy with
  | .ok t => match applyWrites toy t [(2, 7), (0, 4), (2, 9)] with
    | .ok t => t
    | _ => t
  | _ => { tree := [], root := none, emptyHashes := [] }

theorem applyWrites_rep {cfg : Config L D} {t : STree D} {c : Nat → L} (h : Rep cfg t c)
    (ws : List (Nat × L)) (hr : InRange cfg ws) :
    ∃ t', applyWrites cfg t ws = .ok t' ∧ Rep cfg t' (contents c ws) := by
  induction ws generalizing t c with
  | nil => exact ⟨t, rfl, h⟩
  | cons w ws ih =>
    obtain ⟨i, v⟩ := w
    obtain ⟨t', h1, h2⟩ := updateAndProve_rep h (ε := Unit) i v (hr (i, v) (by simp))
    obtain ⟨t'', h3, h4⟩ := ih h2 (fun w hw => hr w (by simp [hw]))
    exact ⟨t'', by simp [applyWrites, h1, h3], h4⟩

theorem applyWrites_built {cfg : Config L D} {t t' : STree D} {c : Nat → L} (h : Built cfg t c)
    (ws : List (Nat × L)) (hr : InRange cfg ws) (e : applyWrites cfg t ws = .ok t') :
    Built cfg t' (contents c ws) := by
  induction ws generalizing t c with
  | nil => simp [applyWrites] at e; subst e; exact h
  | cons w ws ih =>
    obtain ⟨i, v⟩ := w
    simp only [applyWrites] at e
    rcases hu : (updateAndProve cfg t i v : Outcome Unit _) with x | x | _
    · obtain ⟨t1, p⟩ := x
      rw [hu] at e
      exact ih (h.update (hr (i, v) (by simp)) hu) (fun w hw => hr w (by simp [hw])) e
    · rw [hu] at e; simp at e
    · rw [hu] at e; simp at e

theorem toyTree_built : Built toy toyTree (contents (fun _ => 0) [(2, 7), (0, 4), (2, 9)]) := by
  obtain ⟨t, h1⟩ : ∃ t, blank toy = .ok t := ⟨_, rfl⟩
  have hb : Built toy t (fun _ => 0) := Built.blank h1
  refine applyWrites_built hb _ (by unfold InRange; simp [toy]) ?_
  have : t = (match blank toy with | .ok t => t | _ => t) := by rw [h1]
  rw [this]; rfl

/-! ## C01 -/

/-- C01: every sequence of in-range writes on a blank tree succeeds, and the root is the Merkle root
of the last-write-wins contents. -/
theorem C01_root_of_contents (cfg : Config L D) (ws : List (Nat × L)) (hr : InRange cfg ws) :
    ∃ t₀ t, blank cfg = .ok t₀ ∧ applyWrites cfg t₀ ws = .ok t ∧
      (t.rootHash : Outcome Unit D) =
        .ok (merkleRoot cfg.leafHash cfg.h2 cfg.height (contents (fun _ => cfg.dflt) ws)) := by
  obtain ⟨t₀, h0, h0'⟩ := blank_rep cfg
  obtain ⟨t, h1, h2⟩ := applyWrites_rep h0' ws hr
  exact ⟨t₀, t, h0, h1, by rw [STree.rootHash, h2.root]; rfl⟩

/-- C01: the root is a function of the contents of the leaves only: two histories that leave the same
leaf in each position end with the same root. -/
theorem C01_history_independent (cfg : Config L D) (hH : 2 ≤ cfg.height) (t t' : STree D)
    (c c' : Nat → L) (h : Built cfg t c) (h' : Built cfg t' c')
    (e : ∀ i, i < 2 ^ (cfg.height - 1) → c i = c' i) :
    (t.rootHash : Outcome Unit D) = t'.rootHash ∧
    (t.rootHash : Outcome Unit D) = .ok (merkleRoot cfg.leafHash cfg.h2 cfg.height c) := by
  have h1 := (Built.rep hH h).congr e
  have h2 := Built.rep hH h'
  refine ⟨by rw [STree.rootHash, STree.rootHash, h1.root, h2.root], ?_⟩
  rw [STree.rootHash, (Built.rep hH h).root]; rfl

example : InRange toy [(2, 7), (0, 4), (2, 9)] ∧
    (toyTree.rootHash : Outcome Unit Nat) = .ok (100 * (100 * 5 + 1) + (100 * 10 + 1)) := by
  constructor
  · unfold InRange; simp [toy]
  · decide

/-! ## C02 -/

/-- C02: `new` on a non-empty in-range map succeeds, and the tree has the same root, the same
membership proof for every position and the same update proofs as the incrementally built one. -/
theorem C02_new_eq_incremental (cfg : Config L D) (hH : 2 ≤ cfg.height) (leaves : BMap L)
    (hs : leaves.keys.Pairwise (· < ·)) (hr : ∀ i ∈ leaves.keys, i < 2 ^ (cfg.height - 1))
    (hne : leaves ≠ []) :
    ∃ t t₀ t₁, MT.new cfg leaves = .ok t ∧ blank cfg = .ok t₀ ∧ applyWrites cfg t₀ leaves = .ok t₁ ∧
      (t.rootHash : Outcome Unit D) = t₁.rootHash ∧
      ∀ i, i < 2 ^ (cfg.height - 1) → genMembershipProof cfg t i = genMembershipProof cfg t₁ i ∧
        ∀ v, ∃ t' t₁' p, updateAndProve cfg t i v = (.ok (t', p) : Outcome Unit _) ∧
          updateAndProve cfg t₁ i v = (.ok (t₁', p) : Outcome Unit _) ∧
          (t'.rootHash : Outcome Unit D) = t₁'.rootHash := by
  have hnd : leaves.keys.Nodup := hs.imp (fun h => Nat.ne_of_lt h)
  obtain ⟨t, h1, h2⟩ := (new_spec cfg leaves hH hnd hr).2 hne
  obtain ⟨t₀, h3, h4⟩ := blank_rep cfg
  have hir : InRange cfg leaves := fun w hw => hr w.1 (List.mem_map.2 ⟨w, hw, rfl⟩)
  obtain ⟨t₁, h5, h6⟩ := applyWrites_rep h4 leaves hir
  have hcon : ∀ (l : BMap L) (c : Nat → L), l.keys.Nodup → ∀ i,
      contents c l i = (l.get i).getD (c i) := by
    intro l
    induction l with
    | nil => intro c _ i; rfl
    | cons e r ih =>
      intro c hn i
      obtain ⟨k, v⟩ := e
      simp only [BMap.keys, List.map_cons, List.nodup_cons] at hn
      have := ih (write c k v) hn.2 i
      simp only [contents, List.foldl_cons] at this ⊢
      rw [this]
      simp only [BMap.get]
      by_cases hik : i = k
      · subst hik
        have : BMap.get r i = none := by rw [BMap.get_eq_none_iff]; exact hn.1
        simp [this, write]
      · simp [hik, write]
  have h6' : Rep cfg t₁ (fun i => (leaves.get i).getD cfg.dflt) :=
    h6.congr (fun i _ => hcon leaves _ hnd i)
  refine ⟨t, t₀, t₁, h1, h3, h5, by rw [STree.rootHash, STree.rootHash, h2.root, h6'.root], ?_⟩
  intro i hi
  refine ⟨by rw [genMembershipProof_eq h2 i hi, genMembershipProof_eq h6' i hi], ?_⟩
  intro v
  obtain ⟨t', h7, h8⟩ := updateAndProve_rep h2 (ε := Unit) i v hi
  obtain ⟨t₁', h9, h10⟩ := updateAndProve_rep h6' (ε := Unit) i v hi
  exact ⟨t', t₁', _, h7, h9, by rw [STree.rootHash, STree.rootHash, h8.root, h10.root]⟩

/-- C02: `new` on the empty map is an error. -/
theorem C02_new_empty (cfg : Config L D) (hH : 2 ≤ cfg.height) : MT.new cfg [] = .err () :=
  (new_spec cfg [] hH (by simp [BMap.keys]) (by simp [BMap.keys])).1 rfl

example : 2 ≤ toy.height ∧ BMap.keys [(1, 5), (3, 6)] = [1, 3] ∧
    (∀ i ∈ [1, 3], i < 2 ^ (toy.height - 1)) ∧
    (∃ t, MT.new toy [(1, 5), (3, 6)] = .ok t ∧ t.root = some (100 * 106 + 107)) :=
  ⟨by decide, by decide, by decide, _, rfl, by decide⟩

/-! ## C03 -/

/-- C03: for every tree built through the API and every in-range position, membership-proof
generation succeeds, and the proof is accepted by both verifiers (in both build profiles) for the
leaf stored there. -/
theorem C03_membership_complete [DecidableEq D] (cfg : Config L D) (hH : 2 ≤ cfg.height)
    (h64 : cfg.height ≤ 64) (t : STree D) (c : Nat → L) (h : Built cfg t c) (i : Nat)
    (hi : i < 2 ^ (cfg.height - 1)) :
    ∃ path r, genMembershipProof cfg t i = .ok path ∧ (t.rootHash : Outcome Unit D) = .ok r ∧
      genProof cfg t i (c i) = .ok path ∧
      verify cfg path r (c i) = true ∧
      ∀ b, (verifyWithIndex b cfg path r (c i) i : Outcome Unit Bool) = .ok true := by
  have hR := Built.rep hH h
  have hp := genMembershipProof_eq hR i hi
  refine ⟨_, _, hp, by rw [STree.rootHash, hR.root]; rfl, ?_, ?_, ?_⟩
  · simp only [genProof, convertIndex_eq]
    have hn := hR.node (cfg.height - 1) 0 i (by omega) hi
    cases hg : t.tree.get (hidx (cfg.height - 1) i) with
    | none => simp only []; exact hp
    | some x =>
      rw [hg] at hn
      simp only [Option.getD_some, nodeAt, lf] at hn
      simp only [hn, ne_eq, not_true, if_false]; exact hp
  · rw [verify_eq]
    simp only [decide_eq_true_eq]
    refine ⟨pathFrom_length _ _ _ _ _, ?_, ?_⟩
    · intro e; have := congrArg List.length e; rw [pathFrom_length] at this; simp at this; omega
    · apply verifyLoop_of_chainRoot _ _ _ i
      have := chainRoot_pathFrom cfg.h2 (lf cfg c) (cfg.height - 1) 0 i
      rw [Nat.div_eq_of_lt hi, Nat.zero_add] at this
      exact this
  · intro b
    have hb : 2 ^ (cfg.height - 1) - 1 + i < U64 := by
      have : 2 ^ (cfg.height - 1) ≤ 2 ^ 63 := Nat.pow_le_pow_right (by omega) (by omega)
      unfold U64; omega
    rw [verifyWithIndex_eq b cfg _ _ _ i hb]
    congr 1
    simp only [decide_eq_true_eq]
    refine ⟨pathFrom_length _ _ _ _ _, ?_, hi, ?_⟩
    · intro e; have := congrArg List.length e; rw [pathFrom_length] at this; simp at this; omega
    · have := chainRoot_pathFrom cfg.h2 (lf cfg c) (cfg.height - 1) 0 i
      rw [Nat.div_eq_of_lt hi, Nat.zero_add] at this
      exact this

example : Built toy toyTree (contents (fun _ => 0) [(2, 7), (0, 4), (2, 9)]) ∧
    2 ≤ toy.height ∧ 3 < 2 ^ (toy.height - 1) ∧
    contents (fun _ => 0) [(2, 7), (0, 4), (2, 9)] 2 = 9 ∧
    genMembershipProof toy toyTree 2 = .ok [(10, 1), (501, 1001)] :=
  ⟨toyTree_built, by decide, by decide, by decide, by decide⟩

/-! ## C04 -/

/-- C04: an accepted indexed membership proof against the root of contents `c` is for a leaf with the
digest of `c i`, or path and true path exhibit a two-to-one collision. -/
theorem C04_indexed_sound [DecidableEq D] (cfg : Config L D) (c : Nat → L) (b : Build)
    (path : List (D × D)) (leaf : L) (i : Nat) (hi64 : i < U64)
    (hv : (verifyWithIndex b cfg path (merkleRoot cfg.leafHash cfg.h2 cfg.height c) leaf i
      : Outcome Unit Bool) = .ok true) :
    i < 2 ^ (cfg.height - 1) ∧
    (cfg.leafHash leaf = cfg.leafHash (c i) ∨
      PathCollision cfg.h2 path (truePath cfg.leafHash cfg.h2 cfg.height c i)) := by
  by_cases hb : 2 ^ (cfg.height - 1) - 1 + i < U64
  · rw [verifyWithIndex_eq b cfg _ _ _ i hb] at hv
    simp only [Outcome.ok.injEq, decide_eq_true_eq] at hv
    obtain ⟨h1, _, h2, h3⟩ := hv
    refine ⟨h2, ?_⟩
    have := chainRoot_sound cfg.h2 (fun i => cfg.leafHash (c i)) path (cfg.leafHash leaf) 0 i (by
      rw [h3, h1, Nat.div_eq_of_lt h2, Nat.zero_add]; rfl)
    rw [h1] at this
    rcases this with h | h
    · left; exact h.1
    · right; exact h
  · exact absurd hv (verifyWithIndex_overflow b cfg path _ leaf i (by omega) hi64)

/-- C04, two-proof form: two accepted indexed proofs for the same root and index are for leaves with
the same digest, or the two paths exhibit a collision. -/
theorem C04_two_paths [DecidableEq D] (cfg : Config L D) (b b' : Build) (root : D)
    (p q : List (D × D)) (x y : L) (i : Nat) (hi64 : i < U64)
    (hp : (verifyWithIndex b cfg p root x i : Outcome Unit Bool) = .ok true)
    (hq : (verifyWithIndex b' cfg q root y i : Outcome Unit Bool) = .ok true) :
    cfg.leafHash x = cfg.leafHash y ∨ PathCollision cfg.h2 p q := by
  by_cases hb : 2 ^ (cfg.height - 1) - 1 + i < U64
  swap
  · exact absurd hp (verifyWithIndex_overflow b cfg p _ x i (by omega) hi64)
  rw [verifyWithIndex_eq _ cfg _ _ _ i hb] at hp hq
  simp only [Outcome.ok.injEq, decide_eq_true_eq] at hp hq
  obtain ⟨p1, -, -, p4⟩ := hp
  obtain ⟨q1, -, -, q4⟩ := hq
  have key : ∀ (p q : List (D × D)) (x y : D) (j : Nat), p.length = q.length →
      chainRoot cfg.h2 p x j = some root → chainRoot cfg.h2 q y j = some root →
      x = y ∨ PathCollision cfg.h2 p q := by
    intro p
    induction p with
    | nil =>
      intro q x y j hl h1 h2
      have : q = [] := by simpa using hl.symm
      subst this
      simp only [chainRoot, Option.some.injEq] at h1 h2
      left; rw [h1, h2]
    | cons e p ih =>
      intro q x y j hl h1 h2
      cases q with
      | nil => simp at hl
      | cons e' q =>
        obtain ⟨l, r⟩ := e
        obtain ⟨l', r'⟩ := e'
        simp only [chainRoot] at h1 h2
        split_ifs at h1 with hc1
        split_ifs at h2 with hc2
        rcases ih q _ _ _ (by simpa using hl) h1 h2 with h | h
        · by_cases he : (l, r) = (l', r')
          · left
            simp only [Prod.mk.injEq] at he
            rw [← hc1, ← hc2, he.1, he.2]
          · right; exact PathCollision.head he h
        · right; exact h.cons
  exact key p q _ _ i (by rw [p1, q1]) p4 q4

-- an accepted proof exists (hypothesis of C04), and a collision-free accepted one forces the leaf
example : (verifyWithIndex .debug toy [(10, 1), (501, 1001)]
    (merkleRoot toy.leafHash toy.h2 toy.height (contents (fun _ => 0) [(2, 7), (0, 4), (2, 9)])) 9 2
    : Outcome Unit Bool) = .ok true := by decide

/-! ## C05 -/

/-- C05: an accepted un-indexed membership proof against the root of contents `c` is for a leaf whose
digest is stored at some in-range position, or a collision with the true path of some position shows. -/
theorem C05_membership_sound [DecidableEq D] (cfg : Config L D) (c : Nat → L)
    (path : List (D × D)) (leaf : L)
    (hv : verify cfg path (merkleRoot cfg.leafHash cfg.h2 cfg.height c) leaf = true) :
    ∃ i, i < 2 ^ (cfg.height - 1) ∧ (cfg.leafHash leaf = cfg.leafHash (c i) ∨
      PathCollision cfg.h2 path (truePath cfg.leafHash cfg.h2 cfg.height c i)) := by
  rw [verify_eq] at hv
  simp only [decide_eq_true_eq] at hv
  obtain ⟨h1, _, h3⟩ := hv
  obtain ⟨j, hj, h⟩ := verifyLoop_sound cfg.h2 (fun i => cfg.leafHash (c i)) path
    (cfg.leafHash leaf) 0 0 (by rw [h3, h1, Nat.zero_add]; rfl)
  refine ⟨j, ?_, ?_⟩
  · rw [← h1]; exact (Nat.div_eq_zero_iff_lt (by positivity)).1 hj
  · rw [h1] at h; exact h

example : verify toy [(10, 1), (501, 1001)]
    (merkleRoot toy.leafHash toy.h2 toy.height (contents (fun _ => 0) [(2, 7), (0, 4), (2, 9)])) 9 = true := by
  decide

/-! ## C06 -/

/-- C06: `update_and_prove` at an in-range position succeeds on every tree built through the API and
its proof is accepted for the roots before and after, the leaf before and the new leaf. -/
theorem C06_update_complete [DecidableEq D] (cfg : Config L D) (hH : 2 ≤ cfg.height)
    (h64 : cfg.height ≤ 64) (t : STree D) (c : Nat → L) (h : Built cfg t c) (i : Nat) (v : L)
    (hi : i < 2 ^ (cfg.height - 1)) :
    ∃ t' p r r', updateAndProve cfg t i v = (.ok (t', p) : Outcome Unit _) ∧
      (t.rootHash : Outcome Unit D) = .ok r ∧ (t'.rootHash : Outcome Unit D) = .ok r' ∧
      ∀ b, (verifyUpdate b cfg p r r' (c i) v i : Outcome Unit Bool) = .ok true := by
  have hR := Built.rep hH h
  obtain ⟨t', h1, h2⟩ := updateAndProve_rep hR (ε := Unit) i v hi
  refine ⟨t', _, _, _, h1, by rw [STree.rootHash, hR.root]; rfl, by rw [STree.rootHash, h2.root]; rfl, ?_⟩
  intro b
  have hb : 2 ^ (cfg.height - 1) - 1 + i < U64 := by
    have : 2 ^ (cfg.height - 1) ≤ 2 ^ 63 := Nat.pow_le_pow_right (by omega) (by omega)
    unfold U64; omega
  rw [verifyUpdate_eq b cfg _ _ _ _ _ i hb]
  congr 1
  simp only [decide_eq_true_eq]
  refine ⟨sibsFrom_length _ _ _ _ _, hi, ?_, ?_⟩
  · have := climb_sibsFrom cfg.h2 (lf cfg c) (cfg.height - 1) 0 i
    rw [Nat.div_eq_of_lt hi, Nat.zero_add] at this
    exact this
  · have := climb_sibsFrom_write cfg.h2 cfg.leafHash c i v (cfg.height - 1) 0
    simp only [pow_zero, Nat.div_one, Nat.zero_add, Nat.div_eq_of_lt hi] at this
    rw [← this]; simp [nodeAt, write]

example : ∃ t' p, updateAndProve toy toyTree 1 8 = (.ok (t', p) : Outcome Unit _) ∧
    p = [5, 1001] ∧ t'.root = some (100 * 509 + 1001) := ⟨_, _, rfl, by decide, by decide⟩

/-! ## C07 -/

/-- C07: an accepted update proof whose old root is the root of contents `c` replaces exactly
position `i`: the new root is the root of `c` with `new` at `i`, and the claimed old leaf has the digest
of `c i` — or the old path exhibits a collision. -/
theorem C07_update_sound [DecidableEq D] (cfg : Config L D) (hH : cfg.height ≤ 63) (c : Nat → L)
    (b : Build) (sibs : List D) (newRoot : D) (old new : L) (i : Nat) (hi64 : i < U64)
    (hv : (verifyUpdate b cfg sibs (merkleRoot cfg.leafHash cfg.h2 cfg.height c) newRoot old new i
      : Outcome Unit Bool) = .ok true) :
    i < 2 ^ (cfg.height - 1) ∧
    ((cfg.leafHash old = cfg.leafHash (c i) ∧
      newRoot = merkleRoot cfg.leafHash cfg.h2 cfg.height (write c i new)) ∨
    PathCollision cfg.h2 (climbPairs cfg.h2 sibs (cfg.leafHash old) i)
      (truePath cfg.leafHash cfg.h2 cfg.height c i)) := by
  by_cases hb : 2 ^ (cfg.height - 1) - 1 + i < U64
  · rw [verifyUpdate_eq b cfg _ _ _ _ _ i hb] at hv
    simp only [Outcome.ok.injEq, decide_eq_true_eq] at hv
    obtain ⟨h1, h2, h3, h4⟩ := hv
    refine ⟨h2, ?_⟩
    rcases climb_update cfg.h2 cfg.leafHash _ c sibs i old new h1 h2 h3 with ⟨h5, h6⟩ | h5
    · left; exact ⟨h5, by rw [← h4, h6]; rfl⟩
    · right; exact h5
  · exact absurd hv (verifyUpdate_overflow b cfg sibs _ _ old new i hH (by omega) hi64)

example : (verifyUpdate .release toy [5, 1001]
    (merkleRoot toy.leafHash toy.h2 toy.height (contents (fun _ => 0) [(2, 7), (0, 4), (2, 9)]))
    (100 * 509 + 1001) 0 8 1 : Outcome Unit Bool) = .ok true := by decide

/-! ## C08 -/

/-- C08: in neither build profile does a verifier accept an index at or beyond the number of leaves,
for any `u64` index, including those whose index arithmetic overflows. -/
theorem C08_out_of_range_rejected [DecidableEq D] (cfg : Config L D) (hH : cfg.height ≤ 63)
    (b : Build) (i : Nat) (hi : 2 ^ (cfg.height - 1) ≤ i) (hi64 : i < U64) :
    (∀ (path : List (D × D)) (root : D) (leaf : L),
      (verifyWithIndex b cfg path root leaf i : Outcome Unit Bool) ≠ .ok true) ∧
    (∀ (sibs : List D) (r r' : D) (x y : L),
      (verifyUpdate b cfg sibs r r' x y i : Outcome Unit Bool) ≠ .ok true) := by
  by_cases hb : 2 ^ (cfg.height - 1) - 1 + i < U64
  · constructor
    · intro path root leaf
      rw [verifyWithIndex_eq b cfg _ _ _ i hb]; simp; intro _ _ h; omega
    · intro sibs r r' x y
      rw [verifyUpdate_eq b cfg _ _ _ _ _ i hb]; simp; intro _ h; omega
  · exact ⟨fun path root leaf => verifyWithIndex_overflow b cfg path _ leaf i (by omega) hi64,
      fun sibs r r' x y => verifyUpdate_overflow b cfg sibs _ _ x y i hH (by omega) hi64⟩

/-- C08: `verify_with_index` never panics in release; in debug it panics only when
`last_level_index + index` overflows `u64`. -/
theorem C08_panics [DecidableEq D] (cfg : Config L D) (i : Nat) (path : List (D × D)) (root : D)
    (leaf : L) :
    (verifyWithIndex .release cfg path root leaf i : Outcome Unit Bool) ≠ .panic ∧
    ((verifyWithIndex .debug cfg path root leaf i : Outcome Unit Bool) = .panic →
      U64 ≤ 2 ^ (cfg.height - 1) - 1 + i) := by
  constructor
  · have hloop : ∀ (path : List (D × D)) (prev : D) (k fp off : Nat),
        ∃ x, (verifyIndexLoop .release cfg.h2 path prev k fp off : Outcome Unit _) = .ok x := by
      intro path
      induction path with
      | nil => intros; exact ⟨_, rfl⟩
      | cons e rest ih =>
        intro prev k fp off
        obtain ⟨l, r⟩ := e
        obtain ⟨p, hp⟩ : ∃ p, (subU64 .release k 1 : Outcome Unit Nat) = .ok p := by
          simp only [subU64]; split <;> exact ⟨_, rfl⟩
        simp only [verifyIndexLoop, hp, Outcome.bind_ok]
        split_ifs
        · exact ⟨_, rfl⟩
        · exact ih _ _ _ _
        · exact ⟨_, rfl⟩
        · exact ih _ _ _ _
    obtain ⟨k, hk⟩ : ∃ k, (addU64 .release (2 ^ (cfg.height - 1) - 1) i : Outcome Unit Nat) = .ok k := by
      simp only [addU64]; split <;> exact ⟨_, rfl⟩
    unfold verifyWithIndex
    split_ifs
    · simp
    · simp only [hk, Outcome.bind_ok]
      cases path with
      | nil => simp
      | cons e rest =>
        obtain ⟨l, r⟩ := e
        obtain ⟨x, hx⟩ := hloop ((l, r) :: rest) (cfg.leafHash leaf) k (2 ^ (cfg.height - 1) - 1) 1
        dsimp only
        rw [hx]
        simp only [Outcome.bind_ok]
        split_ifs <;> try simp
        rcases x with _ | ⟨a, b⟩
        · simp
        · dsimp only; split_ifs <;> simp
  · intro h
    by_contra hb
    rw [verifyWithIndex_eq .debug cfg _ _ _ i (by omega)] at h
    simp at h

example : toy.height ≤ 63 ∧ 2 ^ (toy.height - 1) ≤ U64 - 1 ∧ U64 - 1 < U64 := by decide
-- the overflowing index really wraps to a small node index in release and panics in debug
example : (addU64 .release (2 ^ (toy.height - 1) - 1) (U64 - 1) : Outcome Unit Nat) = .ok 2 ∧
    (addU64 .debug (2 ^ (toy.height - 1) - 1) (U64 - 1) : Outcome Unit Nat) = .panic := by decide

/-! ## C09 -/

/-- C09: `validate` answers `Ok(true)` on every tree built through the API. -/
theorem C09_validate [DecidableEq D] (cfg : Config L D) (hH : 2 ≤ cfg.height) (t : STree D)
    (c : Nat → L) (h : Built cfg t c) : validate cfg t = .ok true :=
  validate_true (Built.rep hH h) hH

example : Built toy toyTree (contents (fun _ => 0) [(2, 7), (0, 4), (2, 9)]) ∧ 2 ≤ toy.height ∧
    validate toy { toyTree with tree := toyTree.tree.insert 1 0 } = .ok false :=
  ⟨toyTree_built, by decide, by decide⟩

/-- C09 limit: `validate` never looks at the cached root, so a tree with a wrong `root` field is
still "valid". -/
theorem C09_validate_ignores_root [DecidableEq D] (cfg : Config L D) (t : STree D) (r : Option D) :
    validate cfg { t with root := r } = validate cfg t := by
  have h1 : ∀ (level : Nat) (mids : List Nat),
      (validateLevel cfg { t with root := r } level mids : Outcome Unit Bool) =
      validateLevel cfg t level mids := by
    intro level mids
    induction mids with
    | nil => rfl
    | cons x rest ih => simp only [validateLevel, ih]
  have h2 : ∀ (n level : Nat) (mids : List Nat),
      (validateLoop cfg { t with root := r } n level mids : Outcome Unit Bool) =
      validateLoop cfg t n level mids := by
    intro n
    induction n with
    | zero => intros; rfl
    | succ n ih => intro level mids; simp only [validateLoop, h1, ih]
  simp only [validate, h2]

/-! ## C10 -/

/-- C10: an in-range write changes exactly the written position. -/
theorem C10_write_frame (cfg : Config L D) (hH : 2 ≤ cfg.height) (t t' : STree D) (c : Nat → L)
    (h : Built cfg t c) (i : Nat) (v : L) (p : List D) (hi : i < 2 ^ (cfg.height - 1))
    (hu : updateAndProve cfg t i v = (.ok (t', p) : Outcome Unit _)) :
    (t'.rootHash : Outcome Unit D) =
      .ok (merkleRoot cfg.leafHash cfg.h2 cfg.height (fun j => if j = i then v else c j)) := by
  have := Built.rep hH (h.update hi hu)
  rw [STree.rootHash, this.root]; rfl

/-- C10: `update_and_prove` never refuses an index on any tree built through the API, and the proof it
returns beyond the capacity is rejected by the verifier. -/
theorem C10_write_never_refused [DecidableEq D] (cfg : Config L D) (hH : 2 ≤ cfg.height)
    (h63 : cfg.height ≤ 63) (t : STree D) (c : Nat → L) (h : Built cfg t c) (i : Nat) (v : L) :
    ∃ t' p, updateAndProve cfg t i v = (.ok (t', p) : Outcome Unit _) ∧
      (2 ^ (cfg.height - 1) ≤ i → i < U64 → ∀ b r r' old,
        (verifyUpdate b cfg p r r' old v i : Outcome Unit Bool) ≠ .ok true) := by
  obtain ⟨t', p, h1, _, _⟩ := updateAndProve_total (ε := Unit) (Built.rep hH h).es i v
  exact ⟨t', p, h1, fun hi hi64 b r r' old =>
    (C08_out_of_range_rejected cfg h63 b i hi hi64).2 p r r' old v⟩

/-- C10: what an out-of-range write can do. If the root after a write at any index `i` is the root of
*some* contents `c'`, then `c'` holds (a leaf with the digest of) the written leaf at position
`i mod capacity`, and the returned siblings are the true siblings of that position, or the two paths
exhibit a collision of the node hash. So a write beyond the capacity is never without effect: it damages
the tree, or overwrites the position `i mod capacity`. -/
theorem C10_out_of_range (cfg : Config L D) (hH : 2 ≤ cfg.height) (t : STree D) (c : Nat → L)
    (h : Built cfg t c) (i : Nat) (v : L) :
    ∃ t' p r, updateAndProve cfg t i v = (.ok (t', p) : Outcome Unit _) ∧ t'.root = some r ∧
      p.length = cfg.height - 1 ∧
      ∀ c' : Nat → L, r = merkleRoot cfg.leafHash cfg.h2 cfg.height c' →
        let j := i % 2 ^ (cfg.height - 1)
        (cfg.leafHash (c' j) = cfg.leafHash v ∧
          climbPairs cfg.h2 p (cfg.leafHash v) j = truePath cfg.leafHash cfg.h2 cfg.height c' j) ∨
        PathCollision cfg.h2 (climbPairs cfg.h2 p (cfg.leafHash v) j)
          (truePath cfg.leafHash cfg.h2 cfg.height c' j) := by
  obtain ⟨t', p, h1, hl, hr⟩ := updateAndProve_total (ε := Unit) (Built.rep hH h).es i v
  refine ⟨t', p, _, h1, hr, hl, fun c' he => ?_⟩
  rw [← climb_mod, hl] at he
  have hj : i % 2 ^ (cfg.height - 1) < 2 ^ (cfg.height - 1) := Nat.mod_lt _ (by positivity)
  have := climb_sound cfg.h2 (fun k => cfg.leafHash (c' k)) p (cfg.leafHash v) 0
    (i % 2 ^ (cfg.height - 1)) (by
      rw [he, hl, Nat.div_eq_of_lt hj, Nat.zero_add]; rfl)
  rw [hl] at this
  rcases this with ⟨e1, e2⟩ | e
  · exact .inl ⟨e1.symm, e2⟩
  · exact .inr e

/-- C10 counterexample: writing beyond the capacity returns `Ok`, and the resulting root is not the
root of the tree's contents; afterwards a membership proof for an existing leaf no longer verifies. -/
theorem C10_out_of_range_corrupts :
    ∃ (t t' : STree Nat) (c : Nat → Nat) (p : List Nat), Built toy t c ∧
      updateAndProve toy t 4 5 = (.ok (t', p) : Outcome Unit _) ∧
      t'.root ≠ some (merkleRoot toy.leafHash toy.h2 toy.height c) ∧
      ∃ path r, genMembershipProof toy t' 2 = .ok path ∧ t'.root = some r ∧
        (verifyWithIndex .debug toy path r (c 2) 2 : Outcome Unit Bool) = .ok false := by
  obtain ⟨x, h1⟩ : ∃ x, updateAndProve toy toyTree 4 5 = (.ok x : Outcome Unit _) := ⟨_, rfl⟩
  refine ⟨toyTree, x.1, _, x.2, toyTree_built, h1, ?_, ?_⟩
  · have : x = (match updateAndProve toy toyTree 4 5 with
      | (.ok x : Outcome Unit _) => x | _ => (toyTree, [])) := by rw [h1]
    rw [this]; decide
  · have : x = (match updateAndProve toy toyTree 4 5 with
      | (.ok x : Outcome Unit _) => x | _ => (toyTree, [])) := by rw [h1]
    rw [this]
    exact ⟨_, _, rfl, rfl, by decide⟩

/-! ## C11 -/

/-- C11: on positions that have been written, `generate_proof` succeeds exactly for leaves with the
digest of the stored leaf. Every tree and position: `C11_exact`. -/
theorem C11_wrong_leaf [DecidableEq D] (cfg : Config L D) (hH : 2 ≤ cfg.height)
    (ws : List (Nat × L)) (hr : InRange cfg ws) (t₀ t : STree D) (h0 : blank cfg = .ok t₀)
    (h : applyWrites cfg t₀ ws = .ok t) (i : Nat) (hi : i ∈ ws.map (·.1)) (leaf : L) :
    (∃ p, genProof cfg t i leaf = .ok p) ↔
      cfg.leafHash leaf = cfg.leafHash (contents (fun _ => cfg.dflt) ws i) := by
  have hstored : ∀ (ws : List (Nat × L)) (t₀ t : STree D) (c : Nat → L), Rep cfg t₀ c →
      InRange cfg ws → applyWrites cfg t₀ ws = .ok t → ∀ i, i < 2 ^ (cfg.height - 1) →
      (i ∈ ws.map (·.1) ∨ (t₀.tree.get (hidx (cfg.height - 1) i)).isSome) →
      (t.tree.get (hidx (cfg.height - 1) i)).isSome := by
    intro ws
    induction ws with
    | nil =>
      intro t₀ t c _ _ he i _ h
      simp [applyWrites] at he; subst he; simpa using h
    | cons w ws ih =>
      intro t₀ t c hR hr he i hi h
      obtain ⟨k, v⟩ := w
      have hk : k < 2 ^ (cfg.height - 1) := hr (k, v) (by simp)
      obtain ⟨t1, h1, h2⟩ := updateAndProve_rep hR (ε := Unit) k v hk
      simp only [applyWrites, h1, Outcome.bind_ok] at he
      apply ih t1 t _ h2 (fun w hw => hr w (by simp [hw])) he i hi
      have := updateAndProve_stored hR hH k v _ hk h1 i hi
      by_cases hik : i = k
      · right; rw [this, if_pos hik]; rfl
      · rw [if_neg hik] at this
        rcases h with h | h
        · left; simpa [hik] using h
        · right; rw [this]; exact h
  obtain ⟨t₀', h1, h2⟩ := blank_rep cfg
  rw [h0] at h1; cases h1
  obtain ⟨t', h3, h4⟩ := applyWrites_rep h2 ws hr
  rw [h] at h3; cases h3
  have hilt : i < 2 ^ (cfg.height - 1) := by
    obtain ⟨w, hw, rfl⟩ := List.mem_map.1 hi; exact hr w hw
  have hs := hstored ws t₀ t _ h2 hr h i hilt (Or.inl hi)
  obtain ⟨x, hx⟩ := Option.isSome_iff_exists.1 hs
  have hn := h4.node (cfg.height - 1) 0 i (by omega) hilt
  rw [hx] at hn
  simp only [Option.getD_some, nodeAt, lf] at hn
  simp only [genProof, convertIndex_eq, hx]
  by_cases he : cfg.leafHash leaf = x
  · simp [he, genMembershipProof_eq h4 i hilt, hn]
  · rw [if_pos he]
    simp only [reduceCtorEq, exists_false, false_iff]
    rw [← hn]; exact he

/-- C11 on positions never written: there `generate_proof` returns `Ok` for
*every* leaf (and the proof it returns does not verify for a leaf with another digest). -/
theorem C11_unwritten_position [DecidableEq D] (cfg : Config L D) (i : Nat)
    (hi : i < 2 ^ (cfg.height - 1)) (leaf : L) (t : STree D) (h : blank cfg = .ok t) :
    ∃ p, genProof cfg t i leaf = .ok p := by
  obtain ⟨t₀, h1, h2⟩ := blank_rep cfg
  rw [h] at h1; cases h1
  have ht : t.tree = [] := by
    simp only [blank, genEmptyHashes_get cfg cfg.height (cfg.height - 1) (by omega),
      Outcome.unwrap_some, Outcome.bind_ok] at h
    cases h; rfl
  have hg := genMembershipProof_eq h2 i hi
  exact ⟨_, by simp only [genProof, ht, BMap.get]; exact hg⟩

example : (∃ p, genProof toy toyTree 1 77 = .ok p ∧
    (verifyWithIndex .debug toy p (100 * 501 + 1001) 77 1 : Outcome Unit Bool) = .ok false) ∧
    genProof toy toyTree 2 77 = .err () := ⟨⟨_, rfl, by decide⟩, by decide⟩

end PF.Props
