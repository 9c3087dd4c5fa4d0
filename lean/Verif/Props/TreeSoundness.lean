import Verif.Props.CasesTrees

/-! # C04, C05, C07 for trees

`Props/SparseMT.lean` states soundness of the three verifiers against the Merkle root of an array of leaves.
Here the same is said of the root a tree really has after any history of calls (`Built`), whoever supplies the
proof. -/

set_option linter.unusedSectionVars false

namespace PF.Props
open PF PF.MT PF.Spec

variable {L D : Type} [DecidableEq D]

theorem root_of_built (cfg : Config L D) (hH : 2 ≤ cfg.height) (t : STree D) (c : Nat → L)
    (h : Built cfg t c) (r : D) (hr : (t.rootHash : Outcome Unit D) = .ok r) :
    r = merkleRoot cfg.leafHash cfg.h2 cfg.height c := by
  have := (C01_history_independent cfg hH t t c c h h (fun _ _ => rfl)).2
  rw [hr] at this
  exact Outcome.ok.inj this

/-- **C04** for trees: whatever proof is presented, if `verify_with_index` accepts `leaf` at `i` against the root
of a tree built through the API, then `i` is a position of the tree and `leaf` has the digest of the leaf the
tree holds there, or the presented and the true path exhibit a collision. -/
theorem C04_tree (cfg : Config L D) (hH : 2 ≤ cfg.height) (t : STree D) (c : Nat → L)
    (h : Built cfg t c) (r : D) (hr : (t.rootHash : Outcome Unit D) = .ok r) (b : Build)
    (path : List (D × D)) (leaf : L) (i : Nat) (hi64 : i < U64)
    (hv : (verifyWithIndex b cfg path r leaf i : Outcome Unit Bool) = .ok true) :
    i < 2 ^ (cfg.height - 1) ∧
    (cfg.leafHash leaf = cfg.leafHash (c i) ∨
      PathCollision cfg.h2 path (truePath cfg.leafHash cfg.h2 cfg.height c i)) := by
  rw [root_of_built cfg hH t c h r hr] at hv
  exact C04_indexed_sound cfg c b path leaf i hi64 hv

/-- **C05** for trees: whatever proof is presented, if `verify` accepts `leaf` against the root of a tree built
through the API, then some position of the tree holds a leaf with that digest, or the presented path and the true
path of some position exhibit a collision. -/
theorem C05_tree (cfg : Config L D) (hH : 2 ≤ cfg.height) (t : STree D) (c : Nat → L)
    (h : Built cfg t c) (r : D) (hr : (t.rootHash : Outcome Unit D) = .ok r)
    (path : List (D × D)) (leaf : L) (hv : verify cfg path r leaf = true) :
    ∃ i, i < 2 ^ (cfg.height - 1) ∧ (cfg.leafHash leaf = cfg.leafHash (c i) ∨
      PathCollision cfg.h2 path (truePath cfg.leafHash cfg.h2 cfg.height c i)) := by
  rw [root_of_built cfg hH t c h r hr] at hv
  exact C05_membership_sound cfg c path leaf hv

/-- **C07** for trees: whatever siblings are presented, if the update verifier accepts against the root of a tree
built through the API, then `update_and_prove` with the same index and leaf on that tree ends with exactly the
accepted new root, and the claimed old leaf has the digest of the one held there; or the presented and the true
path exhibit a collision. -/
theorem C07_tree (cfg : Config L D) (hH : 2 ≤ cfg.height) (h63 : cfg.height ≤ 63) (t : STree D) (c : Nat → L)
    (h : Built cfg t c) (r : D) (hr : (t.rootHash : Outcome Unit D) = .ok r) (b : Build)
    (sibs : List D) (newRoot : D) (old new : L) (i : Nat) (hi64 : i < U64)
    (hv : (verifyUpdate b cfg sibs r newRoot old new i : Outcome Unit Bool) = .ok true) :
    i < 2 ^ (cfg.height - 1) ∧
    ((cfg.leafHash old = cfg.leafHash (c i) ∧
      ∃ t' p, updateAndProve cfg t i new = (.ok (t', p) : Outcome Unit _) ∧
        (t'.rootHash : Outcome Unit D) = .ok newRoot) ∨
    PathCollision cfg.h2 (climbPairs cfg.h2 sibs (cfg.leafHash old) i)
      (truePath cfg.leafHash cfg.h2 cfg.height c i)) := by
  rw [root_of_built cfg hH t c h r hr] at hv
  obtain ⟨hi, hs⟩ := C07_update_sound cfg h63 c b sibs newRoot old new i hi64 hv
  refine ⟨hi, hs.imp_left ?_⟩
  rintro ⟨ho, hn⟩
  obtain ⟨t', p, _, _, hu, _, _, _⟩ := C06_update_complete cfg hH (by omega) t c h i new hi
  exact ⟨ho, t', p, hu, by rw [C10_write_frame cfg hH t t' c h i new p hi hu, hn]; rfl⟩

/-- The toy tree: position 2 was written twice, last with 9; a presented path for 9 is accepted, and 9 it is. -/
example := C04_tree toy (by decide) toyTree _ toyTree_built _ rfl .debug [(10, 1), (501, 1001)] 9 2 (by decide)
    (by decide)

example := C05_tree toy (by decide) toyTree _ toyTree_built _ rfl [(10, 1), (501, 1001)] 9 (by decide)

/-- Writing 8 at the unwritten position 1 of the toy tree, with siblings shown by somebody else. -/
example := C07_tree toy (by decide) (by decide) toyTree _ toyTree_built _ rfl .release [5, 1001]
  (100 * 509 + 1001) 0 8 1 (by decide) (by decide)

end PF.Props
