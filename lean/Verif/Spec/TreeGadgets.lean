import Verif.Model.TreeGadgets
import Verif.Spec.TreeUpdates

/-!
# Specification of paths in dense Merkle trees
-/

namespace PF.Spec
open PF.TreeG
variable {L : Type} {p : Nat}

/-- The path variable has the shape of a path in a tree of `height` levels: one bit and one sibling
for each of the `height - 1` levels (the last bit and the last sibling are stored apart). -/
structure Fits (v : PathVar p) (height : Nat) : Prop where
  bits : v.path.length + 2 = height
  sibs : v.authPath.length + 2 = height

/-- The position a path variable points at: its direction bits, root first, read as a binary number. -/
def position (v : PathVar p) : Nat :=
  (v.path ++ [v.leafIsRight]).foldl (fun n b => 2 * n + b.toNat) 0

/-- The sibling digests of a path variable, from the leaf up. -/
def sibsUp (v : PathVar p) : List (ZMod p) := v.leafSibling :: v.authPath.reverse

/-- The true path of leaf `i` of the dense tree of `height` levels with contents `c`: what
`MerkleTree::generate_proof(i)` returns. -/
def truePathTo (cfg : TreeG.Config L p) (height : Nat) (c : Nat → L) (i : Nat) : Path p :=
  let sibs := trueSibs cfg.leafHash cfg.h2 height c i
  { leafSibling := sibs.headD 0, authPath := sibs.tail.reverse, leafIndex := i }

/-- The path `v` shown for `leaf` and the true path of its position in `c` contain two different pairs
of digests with the same compression hash. -/
def ShowsCollision (cfg : TreeG.Config L p) (height : Nat) (c : Nat → L) (v : PathVar p) (leaf : L) :
    Prop :=
  PathCollision cfg.h2 (climbPairs cfg.h2 (sibsUp v) (cfg.leafHash leaf) (position v))
    (truePath cfg.leafHash cfg.h2 height c (position v))

end PF.Spec
