import Verif.Spec.Merkle
import Verif.Spec.Tx

/-!
# Specification: sequences of tree updates

A sequence of updates replaces, at given positions, an old leaf by a new one.
-/

namespace PF.Spec

/-- Replace `old` by `new` at position `idx`; `sibs` are the sibling digests shown for it. -/
structure Upd (L D : Type) where
  idx : Nat
  old : L
  new : L
  sibs : List D

variable {L D : Type} {p : Nat}

/-- Contents after the updates. -/
def applied (c : Nat → L) (us : List (Upd L D)) : Nat → L :=
  us.foldl (fun c u => write c u.idx u.new) c

/-- Each update finds its old leaf where it claims it is. -/
def Legal (c : Nat → L) (us : List (Upd L D)) : Prop :=
  ∀ (k : Nat) (u : Upd L D), us[k]? = some u → applied c (us.take k) u.idx = u.old

/-- All pairs of digests hashed when following the shown and the true paths of the updates. -/
def hashedPairs (lh : L → D) (h2 : D → D → D) (height : Nat) :
    (Nat → L) → List (Upd L D) → List (D × D)
  | _, [] => []
  | c, u :: us => climbPairs h2 u.sibs (lh u.old) u.idx ++ truePath lh h2 height c u.idx ++
      hashedPairs lh h2 height (write c u.idx u.new) us

/-- All leaves hashed: the claimed old leaves and the leaves really there. -/
def hashedLeaves : (Nat → L) → List (Upd L D) → List L
  | _, [] => []
  | c, u :: us => u.old :: c u.idx :: hashedLeaves (write c u.idx u.new) us

/-- The updates exhibit a collision: two different leaf encodings with the same sponge hash, or two
different pairs of digests with the same compression hash, both among the values hashed above. -/
def Collision (hs : Hashes p) (enc : L → List (ZMod p)) (height : Nat) (c : Nat → L)
    (us : List (Upd L (ZMod p))) : Prop :=
  (∃ a ∈ hashedLeaves c us, ∃ b ∈ hashedLeaves c us, Collides hs.crh (enc a) (enc b)) ∨
  (∃ x ∈ hashedPairs (fun l => hs.crh (enc l)) hs.h2 height c us,
    ∃ y ∈ hashedPairs (fun l => hs.crh (enc l)) hs.h2 height c us,
      x ≠ y ∧ hs.h2 x.1 x.2 = hs.h2 y.1 y.2)

/-- A collision that can be read off two trees at one common position: two different leaf encodings with the
same sponge hash, or a collision of the compression hash on the true paths of that position. -/
def RootClash (hs : Hashes p) (enc : L → List (ZMod p)) (height : Nat) (c d : Nat → L) : Prop :=
  ∃ j, j < 2 ^ (height - 1) ∧ (Collides hs.crh (enc (c j)) (enc (d j)) ∨
    PathCollision hs.h2 (truePath (fun l => hs.crh (enc l)) hs.h2 height c j)
      (truePath (fun l => hs.crh (enc l)) hs.h2 height d j))

/-- `r` is the root of the tree with contents `c`. -/
def RootOf (hs : Hashes p) (enc : L → List (ZMod p)) (height : Nat) (c : Nat → L) (r : ZMod p) : Prop :=
  r = merkleRoot (fun l => hs.crh (enc l)) hs.h2 height c

/-- Sibling digests of leaf `i` of the tree with contents `c`, from the leaves up. -/
def trueSibs (lh : L → D) (h2 : D → D → D) (height : Nat) (c : Nat → L) (i : Nat) : List D :=
  (List.range (height - 1)).map fun ℓ =>
    nodeAt h2 (fun k => lh (c k)) ℓ (if i / 2 ^ ℓ % 2 = 0 then i / 2 ^ ℓ + 1 else i / 2 ^ ℓ - 1)

/-- Each update shows the true siblings of its position. -/
def Honest (lh : L → D) (h2 : D → D → D) (height : Nat) : (Nat → L) → List (Upd L D) → Prop
  | _, [] => True
  | c, u :: us => u.sibs = trueSibs lh h2 height c u.idx ∧ Honest lh h2 height (write c u.idx u.new) us

end PF.Spec
