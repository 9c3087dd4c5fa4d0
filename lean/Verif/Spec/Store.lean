import Verif.Basic
import Verif.Spec.Merkle

/-!
# Specification of what a node store commits to

A sparse tree is stored as a partial map from heap indices (root 0, children of `k` are `2k+1`, `2k+2`)
to digests; a node that is not stored stands for an empty subtree.
-/

namespace PF.Spec
variable {L D : Type}

/-- Heap index of node `j` of level `ℓ` (0 = leaves) in a tree of `height` levels. -/
def heapIndex (height ℓ j : Nat) : Nat := 2 ^ (height - 1 - ℓ) - 1 + j

/-- Digest of node `j` of level `ℓ` shown by the store: the stored one, or that of an empty subtree. -/
def shown (leafHash : L → D) (h2 : D → D → D) (dflt : L) (height : Nat) (m : BMap D) (ℓ j : Nat) : D :=
  (m.get (heapIndex height ℓ j)).getD (nodeAt h2 (fun _ => leafHash dflt) ℓ 0)

/-- Leaf `i` is stored. -/
def LeafStored (height : Nat) (m : BMap D) (i : Nat) : Prop :=
  i < 2 ^ (height - 1) ∧ (m.get (heapIndex height 0 i)).isSome

/-- Every ancestor of every stored leaf is stored, with the hash of the digests of its two children. -/
def AncestorsConsistent (leafHash : L → D) (h2 : D → D → D) (dflt : L) (height : Nat) (m : BMap D) :
    Prop :=
  ∀ i ℓ, LeafStored height m i → ℓ + 1 ≤ height - 1 →
    m.get (heapIndex height (ℓ + 1) (i / 2 ^ (ℓ + 1))) =
      some (h2 (shown leafHash h2 dflt height m ℓ (2 * (i / 2 ^ (ℓ + 1))))
        (shown leafHash h2 dflt height m ℓ (2 * (i / 2 ^ (ℓ + 1)) + 1)))

/-- No inner node is stored without a stored leaf below it. -/
def NoStrayNodes (height : Nat) (m : BMap D) : Prop :=
  ∀ ℓ j, ℓ + 1 ≤ height - 1 → j < 2 ^ (height - 1 - (ℓ + 1)) →
    (m.get (heapIndex height (ℓ + 1) j)).isSome → ∃ i, LeafStored height m i ∧ i / 2 ^ (ℓ + 1) = j

end PF.Spec
