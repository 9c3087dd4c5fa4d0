/-!
# What a sparse tree stores

Nodes of a perfect binary tree are numbered from the root (0), level by level, from left to right: node
`j` of the level with `2^d` nodes has number `2^d - 1 + j`.
-/
namespace PF.Spec

/-- `k` is the number of a node on the path from leaf `i` to the root of a tree of `height` levels; the
path has one node per level, `ℓ = 0` is the leaf. -/
def OnPath (height i k : Nat) : Prop := ∃ ℓ, ℓ < height ∧ k = 2 ^ (height - 1 - ℓ) - 1 + i / 2 ^ ℓ

/-- The numbers in `keys` are exactly those of the nodes on the paths of the leaves in `W`, in increasing
order, each once. -/
def PathsOf (height : Nat) (keys : List Nat) (W : Nat → Prop) : Prop :=
  keys.Pairwise (· < ·) ∧ ∀ k, k ∈ keys ↔ ∃ i, W i ∧ OnPath height i k

end PF.Spec
