/-!
# Specification of Merkle trees

What a Merkle tree commits to, independently of how any code stores or updates it.
-/

namespace PF.Spec

variable {L D : Type}

/-- Digest of node `j` (counted from the left) of level `ℓ` (0 = leaves) of the perfect binary tree
whose leaf digests are `f 0, f 1, …`. -/
def nodeAt (h2 : D → D → D) (f : Nat → D) : Nat → Nat → D
  | 0, j => f j
  | ℓ + 1, j => h2 (nodeAt h2 f ℓ (2 * j)) (nodeAt h2 f ℓ (2 * j + 1))

/-- Root of the tree of `height` levels (so `2^(height-1)` leaves) with contents `c`. -/
def merkleRoot (leafHash : L → D) (h2 : D → D → D) (height : Nat) (c : Nat → L) : D :=
  nodeAt h2 (fun i => leafHash (c i)) (height - 1) 0

/-- Contents after writing `v` at position `i`. -/
def write (c : Nat → L) (i : Nat) (v : L) : Nat → L := fun j => if j = i then v else c j

/-- Contents after a list of writes, the last write to a position wins. -/
def contents (c : Nat → L) (ws : List (Nat × L)) : Nat → L :=
  ws.foldl (fun c w => write c w.1 w.2) c

/-- The pairs of digests met when climbing `n` levels from node `j` of level `ℓ`
(left sibling, right sibling at each level). -/
def pathFrom (h2 : D → D → D) (f : Nat → D) (ℓ : Nat) : Nat → Nat → List (D × D)
  | 0, _ => []
  | n + 1, j =>
    (nodeAt h2 f ℓ (2 * (j / 2)), nodeAt h2 f ℓ (2 * (j / 2) + 1)) ::
      pathFrom h2 f (ℓ + 1) n (j / 2)

/-- The true authentication path of leaf `i`. -/
def truePath (leafHash : L → D) (h2 : D → D → D) (height : Nat) (c : Nat → L) (i : Nat) :
    List (D × D) :=
  pathFrom h2 (fun i => leafHash (c i)) 0 (height - 1) i

/-- A collision of `h2` that can be read off two paths: at some common level the two pairs differ
but hash to the same digest. (On a finite digest type *some* collision always exists; this says that
these two transcripts exhibit one.) -/
def PathCollision (h2 : D → D → D) (p q : List (D × D)) : Prop :=
  ∃ (ℓ : Nat) (x y : D × D), p[ℓ]? = some x ∧ q[ℓ]? = some y ∧ x ≠ y ∧ h2 x.1 x.2 = h2 y.1 y.2

/-- A collision that can be read off two trees of `height` levels at one common position: the two leaves
there differ but have the same digest, or the true paths of that position exhibit a collision. -/
def TreeClash (leafHash : L → D) (h2 : D → D → D) (height : Nat) (c d : Nat → L) : Prop :=
  ∃ j, j < 2 ^ (height - 1) ∧ ((c j ≠ d j ∧ leafHash (c j) = leafHash (d j)) ∨
    PathCollision h2 (truePath leafHash h2 height c j) (truePath leafHash h2 height d j))

/-- The two pairs (old path, new path) hashed level by level when climbing from position `i` with
digest `h` along sibling digests `sibs`. -/
def climbPairs (h2 : D → D → D) : List D → D → Nat → List (D × D)
  | [], _, _ => []
  | s :: rest, h, i =>
    let pr := if i % 2 = 0 then (h, s) else (s, h)
    pr :: climbPairs h2 rest (h2 pr.1 pr.2) (i / 2)

/-- Root obtained by climbing from position `i` with digest `h` along sibling digests `sibs`. -/
def climb (h2 : D → D → D) : List D → D → Nat → D
  | [], h, _ => h
  | s :: rest, h, i => climb h2 rest (if i % 2 = 0 then h2 h s else h2 s h) (i / 2)

end PF.Spec
