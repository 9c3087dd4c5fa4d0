import Verif.Basic
import Mathlib.Data.Nat.Log

/-!
# Model of the native sparse Merkle tree

`/repo/plasma-fold/src/primitives/sparsemt/mod.rs`.

Simplifications (all definitions below):
* the hash functions are parameters; `CRHScheme::evaluate` / `TwoToOneCRHScheme::evaluate` return
  `Ok` always (they only fail for malformed Poseidon parameters);
* tree node indices are `Nat`. In `verify_with_index` and in the update verifier, where an
  adversarial `u64` index enters, the `u64` arithmetic is modelled exactly (`addU64`, `subU64`).
  In the functions that build or change a tree, the index arithmetic is unbounded, i.e. the model is
  exact for `index + 2^(HEIGHT-1) < 2^64` (proved: C103, `Model/SparseMTWidth.lean` has the same
  functions with `u64` arithmetic).
-/

namespace PF.MT

/-- `SparseConfig` (mod.rs:47-49): leaf hash, two-to-one hash, `Leaf::default()`, `HEIGHT`. -/
structure Config (L D : Type) where
  leafHash : L → D
  h2 : D → D → D
  dflt : L
  height : Nat

/-- `MerkleSparseTree` (mod.rs:51-57). Hash parameters live in `Config`. -/
structure STree (D : Type) where
  tree : BMap D
  root : Option D
  emptyHashes : List D
deriving DecidableEq

variable {L D : Type}

/-! ## index helpers -/

/-- mod.rs:561-563 `is_root` -/
def isRoot (i : Nat) : Bool := i == 0
/-- mod.rs:567-569 `left_child` -/
def leftChild (i : Nat) : Nat := 2 * i + 1
/-- mod.rs:573-575 `right_child` -/
def rightChild (i : Nat) : Nat := 2 * i + 2
/-- mod.rs:591-593 `is_left_child` -/
def isLeftChild (i : Nat) : Bool := i % 2 == 1
/-- mod.rs:579-587 `sibling` -/
def sibling (i : Nat) : Option Nat :=
  if i = 0 then none else if isLeftChild i then some (i + 1) else some (i - 1)
/-- mod.rs:597-603 `parent` -/
def parent (i : Nat) : Option Nat := if i > 0 then some ((i - 1) / 2) else none
/-- mod.rs:606-608 `convert_index_to_last_level` -/
def convertIndex (index height : Nat) : Nat := index + 2 ^ (height - 1) - 1

/-- mod.rs:549-557 `log2`/`tree_height`: `ark_std::log2` is the ceiling logarithm (0 at 0). -/
def treeHeight (size : Nat) : Nat := Nat.clog 2 size

/-- mod.rs:610-635 `gen_empty_hashes`: `n+1` entries, entry `k` the digest of an empty subtree of
height `k`. -/
def genEmptyHashes (cfg : Config L D) (n : Nat) : List D :=
  go (cfg.leafHash cfg.dflt) n
where
  /-- loop body of mod.rs:625-632 -/
  go (h : D) : Nat → List D
    | 0 => [h]
    | n + 1 => h :: go (cfg.h2 h h) n

/-! ## verifiers -/

section verify
variable [DecidableEq D]

/-- Loop of `MerkleSparseTreePath::verify`, mod.rs:115-122. `none` = `return Ok(false)`. -/
def verifyLoop (h2 : D → D → D) : List (D × D) → D → Option D
  | [], prev => some prev
  | (l, r) :: rest, prev =>
    if prev ≠ l ∧ prev ≠ r then none else verifyLoop h2 rest (h2 l r)

/-- `MerkleSparseTreePath::verify`, mod.rs:97-133. -/
def verify (cfg : Config L D) (path : List (D × D)) (root : D) (leaf : L) : Bool :=
  if path.length ≠ cfg.height - 1 then false
  else match path with
    | [] => false
    | (l, r) :: _ =>
      let claimed := cfg.leafHash leaf
      if claimed ≠ l ∧ claimed ≠ r then false
      else match verifyLoop cfg.h2 path claimed with
        | none => false
        | some prev => if root ≠ prev then false else true

/-- Loop of `verify_with_index`, mod.rs:168-185; state `(prev, prev_index, index_from_path,
index_offset)`. `ok none` = `return Ok(false)`. `index_from_path` and `index_offset` stay below
`2^HEIGHT` and cannot overflow for HEIGHT ≤ 63; `prev_index - 1` can underflow and is exact. -/
def verifyIndexLoop {ε : Type} (b : Build) (h2 : D → D → D) :
    List (D × D) → D → Nat → Nat → Nat → Outcome ε (Option (D × Nat))
  | [], prev, _, fromPath, _ => .ok (some (prev, fromPath))
  | (l, r) :: rest, prev, prevIndex, fromPath, offset =>
    if prevIndex % 2 = 1 then
      if prev ≠ l then .ok none
      else do
        let p ← subU64 b prevIndex 1
        verifyIndexLoop b h2 rest (h2 l r) (p / 2) fromPath (offset * 2)
    else
      if prev ≠ r then .ok none
      else do
        let p ← subU64 b prevIndex 1
        verifyIndexLoop b h2 rest (h2 l r) (p / 2) (fromPath + offset) (offset * 2)

/-- `MerkleSparseTreePath::verify_with_index`, mod.rs:136-197. -/
def verifyWithIndex {ε : Type} (b : Build) (cfg : Config L D) (path : List (D × D)) (root : D)
    (leaf : L) (index : Nat) : Outcome ε Bool :=
  if path.length ≠ cfg.height - 1 then .ok false
  else do
    let lastLevel := 2 ^ (cfg.height - 1) - 1
    let treeIndex ← addU64 b lastLevel index
    match path with
    | [] => .ok false
    | (l, r) :: _ =>
      let claimed := cfg.leafHash leaf
      if treeIndex % 2 = 1 ∧ claimed ≠ l then .ok false
      else if treeIndex % 2 ≠ 1 ∧ claimed ≠ r then .ok false
      else do
        match ← verifyIndexLoop b cfg.h2 path claimed treeIndex lastLevel 1 with
        | none => .ok false
        | some (prev, fromPath) =>
          if root ≠ prev then .ok false
          else if fromPath ≠ treeIndex then .ok false
          else .ok true

/-- Loop of the update verifier, mod.rs:225-238; state `(old_hash, new_hash, tree_index)`. -/
def updateLoop {ε : Type} (b : Build) (h2 : D → D → D) :
    List D → D → D → Nat → Outcome ε (D × D × Nat)
  | [], o, n, i => .ok (o, n, i)
  | s :: rest, o, n, i => do
    let (o', n') := if i % 2 = 1 then (h2 o s, h2 n s) else (h2 s o, h2 s n)
    let p ← subU64 b i 1
    updateLoop b h2 rest o' n' (p / 2)

/-- `MerkleSparseTreeTwoPaths::verify`, mod.rs:206-241. -/
def verifyUpdate {ε : Type} (b : Build) (cfg : Config L D) (sibs : List D) (oldRoot newRoot : D)
    (oldLeaf newLeaf : L) (index : Nat) : Outcome ε Bool :=
  if sibs.length ≠ cfg.height - 1 then .ok false
  else do
    let treeIndex ← addU64 b (2 ^ (cfg.height - 1) - 1) index
    let (o, n, i) ← updateLoop b cfg.h2 sibs (cfg.leafHash oldLeaf) (cfg.leafHash newLeaf) treeIndex
    .ok (decide (oldRoot = o) && decide (newRoot = n) && decide (i = 0))

end verify

/-! ## the tree -/

/-- `MerkleSparseTree::blank`, mod.rs:250-269. -/
def blank (cfg : Config L D) : Outcome Unit (STree D) := do
  let es := genEmptyHashes cfg cfg.height
  let r ← Outcome.unwrap es[cfg.height - 1]?
  .ok { tree := [], root := some r, emptyHashes := es }

/-- Node digest used by `new` and `validate` at `level` (mod.rs:314-337, 494-515):
stored digest, else `empty_hashes[level]`. -/
def nodeHash {ε : Type} (es : List D) (t : BMap D) (level i : Nat) : Outcome ε D := do
  let e ← Outcome.unwrap es[level]?
  .ok ((t.get i).getD e)

/-- Inner loop of `new`, mod.rs:310-344. -/
def newLevel {ε : Type} (cfg : Config L D) (es : List D) (level : Nat) :
    List Nat → BMap D → Outcome ε (BMap D)
  | [], t => .ok t
  | i :: rest, t => do
    let l ← nodeHash es t level (leftChild i)
    let r ← nodeHash es t level (rightChild i)
    newLevel cfg es level rest (t.insert i (cfg.h2 l r))

/-- Next level's `middle_nodes`, mod.rs:346-352 and 538-544. -/
def upNodes (mids : List Nat) : List Nat := bsetOf (mids.filterMap parent)

/-- Outer loop of `new`, mod.rs:307-353; first argument: remaining iterations. -/
def newLoop {ε : Type} (cfg : Config L D) (es : List D) :
    Nat → Nat → List Nat → BMap D → Outcome ε (BMap D)
  | 0, _, _, t => .ok t
  | n + 1, level, mids, t => do
    let t' ← newLevel cfg es level mids t
    newLoop cfg es n (level + 1) (upNodes mids) t'

/-- Insertion of the leaf digests, mod.rs:293-298. -/
def insertLeaves (cfg : Config L D) (leaves : BMap L) (t : BMap D) : BMap D :=
  leaves.foldl (fun t e => t.insert (2 ^ (cfg.height - 1) - 1 + e.1) (cfg.leafHash e.2)) t

/-- First `middle_nodes`, mod.rs:300-303; `parent(..).unwrap()` panics on the root. -/
def leafParents {ε : Type} (lastLevel : Nat) : List Nat → List Nat → Outcome ε (List Nat)
  | [], s => .ok s
  | i :: rest, s => do
    let p ← Outcome.unwrap (parent (lastLevel + i))
    leafParents lastLevel rest (bsetInsert p s)

/-- `MerkleSparseTree::new`, mod.rs:272-362. `leaves` is a `BTreeMap<u64, Leaf>`.
`usize::next_power_of_two(n)` is `2^⌈log2 n⌉`. -/
def new (cfg : Config L D) (leaves : BMap L) : Outcome Unit (STree D) :=
  let lastLevelSize := 2 ^ Nat.clog 2 leaves.length
  let treeSize := 2 * lastLevelSize - 1
  if ¬ treeHeight treeSize ≤ cfg.height then .panic
  else do
    let es := genEmptyHashes cfg cfg.height
    let t := insertLeaves cfg leaves []
    let mids ← leafParents (2 ^ (cfg.height - 1) - 1) leaves.keys []
    let t ← newLoop cfg es cfg.height 0 mids t
    match t.get 0 with
    | none => .err ()
    | some r => .ok { tree := t, root := some r, emptyHashes := es }

/-- `root`, mod.rs:365-367 (panics if `None`). -/
def STree.rootHash {ε : Type} (t : STree D) : Outcome ε D := Outcome.unwrap t.root

/-- `while` loop of `generate_membership_proof`, mod.rs:377-403; recursion on the
`empty_hashes` iterator. -/
def memLoop {ε : Type} (t : BMap D) : List D → Nat → Outcome ε (List (D × D))
  | es, cur =>
    if isRoot cur then .ok []
    else do
      let sib ← Outcome.unwrap (sibling cur)
      match es with
      | [] => .panic
      | e :: es =>
        let ch := (t.get cur).getD e
        let sh := (t.get sib).getD e
        let par ← Outcome.unwrap (parent cur)
        let rest ← memLoop t es par
        .ok ((if isLeftChild cur then (ch, sh) else (sh, ch)) :: rest)

/-- `generate_membership_proof`, mod.rs:370-412. -/
def genMembershipProof (cfg : Config L D) (t : STree D) (index : Nat) :
    Outcome Unit (List (D × D)) := do
  let path ← memLoop t.tree t.emptyHashes (convertIndex index cfg.height)
  if path.length ≠ cfg.height - 1 then .err () else .ok path

/-- `generate_proof`, mod.rs:415-433. -/
def genProof [DecidableEq D] (cfg : Config L D) (t : STree D) (index : Nat) (leaf : L) :
    Outcome Unit (List (D × D)) :=
  match t.tree.get (convertIndex index cfg.height) with
  | some x => if cfg.leafHash leaf ≠ x then .err () else genMembershipProof cfg t index
  | none => genMembershipProof cfg t index

/-- Loop of `siblings`, mod.rs:467-475; `n` iterations left, at level `i`. -/
def siblingsLoop {ε : Type} (t : STree D) : Nat → Nat → Nat → Outcome ε (List D)
  | 0, _, _ => .ok []
  | n + 1, i, index => do
    let s ← Outcome.unwrap (sibling index)
    let e ← Outcome.unwrap t.emptyHashes[i]?
    let p ← Outcome.unwrap (parent index)
    let rest ← siblingsLoop t n (i + 1) p
    .ok ((t.tree.get s).getD e :: rest)

/-- `siblings`, mod.rs:461-478. -/
def siblings {ε : Type} (cfg : Config L D) (t : STree D) (index : Nat) : Outcome ε (List D) :=
  siblingsLoop t (cfg.height - 1) 0 (convertIndex index cfg.height)

/-- Loop of `update_and_prove`, mod.rs:446-454; returns the map and the final digest. -/
def insertLoop {ε : Type} (h2 : D → D → D) : List D → BMap D → D → Nat → Outcome ε (BMap D × D)
  | [], t, h, _ => .ok (t, h)
  | s :: rest, t, h, i => do
    let t' := t.insert i h
    let h' := if isLeftChild i then h2 h s else h2 s h
    let p ← Outcome.unwrap (parent i)
    insertLoop h2 rest t' h' p

/-- `update_and_prove`, mod.rs:436-459: new tree and the returned sibling list. -/
def updateAndProve {ε : Type} (cfg : Config L D) (t : STree D) (index : Nat) (leaf : L) :
    Outcome ε (STree D × List D) := do
  let sibs ← siblings cfg t index
  let (m, h) ← insertLoop cfg.h2 sibs t.tree (cfg.leafHash leaf) (convertIndex index cfg.height)
  .ok ({ t with tree := m.insert 0 h, root := some h }, sibs)

/-- Inner loop of `validate`, mod.rs:490-536. -/
def validateLevel {ε : Type} [DecidableEq D] (cfg : Config L D) (t : STree D) (level : Nat) :
    List Nat → Outcome ε Bool
  | [] => .ok true
  | i :: rest => do
    let l ← nodeHash t.emptyHashes t.tree level (leftChild i)
    let r ← nodeHash t.emptyHashes t.tree level (rightChild i)
    match t.tree.get i with
    | none => .ok false
    | some x => if x ≠ cfg.h2 l r then .ok false else validateLevel cfg t level rest

/-- Outer loop of `validate`, mod.rs:489-545. -/
def validateLoop {ε : Type} [DecidableEq D] (cfg : Config L D) (t : STree D) :
    Nat → Nat → List Nat → Outcome ε Bool
  | 0, _, _ => .ok true
  | n + 1, level, mids => do
    if ← validateLevel cfg t level mids then validateLoop cfg t n (level + 1) (upNodes mids)
    else .ok false

/-- `validate`, mod.rs:481-546. Keys at or below the last level (other than the root) are leaves. -/
def validate [DecidableEq D] (cfg : Config L D) (t : STree D) : Outcome Unit Bool :=
  let last := 2 ^ (cfg.height - 1) - 1
  let mids := bsetOf ((t.tree.keys.filter (fun k => decide (last ≤ k) && !isRoot k)).filterMap parent)
  validateLoop cfg t cfg.height 0 mids

/-- Default membership path, mod.rs:72-80. -/
def defaultPath (dd : D) (cfg : Config L D) : List (D × D) :=
  List.replicate (cfg.height - 1) (dd, dd)

/-- Default update path, mod.rs:82-90. -/
def defaultTwoPaths (dd : D) (cfg : Config L D) : List D := List.replicate (cfg.height - 1) dd

end PF.MT
