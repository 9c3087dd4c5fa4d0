import Verif.Model.SparseMT

/-!
# The tree operations with machine-width indices

`/repo/plasma-fold/src/primitives/sparsemt/mod.rs`, the functions that build, change or read a tree, with the
`u64` index arithmetic as it is: additions and multiplications that overflow panic in a debug build and wrap
in a release build. `Model/SparseMT.lean` has the same functions with unbounded indices; `Props/Width.lean`
says when the two agree and what happens otherwise. Heights up to 64 (`1u64 << (HEIGHT - 1)`).
-/

namespace PF.MT.W
open PF PF.MT
variable {L D : Type} {ε : Type}

/-- `u64` multiplication under the given profile.
Index arithmetic of sparsemt/mod.rs:549-635. -/
def mulU64 (b : Build) (x y : Nat) : Outcome ε Nat :=
  if x * y < U64 then .ok (x * y)
  else match b with
    | .debug => .panic
    | .release => .ok ((x * y) % U64)

/-- mod.rs:606-608 `convert_index_to_last_level`. -/
def convertIndex (b : Build) (index height : Nat) : Outcome ε Nat := do
  let s ← addU64 b index (2 ^ (height - 1))
  subU64 b s 1

/-- mod.rs:567-569 `left_child`. -/
def leftChild (b : Build) (i : Nat) : Outcome ε Nat := do
  let d ← mulU64 b 2 i
  addU64 b d 1

/-- mod.rs:573-575 `right_child`. -/
def rightChild (b : Build) (i : Nat) : Outcome ε Nat := do
  let d ← mulU64 b 2 i
  addU64 b d 2

/-- mod.rs:579-587 `sibling`. -/
def sibling (b : Build) (i : Nat) : Outcome ε (Option Nat) :=
  if i = 0 then .ok none
  else if isLeftChild i then do
    let s ← addU64 b i 1
    .ok (some s)
  else .ok (some (i - 1))

/-- mod.rs:467-475, loop of `siblings`. -/
def siblingsLoop (b : Build) (t : STree D) : Nat → Nat → Nat → Outcome ε (List D)
  | 0, _, _ => .ok []
  | n + 1, i, index => do
    let o ← sibling b index
    let s ← Outcome.unwrap o
    let e ← Outcome.unwrap t.emptyHashes[i]?
    let p ← Outcome.unwrap (parent index)
    let rest ← siblingsLoop b t n (i + 1) p
    .ok ((t.tree.get s).getD e :: rest)

/-- mod.rs:461-478 `siblings`. -/
def siblings (b : Build) (cfg : Config L D) (t : STree D) (index : Nat) : Outcome ε (List D) := do
  let i ← convertIndex b index cfg.height
  siblingsLoop b t (cfg.height - 1) 0 i

/-- mod.rs:436-459 `update_and_prove` (the loop over the siblings only divides indices). -/
def updateAndProve (b : Build) (cfg : Config L D) (t : STree D) (index : Nat) (leaf : L) :
    Outcome ε (STree D × List D) := do
  let sibs ← siblings b cfg t index
  let i ← convertIndex b index cfg.height
  let (m, h) ← insertLoop cfg.h2 sibs t.tree (cfg.leafHash leaf) i
  .ok ({ t with tree := m.insert 0 h, root := some h }, sibs)

/-- mod.rs:377-403, loop of `generate_membership_proof`. -/
def memLoop (b : Build) (t : BMap D) : List D → Nat → Outcome ε (List (D × D))
  | es, cur =>
    if isRoot cur then .ok []
    else do
      let o ← sibling b cur
      let sib ← Outcome.unwrap o
      match es with
      | [] => .panic
      | e :: es =>
        let ch := (t.get cur).getD e
        let sh := (t.get sib).getD e
        let par ← Outcome.unwrap (parent cur)
        let rest ← memLoop b t es par
        .ok ((if isLeftChild cur then (ch, sh) else (sh, ch)) :: rest)

/-- mod.rs:370-412 `generate_membership_proof`. -/
def genMembershipProof (b : Build) (cfg : Config L D) (t : STree D) (index : Nat) :
    Outcome Unit (List (D × D)) := do
  let i ← convertIndex b index cfg.height
  let path ← memLoop b t.tree t.emptyHashes i
  if path.length ≠ cfg.height - 1 then .err () else .ok path

/-- mod.rs:415-433 `generate_proof`. -/
def genProof [DecidableEq D] (b : Build) (cfg : Config L D) (t : STree D) (index : Nat) (leaf : L) :
    Outcome Unit (List (D × D)) := do
  let i ← convertIndex b index cfg.height
  match t.tree.get i with
  | some x => if cfg.leafHash leaf ≠ x then .err () else genMembershipProof b cfg t index
  | none => genMembershipProof b cfg t index

/-- mod.rs:310-344, inner loop of `new`. -/
def newLevel (b : Build) (cfg : Config L D) (es : List D) (level : Nat) :
    List Nat → BMap D → Outcome ε (BMap D)
  | [], t => .ok t
  | i :: rest, t => do
    let li ← leftChild b i
    let ri ← rightChild b i
    let l ← nodeHash es t level li
    let r ← nodeHash es t level ri
    newLevel b cfg es level rest (t.insert i (cfg.h2 l r))

/-- mod.rs:307-353, outer loop of `new`. -/
def newLoop (b : Build) (cfg : Config L D) (es : List D) :
    Nat → Nat → List Nat → BMap D → Outcome ε (BMap D)
  | 0, _, _, t => .ok t
  | n + 1, level, mids, t => do
    let t' ← newLevel b cfg es level mids t
    newLoop b cfg es n (level + 1) (upNodes mids) t'

/-- mod.rs:293-298, the leaf digests. -/
def insertLeaves (b : Build) (cfg : Config L D) : BMap L → BMap D → Outcome ε (BMap D)
  | [], t => .ok t
  | e :: rest, t => do
    let i ← addU64 b (2 ^ (cfg.height - 1) - 1) e.1
    insertLeaves b cfg rest (t.insert i (cfg.leafHash e.2))

/-- mod.rs:300-303, the first `middle_nodes`. -/
def leafParents (b : Build) (lastLevel : Nat) : List Nat → List Nat → Outcome ε (List Nat)
  | [], s => .ok s
  | i :: rest, s => do
    let k ← addU64 b lastLevel i
    let p ← Outcome.unwrap (parent k)
    leafParents b lastLevel rest (bsetInsert p s)

/-- mod.rs:272-362 `new`. -/
def new (b : Build) (cfg : Config L D) (leaves : BMap L) : Outcome Unit (STree D) :=
  let lastLevelSize := 2 ^ Nat.clog 2 leaves.length
  let treeSize := 2 * lastLevelSize - 1
  if ¬ treeHeight treeSize ≤ cfg.height then .panic
  else do
    let es := genEmptyHashes cfg cfg.height
    let t ← insertLeaves b cfg leaves []
    let mids ← leafParents b (2 ^ (cfg.height - 1) - 1) leaves.keys []
    let t ← newLoop b cfg es cfg.height 0 mids t
    match t.get 0 with
    | none => .err ()
    | some r => .ok { tree := t, root := some r, emptyHashes := es }

/-- mod.rs:490-536, inner loop of `validate`. -/
def validateLevel [DecidableEq D] (b : Build) (cfg : Config L D) (t : STree D) (level : Nat) :
    List Nat → Outcome ε Bool
  | [] => .ok true
  | i :: rest => do
    let li ← leftChild b i
    let ri ← rightChild b i
    let l ← nodeHash t.emptyHashes t.tree level li
    let r ← nodeHash t.emptyHashes t.tree level ri
    match t.tree.get i with
    | none => .ok false
    | some x => if x ≠ cfg.h2 l r then .ok false else validateLevel b cfg t level rest

/-- mod.rs:489-545, outer loop of `validate`. -/
def validateLoop [DecidableEq D] (b : Build) (cfg : Config L D) (t : STree D) :
    Nat → Nat → List Nat → Outcome ε Bool
  | 0, _, _ => .ok true
  | n + 1, level, mids => do
    if ← validateLevel b cfg t level mids then validateLoop b cfg t n (level + 1) (upNodes mids)
    else .ok false

/-- mod.rs:481-546 `validate`. -/
def validate [DecidableEq D] (b : Build) (cfg : Config L D) (t : STree D) : Outcome Unit Bool :=
  let last := 2 ^ (cfg.height - 1) - 1
  let mids := bsetOf ((t.tree.keys.filter (fun k => decide (last ≤ k) && !isRoot k)).filterMap parent)
  validateLoop b cfg t cfg.height 0 mids

end PF.MT.W
