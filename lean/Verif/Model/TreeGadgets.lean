import Verif.Model.Data

/-!
# Model of the gadgets over `ark_crypto_primitives` Merkle trees

`/repo/plasma-fold/src/circuits/gadgets/mod.rs`, used with the dense trees of
`datastructures/publickeymap`, `datastructures/deposits` and `datastructures/withdrawals`. The code in
`/repo` forwards to `PathVar` of `ark-crypto-primitives` (`merkle_tree/constraints.rs`) and
`Boolean::le_bits_to_fp` of `ark-r1cs-std`; their source is not in `/repo`, so the definitions marked
*(library)* are written from the published source of these crates. Allocation adds no constraint
besides booleanity of the path bits, so a path variable is an arbitrary value of `PathVar`.
-/

namespace PF.TreeG
open PF.Circuit
variable {L LV G : Type} {p q : Nat}

/-- *(library)* `Config`/`ConfigGadget`: leaf hash and two-to-one hash (with Poseidon both
`TwoToOneCRH::evaluate` and `compress` are the same function, and the digest converter is the
identity; publickeymap/mod.rs:22-29, deposits/mod.rs:21-28, withdrawals/mod.rs:22-29). -/
structure Config (L : Type) (p : Nat) where
  leafHash : L → ZMod p
  h2 : ZMod p → ZMod p → ZMod p

/-- publickeymap/mod.rs:22-29 `PublicKeyTreeConfig`. -/
def pkTreeCfg [AddCommGroup G] [Module (ZMod q) G] (cv : Curve p q G) (hs : Hashes p) : Config G p := ⟨pkCRH cv hs.crh, hs.h2⟩
/-- publickeymap/constraints.rs:28-37 `PublicKeyTreeConfigGadget`. -/
def pkTreeCfgVar [AddCommGroup G] [Module (ZMod q) G] (cv : Curve p q G) (hs : Hashes p) : Config G p := ⟨pkVarCRH cv hs.crh, hs.h2⟩
/-- deposits/mod.rs:21-28 `DepositTreeConfig` (withdrawals/mod.rs:22-29 `WithdrawTreeConfig` is the
same). -/
def depositTreeCfg [AddCommGroup G] [Module (ZMod q) G] (cv : Curve p q G) (hs : Hashes p) : Config (Tx Nat G) p := ⟨txCRH cv hs.crh, hs.h2⟩
/-- withdrawals/mod.rs:22-29 `WithdrawTreeConfig`. -/
def withdrawTreeCfg [AddCommGroup G] [Module (ZMod q) G] (cv : Curve p q G) (hs : Hashes p) : Config (Tx Nat G) p :=
  ⟨txCRH cv hs.crh, hs.h2⟩

/-- *(library)* native `Path`: sibling of the leaf, siblings of its ancestors from the root down, and
the index of the leaf. -/
structure Path (p : Nat) where
  leafSibling : ZMod p
  authPath : List (ZMod p)
  leafIndex : Nat

/-- *(library)* `Path::position_list`: the bits of the index, root first, one more than the length of
`auth_path`. -/
def Path.positionList (a : Path p) : List Bool :=
  ((List.range (a.authPath.length + 1)).map fun i => a.leafIndex.testBit i).reverse

/-- *(library)* `select_left_right_child` and the loop of `Path::verify`, from the leaf up. -/
def Path.up (h2 : ZMod p → ZMod p → ZMod p) : List (ZMod p) → Nat → ZMod p → ZMod p
  | [], _, cur => cur
  | s :: rest, i, cur => Path.up h2 rest (i / 2) (if i % 2 = 1 then h2 s cur else h2 cur s)

/-- *(library)* `Path::verify`. -/
def Path.verify (cfg : Config L p) (a : Path p) (root : ZMod p) (leaf : L) : Bool :=
  let h := cfg.leafHash leaf
  let bottom := if a.leafIndex % 2 = 1 then cfg.h2 a.leafSibling h else cfg.h2 h a.leafSibling
  decide (Path.up cfg.h2 a.authPath.reverse (a.leafIndex / 2) bottom = root)

/-- *(library)* `PathVar`: `path` and `auth_path` are root first. -/
structure PathVar (p : Nat) where
  path : List Bool
  authPath : List (ZMod p)
  leafSibling : ZMod p
  leafIsRight : Bool

/-- *(library)* `PathVar::new_variable`. -/
def Path.alloc (a : Path p) : PathVar p :=
  { path := a.positionList.take (a.positionList.length - 1)
    authPath := a.authPath
    leafSibling := a.leafSibling
    leafIsRight := a.leafIndex.testBit 0 }

/-- *(library)* `PathVar::get_leaf_position`: little-endian bits of the position. -/
def PathVar.getLeafPosition (v : PathVar p) : List Bool := v.leafIsRight :: v.path.reverse

/-- *(library)* loop of `PathVar::calculate_root` over `path.rev().zip(auth_path.rev())`. -/
def PathVar.up (h2 : ZMod p → ZMod p → ZMod p) : List Bool → List (ZMod p) → ZMod p → ZMod p
  | b :: bs, s :: ss, cur => PathVar.up h2 bs ss (h2 (select b s cur) (select b cur s))
  | _, _, cur => cur

/-- *(library)* `PathVar::calculate_root`. -/
def PathVar.calculateRoot (cfg : Config L p) (v : PathVar p) (leaf : L) : ZMod p :=
  let h := cfg.leafHash leaf
  PathVar.up cfg.h2 v.path.reverse v.authPath.reverse
    (cfg.h2 (select v.leafIsRight v.leafSibling h) (select v.leafIsRight h v.leafSibling))

/-- *(library)* `PathVar::verify_membership`. -/
def PathVar.verifyMembership (cfg : Config L p) (v : PathVar p) (root : ZMod p) (leaf : L) : Bool :=
  decide (v.calculateRoot cfg leaf = root)

/-- *(library)* `PathVar::update_and_check`: enforces the old leaf, returns the comparison of the new
root. -/
def PathVar.updateAndCheck (cfg : Config L p) (v : PathVar p) (oldRoot newRoot : ZMod p) (old new : L)
    (out : Bool) : Prop :=
  v.verifyMembership cfg oldRoot old = true ∧ out = decide (v.calculateRoot cfg new = newRoot)

/-- circuits/gadgets/mod.rs:22-28 `TreeUpdateProof`. -/
structure UpdateProof (L : Type) (p : Nat) where
  prevRoot : ZMod p
  prevLeaf : L
  path : Path p
  newRoot : ZMod p
  newLeaf : L

/-- circuits/gadgets/mod.rs:30-42 `From<(prev_root, prev_leaf, path, new_root, new_leaf)>`. -/
def UpdateProof.ofTuple (v : ZMod p × L × Path p × ZMod p × L) : UpdateProof L p :=
  { prevRoot := v.1, prevLeaf := v.2.1, path := v.2.2.1, newRoot := v.2.2.2.1, newLeaf := v.2.2.2.2 }

/-- circuits/gadgets/mod.rs:44-50 `TreeUpdateProofVar`. -/
structure UpdateProofVar (LV : Type) (p : Nat) where
  prevRoot : ZMod p
  prevLeaf : LV
  path : PathVar p
  newRoot : ZMod p
  newLeaf : LV

/-- circuits/gadgets/mod.rs:52-80 `TreeUpdateProofVar::new_variable`. -/
def UpdateProof.alloc (f : L → LV) (u : UpdateProof L p) : UpdateProofVar LV p :=
  { prevRoot := u.prevRoot, prevLeaf := f u.prevLeaf, path := u.path.alloc, newRoot := u.newRoot
    newLeaf := f u.newLeaf }

/-- circuits/gadgets/mod.rs:84-90 `TreeGadgets::compute_id_from_path_and_check`. `le_bits_to_fp` is the
packed value (with fewer bits than the modulus it adds no further constraint). -/
def computeIdAndCheck (v : PathVar p) (expectedId : ZMod p) : Prop :=
  (bitsVal v.getLeafPosition : ZMod p) = expectedId

/-- circuits/gadgets/mod.rs:92-114 `TreeGadgets::update_and_check`. -/
def updateAndCheck (cfg : Config LV p) (u : UpdateProofVar LV p) (out : Bool) : Prop :=
  u.path.updateAndCheck cfg u.prevRoot u.newRoot u.prevLeaf u.newLeaf out

end PF.TreeG
