import Verif.Model.SparseMT
import Verif.Model.Circuit
import Mathlib.Algebra.Module.Defs
import Mathlib.Data.ZMod.Basic

/-!
# Data structures, encodings, hashes, transaction validity

`/repo/plasma-fold/src/datastructures/*`, `/repo/plasma-fold/src/primitives/crh/*`.

`G` is the group of curve points (an abstract additive commutative group); `PublicKey` is its `key`
field. `UTXO A G` is used with `A = Nat` for the native struct (`u64` amount) and `A = ZMod p` for
the circuit variable `UTXOVar` (field amount).
-/

namespace PF

/-- Coordinates of curve points (external crate ark-ec): `xy` is `None` exactly at infinity and
determines the point; a fixed generator. `q` is the order of the scalar field. -/
structure Curve (p q : Nat) (G : Type) [AddCommGroup G] [Module (ZMod q) G] where
  gen : G
  gen_ne : gen ≠ 0
  xy : G → Option (ZMod p × ZMod p)
  xy_none : ∀ P, xy P = none ↔ P = 0
  xy_inj : ∀ P Q, xy P = xy Q → P = Q

/-- datastructures/mod.rs:14 -/
abbrev TX_IO_SIZE : Nat := 4
/-- plasma-fold/src/lib.rs:7 -/
abbrev TX_TREE_HEIGHT : Nat := 13
/-- plasma-fold/src/lib.rs:8 -/
abbrev SIGNER_TREE_HEIGHT : Nat := 13
/-- utxo/mod.rs:79-82 -/
abbrev UTXO_TREE_HEIGHT : Nat := 32

/-- utxo/mod.rs:23-28 `UTXO`, utxo/constraints.rs:27-31 `UTXOVar`. -/
structure UTXO (A G : Type) where
  amount : A
  pk : G
  isDummy : Bool
deriving DecidableEq, Repr

/-- transaction/mod.rs:23-27 `Transaction`, transaction/constraints.rs:50-58 `TransactionVar`. -/
structure Tx (A G : Type) where
  inputs : Vector (UTXO A G) TX_IO_SIZE
  outputs : Vector (UTXO A G) TX_IO_SIZE
deriving DecidableEq, Repr

/-- block/mod.rs:4-14 `Block` (`u32` ids and `u64` amounts as `Nat`). -/
structure Block (F : Type) where
  utxoRoot : F
  txRoot : F
  signerRoot : F
  signers : List (Option Nat)
  height : Nat
  deposits : List (Nat × Nat)
  withdrawals : List (Nat × Nat)
deriving DecidableEq, Repr

/-- block/constraints.rs:7-12 `BlockVar`. -/
structure BlockVar (F : Type) where
  utxoRoot : F
  txRoot : F
  signerRoot : F
  height : F
deriving DecidableEq, Repr

/-- errors.rs `TransactionError`. -/
inductive TransactionError where
  | invalidPublicKey
  | invalidAmounts
deriving DecidableEq, Repr

variable {A G : Type}

/-- utxo/mod.rs:41-47 `UTXO::new`. -/
def UTXO.new (pk : G) (amount : A) : UTXO A G := ⟨amount, pk, false⟩

/-- utxo/mod.rs:49-55 `UTXO::dummy` (also `Default`, 58-62). -/
def UTXO.dummy [Zero A] [Zero G] : UTXO A G := ⟨0, 0, true⟩

/-- transaction/mod.rs:29-36 `Transaction::default`. -/
def Tx.default [Zero A] [Zero G] : Tx A G :=
  ⟨Vector.replicate _ UTXO.dummy, Vector.replicate _ UTXO.dummy⟩

/-- The chained iteration `inputs.iter().chain(&outputs)`.
transaction/mod.rs:47, 67-69, transaction/constraints.rs:37. -/
def Tx.ios (t : Tx A G) : List (UTXO A G) := t.inputs.toList ++ t.outputs.toList

/-- utxo/constraints.rs:33-56 allocation of a native UTXO: `F::from(amount)`. -/
def UTXO.alloc (p : Nat) (u : UTXO Nat G) : UTXO (ZMod p) G := ⟨u.amount, u.pk, u.isDummy⟩

/-- Element-wise map of a Rust array (kernel-reducible form of `Vector.map`). -/
def vmap {α β : Type} {n : Nat} (f : α → β) (v : Vector α n) : Vector β n :=
  ⟨⟨v.toList.map f⟩, by simp⟩

@[simp] theorem toList_vmap {α β : Type} {n : Nat} (f : α → β) (v : Vector α n) :
    (vmap f v).toList = v.toList.map f := rfl

/-- transaction/constraints.rs:60-79 allocation of a native transaction. -/
def Tx.alloc (p : Nat) (t : Tx Nat G) : Tx (ZMod p) G :=
  ⟨vmap (UTXO.alloc p) t.inputs, vmap (UTXO.alloc p) t.outputs⟩

/-- block/constraints.rs:14-35 allocation of a block: `F::from(height as u64)`. -/
def Block.alloc {p : Nat} (b : Block (ZMod p)) : BlockVar (ZMod p) :=
  ⟨b.utxoRoot, b.txRoot, b.signerRoot, (b.height : ZMod p)⟩

/-! ## Encodings -/

section enc
variable {p q : Nat} [AddCommGroup G] [Module (ZMod q) G]

/-- `F::from(bool)` / `FpVar::from(Boolean)`.
Library conversion, used by the encodings transaction/mod.rs:40-60, transaction/constraints.rs:33-50. -/
def boolF (b : Bool) : ZMod p := if b then 1 else 0

/-- Native triple `(x, y, iszero)`; transaction/mod.rs:50-55, crh/mod.rs:66-78 and 127-136. -/
def pkEnc (cv : Curve p q G) (P : G) : List (ZMod p) :=
  match cv.xy P with
  | none => [0, 0, 1]
  | some (x, y) => [x, y, 0]

/-- In-circuit `CurveVar::to_constraint_field`: affine coordinates followed by the infinity flag,
`(0, 0, 1)` at infinity (external crate; the repository's `test_public_key_crh` relies on it). -/
def pkEncVar (cv : Curve p q G) (P : G) : List (ZMod p) :=
  ((cv.xy P).getD (0, 0)).1 :: ((cv.xy P).getD (0, 0)).2 :: [boolF (cv.xy P).isNone]

/-- Per-UTXO part of transaction/mod.rs:47-59; also the vector absorbed in crh/mod.rs:137-143. -/
def utxoEnc (cv : Curve p q G) (u : UTXO Nat G) : List (ZMod p) :=
  (u.amount : ZMod p) :: boolF u.isDummy :: pkEnc cv u.pk

/-- transaction/constraints.rs:36-43; crh/constraints.rs:118-124. -/
def utxoEncVar (cv : Curve p q G) (u : UTXO (ZMod p) G) : List (ZMod p) :=
  u.amount :: boolF u.isDummy :: pkEncVar cv u.pk

/-- transaction/mod.rs:44-62 `From<&Transaction> for Vec<F>`. -/
def txEnc (cv : Curve p q G) (t : Tx Nat G) : List (ZMod p) := t.ios.flatMap (utxoEnc cv)

/-- transaction/constraints.rs:31-47 `TryInto<Vec<FpVar>> for &TransactionVar`. -/
def txEncVar (cv : Curve p q G) (t : Tx (ZMod p) G) : List (ZMod p) := t.ios.flatMap (utxoEncVar cv)

/-- transaction/mod.rs:64-74 `From<Transaction> for Vec<F>` (by value). -/
def txEncByValue (p : Nat) (t : Tx Nat G) : List (ZMod p) :=
  t.ios.flatMap fun u => [(u.amount : ZMod p), boolF u.isDummy]

/-- crh/mod.rs:165-171, the vector absorbed by `BlockCRH`. -/
def blockEnc (b : Block (ZMod p)) : List (ZMod p) :=
  [b.utxoRoot, b.txRoot, b.signerRoot, (b.height : ZMod p)]

/-- crh/constraints.rs:141-149. -/
def blockEncVar (b : BlockVar (ZMod p)) : List (ZMod p) :=
  [b.utxoRoot, b.txRoot, b.signerRoot, b.height]

/-! ## Hash functions (`H` is Poseidon `CRH::evaluate`) -/

/-- crh/mod.rs:36-45 `TransactionCRH`, transaction/mod.rs:38-42 `get_hash`. -/
def txCRH (cv : Curve p q G) (H : List (ZMod p) → ZMod p) (t : Tx Nat G) : ZMod p := H (txEnc cv t)
/-- crh/constraints.rs:48-62 `TransactionVarCRH`. -/
def txVarCRH (cv : Curve p q G) (H : List (ZMod p) → ZMod p) (t : Tx (ZMod p) G) : ZMod p :=
  H (txEncVar cv t)
/-- crh/mod.rs:51-80 `PublicKeyCRH`. -/
def pkCRH (cv : Curve p q G) (H : List (ZMod p) → ZMod p) (P : G) : ZMod p := H (pkEnc cv P)
/-- crh/constraints.rs:85-99 `PublicKeyVarCRH`. -/
def pkVarCRH (cv : Curve p q G) (H : List (ZMod p) → ZMod p) (P : G) : ZMod p := H (pkEncVar cv P)
/-- crh/mod.rs:86-105 `NonceCRH`. -/
def nonceCRH (H : List (ZMod p) → ZMod p) (n : Nat) : ZMod p := H [(n : ZMod p)]
/-- crh/constraints.rs:64-75 `NonceVarCRH` on a `UInt64` variable with little-endian bits `bits`;
`to_fp` is the packed value. -/
def nonceVarCRH (H : List (ZMod p) → ZMod p) (bits : List Bool) : ZMod p :=
  H [(Circuit.bitsVal bits : ZMod p)]
/-- crh/mod.rs:111-146 `UTXOCRH`. -/
def utxoCRH (cv : Curve p q G) (H : List (ZMod p) → ZMod p) (u : UTXO Nat G) : ZMod p :=
  H (utxoEnc cv u)
/-- crh/constraints.rs:107-126 `UTXOVarCRH`. -/
def utxoVarCRH (cv : Curve p q G) (H : List (ZMod p) → ZMod p) (u : UTXO (ZMod p) G) : ZMod p :=
  H (utxoEncVar cv u)
/-- crh/mod.rs:152-174 `BlockCRH`. -/
def blockCRH (H : List (ZMod p) → ZMod p) (b : Block (ZMod p)) : ZMod p := H (blockEnc b)
/-- crh/constraints.rs:132-151 `BlockVarCRH`. -/
def blockVarCRH (H : List (ZMod p) → ZMod p) (b : BlockVar (ZMod p)) : ZMod p := H (blockEncVar b)

/-! ## Tree configurations -/

/-- The two Poseidon functions used everywhere: sponge `CRH` and `TwoToOneCRH`.
primitives/crh/mod.rs, primitives/crh/constraints.rs:96-130. -/
structure Hashes (p : Nat) where
  crh : List (ZMod p) → ZMod p
  h2 : ZMod p → ZMod p → ZMod p

/-- utxo/mod.rs:64-82 `UTXOTreeConfig`. -/
def utxoTreeCfg (cv : Curve p q G) (hs : Hashes p) : MT.Config (UTXO Nat G) (ZMod p) :=
  { leafHash := utxoCRH cv hs.crh, h2 := hs.h2, dflt := UTXO.dummy, height := UTXO_TREE_HEIGHT }
/-- utxo/constraints.rs:58-77 `UTXOTreeConfigGadget`. -/
def utxoTreeCfgVar (cv : Curve p q G) (hs : Hashes p) : MT.Config (UTXO (ZMod p) G) (ZMod p) :=
  { leafHash := utxoVarCRH cv hs.crh, h2 := hs.h2, dflt := UTXO.dummy, height := UTXO_TREE_HEIGHT }
/-- transaction/mod.rs:114-137 `TransactionTreeConfig`. -/
def txTreeCfg (cv : Curve p q G) (hs : Hashes p) : MT.Config (Tx Nat G) (ZMod p) :=
  { leafHash := txCRH cv hs.crh, h2 := hs.h2, dflt := Tx.default, height := TX_TREE_HEIGHT }
/-- transaction/constraints.rs:81-105 `TransactionTreeConfigGadget`. -/
def txTreeCfgVar (cv : Curve p q G) (hs : Hashes p) : MT.Config (Tx (ZMod p) G) (ZMod p) :=
  { leafHash := txVarCRH cv hs.crh, h2 := hs.h2, dflt := Tx.default, height := TX_TREE_HEIGHT }
/-- signerlist/mod.rs:25-41 `SignerTreeConfig`. -/
def signerTreeCfg (cv : Curve p q G) (hs : Hashes p) : MT.Config G (ZMod p) :=
  { leafHash := pkCRH cv hs.crh, h2 := hs.h2, dflt := 0, height := SIGNER_TREE_HEIGHT }
/-- signerlist/constraints.rs:19-43 `SignerTreeConfigGadget`. -/
def signerTreeCfgVar (cv : Curve p q G) (hs : Hashes p) : MT.Config G (ZMod p) :=
  { leafHash := pkVarCRH cv hs.crh, h2 := hs.h2, dflt := 0, height := SIGNER_TREE_HEIGHT }
/-- noncemap/mod.rs:33-44 `NonceTreeConfig`. -/
def nonceTreeCfg (hs : Hashes p) : MT.Config Nat (ZMod p) :=
  { leafHash := nonceCRH hs.crh, h2 := hs.h2, dflt := 0, height := 32 }
/-- noncemap/constraints.rs `NonceTreeConfigGadget`. -/
def nonceTreeCfgVar (hs : Hashes p) : MT.Config (List Bool) (ZMod p) :=
  { leafHash := nonceVarCRH hs.crh, h2 := hs.h2, dflt := List.replicate 64 false, height := 32 }

end enc

/-! ## Transaction validity -/

/-- The iterator `utxos.iter().filter(|u| !u.is_dummy)`.
user/mod.rs:56, 63, transaction/mod.rs:88, 97, 103. -/
def nonDummy (us : List (UTXO A G)) : List (UTXO A G) := us.filter fun u => !u.isDummy

/-- `Iterator::sum::<u64>()`: left fold of `+` from 0 with the profile's overflow behaviour.
transaction/mod.rs:99, 105. -/
def sumU64 {ε : Type} (b : Build) (xs : List Nat) : Outcome ε Nat :=
  xs.foldlM (fun acc x => addU64 b acc x) 0

/-- transaction/mod.rs:82-111 `Transaction::is_valid`. -/
def Tx.isValid [DecidableEq G] (b : Build) (t : Tx Nat G) (sender : Option G) :
    Outcome TransactionError Unit :=
  let sender := sender.getD t.inputs[0].pk
  if (nonDummy t.inputs.toList).any (fun u => decide (u.pk ≠ sender)) then .err .invalidPublicKey
  else do
    let i ← sumU64 b ((nonDummy t.inputs.toList).map (·.amount))
    let o ← sumU64 b ((nonDummy t.outputs.toList).map (·.amount))
    if i ≠ o then .err .invalidAmounts else .ok ()

/-- transaction/constraints.rs:108-122 `enforce_valid`. -/
def Tx.enforceValid {p : Nat} (t : Tx (ZMod p) G) (sender : G) : Prop :=
  (∀ i ∈ t.inputs.toList, Circuit.condEq (!i.isDummy) i.pk sender) ∧
  let s := t.inputs.toList.foldl (fun s i => s + Circuit.select i.isDummy 0 i.amount) (0 : ZMod p)
  let s := t.outputs.toList.foldl (fun s o => s - Circuit.select o.isDummy 0 o.amount) s
  s = 0

/-- transaction/constraints.rs:124-131 `get_signer`. -/
def Tx.getSigner [Zero G] (t : Tx A G) : G :=
  t.inputs.toList.foldl (fun pk i => Circuit.select i.isDummy pk i.pk) 0

/-! ## User bookkeeping -/

/-- user/mod.rs:22-29 `User` (balance and nonce; the key pair is `sk`/`pk`, `acc` is never used). -/
structure User (S G : Type) where
  sk : S
  pk : G
  balance : Nat
  nonce : Nat
  id : Nat

/-- user/mod.rs:55-60 `spend_transaction`. -/
def User.spend {S : Type} (b : Build) (u : User S G) (t : Tx Nat G) : Outcome Unit (User S G) := do
  let bal ← (nonDummy t.inputs.toList).foldlM (fun bal x => subU64 b bal x.amount) u.balance
  let n ← addU64 b u.nonce 1
  .ok { u with balance := bal, nonce := n }

/-- user/mod.rs:62-66 `receive_transaction`. -/
def User.receive {S : Type} (b : Build) (u : User S G) (t : Tx Nat G) : Outcome Unit (User S G) := do
  let bal ← (nonDummy t.outputs.toList).foldlM (fun bal x => addU64 b bal x.amount) u.balance
  .ok { u with balance := bal }

end PF
