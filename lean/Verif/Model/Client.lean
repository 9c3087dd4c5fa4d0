import Verif.Model.SparseMTGadget
import Verif.Model.Data
import Verif.Model.Accumulator

/-!
# Model of the client circuit (client/src/circuits/mod.rs, client/src/lib.rs)

A step is a relation between the state before (`z_i`), the external inputs and the state after; a
gadget contributes its constraints. Witness bits that a gadget leaves free are existentially quantified
in the gadget's own definition.
-/

set_option linter.unusedSectionVars false

namespace PF.Client
open PF.Circuit PF.MT

variable {p q : Nat} {G : Type} [AddCommGroup G] [Module (ZMod q) G] [DecidableEq G]

/-- client/src/circuits/mod.rs:44-53 `UserCircuit`: the sponge and compression hash (`pp`) and the
accumulator `A::update(acc_pp, ·, ·)`. -/
structure Params (p : Nat) where
  hs : Hashes p
  acc : ZMod p → ZMod p → ZMod p

/-- client/src/lib.rs:64-84 `ClientCircuitPoseidon::generate_step_constraints`: one Poseidon
configuration for everything. -/
def poseidonParams (hs : Hashes p) : Params p := ⟨hs, poseidonAccVar hs.h2⟩

/-- client/src/lib.rs:121-142 `ClientCircuitSha::generate_step_constraints`: SHA-256 accumulator. -/
def shaParams (hs : Hashes p) (sha : Sha) : Params p := ⟨hs, shaAccVar sha⟩

/-- client/src/circuits/mod.rs:213-229: the seven elements of `z_i` (`state_len`,
client/src/lib.rs:60-62, 117-119). -/
structure UState (p : Nat) where
  balance : ZMod p
  nonce : ZMod p
  pkHash : ZMod p
  acc : ZMod p
  prevBlockHash : ZMod p
  prevBlockNumber : ZMod p
  prevTxIndex : ZMod p
deriving DecidableEq

/-- client/src/circuits/mod.rs:327-336: order of the elements of the state. -/
def UState.toList (z : UState p) : List (ZMod p) :=
  [z.balance, z.nonce, z.pkHash, z.acc, z.prevBlockHash, z.prevBlockNumber, z.prevTxIndex]

/-- client/src/circuits/mod.rs:78-89 `UserAux` (`u64` indices as `Nat`). -/
structure UserAux (p : Nat) (G : Type) where
  txProofs : List (List (ZMod p × ZMod p))
  signerProofs : List (List (ZMod p × ZMod p))
  block : Block (ZMod p)
  transactions : List (Tx Nat G × Nat)
  pk : G

/-- client/src/circuits/mod.rs:120-135 `UserAuxVar`. -/
structure UserAuxVar (p : Nat) (G : Type) where
  txProofs : List (List (ZMod p × ZMod p))
  signerProofs : List (List (ZMod p × ZMod p))
  block : BlockVar (ZMod p)
  transactions : List (Tx (ZMod p) G × ZMod p)
  pk : G

/-- sparsemt/mod.rs:72-80 `MerkleSparseTreePath::default`. -/
def defaultPath (p height : Nat) : List (ZMod p × ZMod p) := List.replicate (height - 1) (0, 0)

/-- client/src/circuits/mod.rs:91-118 `UserAux::default` (`Block::default`: zeros and empty lists). -/
def UserAux.default (p : Nat) (G : Type) [Zero G] (n : Nat) : UserAux p G where
  txProofs := List.replicate n (defaultPath p TX_TREE_HEIGHT)
  signerProofs := List.replicate n (defaultPath p SIGNER_TREE_HEIGHT)
  block := ⟨0, 0, 0, [], 0, [], []⟩
  transactions := List.replicate n (Tx.default, 0)
  pk := 0

/-- client/src/circuits/mod.rs:137-184 `UserAuxVar::new_variable`. -/
def UserAux.alloc (a : UserAux p G) : UserAuxVar p G where
  txProofs := a.txProofs
  signerProofs := a.signerProofs
  block := a.block.alloc
  transactions := a.transactions.map fun x => (x.1.alloc p, (x.2 : ZMod p))
  pk := a.pk

/-- client/src/circuits/mod.rs:206-210: hash of the padding transaction (`Transaction::dummy(())` is
`Transaction::default()`, external blanket implementation). -/
def dummyHash (cv : Curve p q G) (P : Params p) : ZMod p := txCRH cv P.hs.crh (Tx.default : Tx Nat G)

/-- client/src/circuits/mod.rs:302-305, one input: `balance -= amount * (input.pk == pk)`; the flag
`is_dummy` is not looked at. -/
def debit (pk : G) (bal : ZMod p) (u : UTXO (ZMod p) G) : ZMod p :=
  bal - u.amount * boolF (decide (u.pk = pk))

/-- client/src/circuits/mod.rs:309-312, one output: `balance += amount * (output.pk == pk)`; the flag
`is_dummy` is not looked at. -/
def credit (pk : G) (bal : ZMod p) (u : UTXO (ZMod p) G) : ZMod p :=
  bal + u.amount * boolF (decide (u.pk = pk))

/-- The variables updated by the loop over transactions, client/src/circuits/mod.rs:213-229. -/
structure Loop (p : Nat) where
  balance : ZMod p
  nonce : ZMod p
  prevTxIndex : ZMod p
deriving DecidableEq

/-- client/src/circuits/mod.rs:262-319: one iteration, for transaction `t` at `index` with the two paths
shown for it, in block `blk`, for the user with key `pk`. -/
def txStep (P : Params p) (cv : Curve p q G) (blk : BlockVar (ZMod p)) (pk : G)
    (s : Loop p) (t : Tx (ZMod p) G) (index : ZMod p)
    (txPath signerPath : List (ZMod p × ZMod p)) (s' : Loop p) : Prop :=
  -- 262-263
  let regular : Bool := decide (txVarCRH cv P.hs.crh t ≠ dummyHash cv P)
  -- 266-269
  (∃ lower : Bool, isLess s.prevTxIndex index lower ∧ condEq regular lower true) ∧
  -- 273-280
  condCheckMembershipIdx (txTreeCfgVar cv P.hs) txPath blk.txRoot t index regular ∧
  -- 282-293
  condCheckMembership (signerTreeCfgVar cv P.hs) signerPath blk.signerRoot t.getSigner regular ∧
  -- 297-319
  s' = { nonce := s.nonce + boolF (decide (pk = t.getSigner))
         balance := t.outputs.toList.foldl (credit pk) (t.inputs.toList.foldl (debit pk) s.balance)
         prevTxIndex := (1 - boolF regular) * s.prevTxIndex + boolF regular * index }

/-- client/src/circuits/mod.rs:251-260: the loop runs over the zipped lists. -/
def txLoop (P : Params p) (cv : Curve p q G) (blk : BlockVar (ZMod p)) (pk : G) :
    List (((Tx (ZMod p) G × ZMod p) × List (ZMod p × ZMod p)) × List (ZMod p × ZMod p)) →
    Loop p → Loop p → Prop
  | [], s, s' => s' = s
  | (((t, i), tp), sp) :: rest, s, s' =>
    ∃ s1, txStep P cv blk pk s t i tp sp s1 ∧ txLoop P cv blk pk rest s1 s'

/-- client/src/circuits/mod.rs:196-337 `update_balance` with `N_TX_PER_FOLD_STEP = n`. The assertions on
the lengths (202-204) are part of the relation: a violation panics. -/
def updateBalance (P : Params p) (cv : Curve p q G) (n : Nat) (z : UState p) (a : UserAuxVar p G)
    (z' : UState p) : Prop :=
  a.txProofs.length = n ∧ a.transactions.length = n ∧ a.signerProofs.length = n ∧
  -- 232-233
  pkVarCRH cv P.hs.crh a.pk = z.pkHash ∧
  -- 236-237
  let blockHash := blockVarCRH P.hs.crh a.block
  let acc := P.acc z.acc blockHash
  -- 240
  enforceLe z.prevBlockNumber a.block.height ∧
  -- 244-249
  let prev := select (decide (blockHash = z.prevBlockHash)) z.prevTxIndex 0
  -- 251-320
  ∃ s', txLoop P cv a.block a.pk ((a.transactions.zip a.txProofs).zip a.signerProofs)
      ⟨z.balance, z.nonce, prev⟩ s' ∧
    -- 324-336
    z' = { balance := s'.balance, nonce := s'.nonce, pkHash := z.pkHash, acc := acc,
           prevBlockHash := blockHash, prevBlockNumber := a.block.height,
           prevTxIndex := s'.prevTxIndex }

/-- The steps folded one after the other (the folding scheme itself is not modelled); in
`ClientCircuitPoseidon` and `ClientCircuitSha` each step is one call of `update_balance`
(client/src/lib.rs:83, 141). -/
def runSteps (P : Params p) (cv : Curve p q G) (n : Nat) :
    UState p → List (UserAuxVar p G) → UState p → Prop
  | z, [], z' => z' = z
  | z, a :: rest, z' => ∃ z1, updateBalance P cv n z a z1 ∧ runSteps P cv n z1 rest z'

end PF.Client
