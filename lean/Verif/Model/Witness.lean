import Verif.Model.Client
import Verif.Model.AggregatorCircuit

/-!
# Witness generation

The other circuit modules say which assignments satisfy the constraints. This module says which assignment
the code itself computes: every internal witness is given a value by a closure in the source, the values flow
through the gadgets, and the constraint system records whether all constraints are met.

A run of the synthesis panics, or it ends with a value `v` and a flag `ok` which says whether the constraints
emitted are satisfied (`ConstraintSystem::is_satisfied`). An unsatisfied constraint does not stop the
synthesis.
-/

namespace PF.Wit
open PF PF.Circuit PF.MT

/-- Result of a synthesis.
Library: constraint synthesis as driven by aggregator/src/circuit.rs:272-430, client/src/circuits/mod.rs:196-337. -/
inductive Syn (α : Type) where
  | panic
  | done (ok : Bool) (v : α)

/-- Sequencing: values flow, a panic stops, satisfaction is the conjunction.
Library (`?` in aggregator/src/circuit.rs:272-430, client/src/circuits/mod.rs:196-337). -/
def Syn.bind {α β : Type} (x : Syn α) (f : α → Syn β) : Syn β :=
  match x with
  | .panic => .panic
  | .done b a =>
    match f a with
    | .panic => .panic
    | .done b' c => .done (b && b') c

instance : Monad Syn where
  pure a := .done true a
  bind := Syn.bind

/-- A constraint.
Library (`enforce_equal`), used at aggregator/src/circuit.rs:272-430, client/src/circuits/mod.rs:196-337. -/
def enforce (b : Bool) : Syn Unit := .done b ()

/-- `assert!`.
Assertions reached from sparsemt/constraints.rs:74-345. -/
def assert (b : Bool) : Syn Unit := if b then .done true () else .panic

/-- `conditional_enforce_equal`.
Library gadget, used at sparsemt/constraints.rs:100-138, 192-205, aggregator/src/circuit.rs:340, 375, 386. -/
def condEnforce {α : Type} [DecidableEq α] (on : Bool) (x y : α) : Syn Unit := enforce (!on || decide (x = y))

variable {p q : Nat} {G : Type}

/-! ## Gadgets with hints -/

/-- schnorr.rs:96-108: the helper bits. The scan goes from the most significant chunk down and stops at the
first chunk where `y` is larger; the list is little-endian, so the tail is scanned first. -/
def ltHelper : List (ZMod p × ZMod p) → List Bool
  | [] => []
  | (x, y) :: rest =>
    (if (ltHelper rest).any id then false else decide (x.val < y.val)) :: ltHelper rest

/-- schnorr.rs:110-116 with the helper bits given. -/
def ltLoop : List Bool → List (ZMod p) → ZMod p → ZMod p → Syn (ZMod p × ZMod p)
  | b :: bs, d :: ds, c, r => do
    enforce (decide (r * d = 0))
    ltLoop bs ds (c + select b d 0) (r + boolF b)
  | _, _, c, r => pure (c, r)

/-- schnorr.rs:75-126 `enforce_lt::<F, W>`. -/
def enforceLt (p W : Nat) (x y : List Bool) : Syn Unit := do
  let xs := Schnorr.chunkVals p W x
  let ys := Schnorr.chunkVals p W y
  let pairs := (List.range (max xs.length ys.length)).map fun i => (xs.getD i 0, ys.getD i 0)
  let (c, r) ← ltLoop (ltHelper pairs) (Schnorr.deltas xs ys) 0 0
  -- 117-123: the bits are the low `W` bits of the canonical value of `c - 1`
  enforce (decide (((bitsVal (natBits W (c - 1).val) : Nat) : ZMod p) = c - 1))
  enforce (decide (r = 1))

/-- aggregator/src/circuit.rs:46-58 `to_n_bits(n)`: the low `n` bits of the canonical value
(`le_bits_to_fp` additionally enforces canonicity when `n` reaches the field's bit size). -/
def toNBits (x : ZMod p) (n : Nat) : Syn (List Bool) := do
  let bits := natBits n x.val
  enforce (decide (modBits p ≤ n → bitsVal bits < p))
  enforce (decide ((bitsVal bits : ZMod p) = x))
  pure bits

/-- sparsemt/constraints.rs:111-138: `previous_is_left` is computed by comparison with the left hash. -/
def memLoop (h2 : ZMod p → ZMod p → ZMod p) (on : Bool) : List (ZMod p × ZMod p) → ZMod p → Syn (ZMod p)
  | [], prev => pure prev
  | (l, r) :: rest, prev => do
    condEnforce on prev (select (decide (prev = l)) l r)
    memLoop h2 on rest (h2 l r)

/-- sparsemt/constraints.rs:74-139 `conditionally_check_membership`. -/
def condCheckMembership {L : Type} (cfg : Config L (ZMod p)) (path : List (ZMod p × ZMod p)) (root : ZMod p)
    (leaf : L) (on : Bool) : Syn Unit := do
  assert (decide (path.length = cfg.height - 1))
  let lh := cfg.leafHash leaf
  match path with
  | [] => .panic
  | (l, r) :: _ => do
    condEnforce on lh (select (decide (lh = l)) l r)
    let prev ← memLoop cfg.h2 on path lh
    condEnforce on root prev

/-- sparsemt/constraints.rs:187-205: no hint; `index_bits[i]` out of bounds panics. -/
def memIdxLoop (h2 : ZMod p → ZMod p → ZMod p) (on : Bool) :
    List (ZMod p × ZMod p) → List Bool → ZMod p → Syn (ZMod p)
  | [], _, prev => pure prev
  | _ :: _, [], _ => .panic
  | (l, r) :: rest, bit :: bits, prev => do
    condEnforce on prev (select (!bit) l r)
    memIdxLoop h2 on rest bits (h2 l r)

/-- sparsemt/constraints.rs:164-206 `conditionally_check_membership_with_index`. -/
def condCheckMembershipIdx {L : Type} (cfg : Config L (ZMod p)) (path : List (ZMod p × ZMod p))
    (root : ZMod p) (leaf : L) (index : ZMod p) (on : Bool) : Syn Unit := do
  assert (decide (path.length = cfg.height - 1))
  let prev ← memIdxLoop cfg.h2 on path (toBitsLe index) (cfg.leafHash leaf)
  condEnforce on root prev

/-- `FpVar::is_cmp(Ordering::Less, false)`: constraints and output bit.
Library gadget, used at client/src/circuits/mod.rs:267. -/
def isLess (l r : ZMod p) : Syn Bool := do
  enforce (decide (l.val ≤ (p - 1) / 2 ∧ r.val ≤ (p - 1) / 2))
  pure (cmpBit l r)

/-- `FpVar::enforce_cmp(Ordering::Less, true)`.
Library gadget, used at client/src/circuits/mod.rs:240. -/
def enforceLe (l r : ZMod p) : Syn Unit := do
  let b ← isLess l (r + 1)
  enforce b

section
variable [AddCommGroup G] [Module (ZMod q) G]

/-- schnorr.rs:166-197 `SchnorrGadget::is_valid::<W>`. -/
def isValidGadget (W : Nat) (cv : Curve p q G) (H : List (ZMod p) → ZMod p) (pk : G) (m : List (ZMod p))
    (s e : List Bool) : Syn Bool := do
  let len := modBits q
  let h := Schnorr.challengeBits cv H pk m s e
  enforceLt p W h (natBits len q)
  pure (decide ((bitsVal (h.take (len - 1)) : ZMod p) = bitsVal (e.take (len - 1))) &&
    decide (h[len - 1]? = e[len - 1]?))

variable [DecidableEq G]

/-- transaction/constraints.rs:109-112: the loop over the inputs. -/
def ownerLoop (sender : G) : List (UTXO (ZMod p) G) → Syn Unit
  | [] => pure ()
  | u :: us => do
    condEnforce (!u.isDummy) u.pk sender
    ownerLoop sender us

/-- transaction/constraints.rs:108-122 `enforce_valid`. -/
def enforceValid (t : Tx (ZMod p) G) (sender : G) : Syn Unit := do
  ownerLoop sender t.inputs.toList
  let s := t.inputs.toList.foldl (fun s i => s + select i.isDummy 0 i.amount) (0 : ZMod p)
  let s := t.outputs.toList.foldl (fun s o => s - select o.isDummy 0 o.amount) s
  enforce (decide (s = 0))

/-! ## Aggregator -/

/-- aggregator/src/circuit.rs:333-341 (and 367-376, 379-387), with the assertion of `update_root`. -/
def condUpdate {L : Type} (cfg : Config L (ZMod p)) (on : Bool) (pos : ZMod p) (proof : List (ZMod p))
    (old new : L) (r : ZMod p) : Syn (ZMod p) := do
  assert (decide (proof.length = cfg.height - 1))
  let u := updateRoot cfg proof old new pos
  condEnforce on r u.1
  pure (select on u.2 r)

/-- aggregator/src/circuit.rs:330-342. Lists of different lengths do not occur in the source (fixed-size
arrays). -/
def delLoop (cv : Curve p q G) (hs : Hashes p) (sigOk : Bool) :
    List (UTXO (ZMod p) G) → List (ZMod p × List (ZMod p)) → ZMod p → Syn (ZMod p)
  | u :: us, d :: ds, r => do
    let r1 ← condUpdate (utxoTreeCfgVar cv hs) (sigOk && !u.isDummy) d.1 d.2 u UTXO.dummy r
    delLoop cv hs sigOk us ds r1
  | [], [], r => pure r
  | _, _, _ => .panic

/-- aggregator/src/circuit.rs:348-362. -/
def depositStep (P : AggC.Params p G) (cv : Curve p q G) (senderIsContract : Bool) (u : UTXO (ZMod p) G)
    (dep : ZMod p) : Syn (ZMod p) :=
  if P.transferOnly then pure dep
  else do
    let bits ← toNBits u.amount 64
    pure (select (senderIsContract && !u.isDummy)
      (shaFieldVar p P.sha (fBytesVar dep ++ pkBytesVar cv u.pk ++ bytesOfBits bits)) dep)

/-- aggregator/src/circuit.rs:345-377: deposit accumulator, withdrawal amount, UTXO root. -/
def addLoop (P : AggC.Params p G) (cv : Curve p q G) (senderIsContract txOk : Bool) :
    List (UTXO (ZMod p) G) → List (ZMod p × List (ZMod p)) → (dep w r : ZMod p) →
      Syn (ZMod p × ZMod p × ZMod p)
  | u :: us, a :: as, dep, w, r => do
    let dep1 ← depositStep P cv senderIsContract u dep
    let r1 ← condUpdate (utxoTreeCfgVar cv P.hs) (txOk && !decide (u.pk = P.contract) && !u.isDummy) a.1 a.2
      UTXO.dummy u r
    addLoop P cv senderIsContract txOk us as dep1
      (w + select (decide (u.pk = P.contract) && !u.isDummy) u.amount 0) r1
  | [], [], dep, w, r => pure (dep, w, r)
  | _, _, _, _, _ => .panic

/-- aggregator/src/circuit.rs:402-416. -/
def withdrawalStep (P : AggC.Params p G) (cv : Curve p q G) (senderPk : G) (w acc : ZMod p) : Syn (ZMod p) :=
  if P.transferOnly then pure acc
  else do
    let bits ← toNBits w 64
    pure (select (decide (w = 0)) acc
      (shaFieldVar p P.sha (fBytesVar acc ++ pkBytesVar cv senderPk ++ bytesOfBits bits)))

/-- aggregator/src/circuit.rs:292-418: one transaction. Signature strings of other lengths do not occur in
the source (keypair/constraints.rs:67-83). -/
def stepOne (P : AggC.Params p G) (cv : Curve p q G) (z : AggC.CState p) (i : AggC.CInputs p G) :
    Syn (AggC.CState p) := do
  assert (decide (i.sigS.length = modBits q ∧ i.sigE.length = modBits q))
  enforceValid i.tx i.senderPk
  let txRoot ← condUpdate (txTreeCfgVar cv P.hs) true z.step i.txProof Tx.default i.tx z.txRoot
  let sigOk ← isValidGadget 32 cv P.hs.crh i.senderPk (txEncVar cv i.tx ++ [z.txRootFinal]) i.sigS i.sigE
  let isContract := decide (i.senderPk = P.contract)
  let txOk := sigOk || isContract
  let r1 ← delLoop cv P.hs sigOk i.tx.inputs.toList i.dels z.utxoRoot
  let (dep, w, r2) ← addLoop P cv isContract txOk i.tx.outputs.toList i.adds z.depositAcc 0 r1
  let signerRoot ← condUpdate (signerTreeCfgVar cv P.hs) txOk z.step i.signerProof 0 i.senderPk z.signerRoot
  let signerAcc := shaFieldVar p P.sha (fBytesVar z.signerAcc ++ pkBytesVar cv (select txOk i.senderPk 0))
  let withdrawalAcc ← withdrawalStep P cv i.senderPk w z.withdrawalAcc
  pure { step := z.step + 1, utxoRoot := r2, txRoot := txRoot, txRootFinal := z.txRootFinal,
         signerRoot := signerRoot, signerAcc := signerAcc, depositAcc := dep, withdrawalAcc := withdrawalAcc }

/-- aggregator/src/circuit.rs:292-419 `generate_step_constraints`. -/
def stepBatch (P : AggC.Params p G) (cv : Curve p q G) : AggC.CState p → List (AggC.CInputs p G) →
    Syn (AggC.CState p)
  | z, [] => pure z
  | z, i :: is => do
    let z1 ← stepOne P cv z i
    stepBatch P cv z1 is

/-- The steps of an epoch synthesised one after the other, each from the state the previous one computed
(test aggregator/src/circuit.rs:636-640). -/
def runBatches (P : AggC.Params p G) (cv : Curve p q G) : AggC.CState p → List (List (AggC.CInputs p G)) →
    Syn (AggC.CState p)
  | z, [] => pure z
  | z, b :: bs => do
    let z1 ← stepBatch P cv z b
    runBatches P cv z1 bs

/-- aggregator/src/circuit.rs:69-80 `AggregatorCircuitInputs::default` (derived; sparsemt/mod.rs:82-90 for the
proofs; a default position is 0). The folding scheme is set up with a batch of these (88-94). -/
def defaultInputs (p q : Nat) (G : Type) [Zero G] : Agg.Inputs p q G where
  tx := Tx.default
  txProof := List.replicate (TX_TREE_HEIGHT - 1) 0
  dels := List.replicate TX_IO_SIZE (0, List.replicate (UTXO_TREE_HEIGHT - 1) 0)
  adds := List.replicate TX_IO_SIZE (0, List.replicate (UTXO_TREE_HEIGHT - 1) 0)
  signerProof := List.replicate (SIGNER_TREE_HEIGHT - 1) 0
  senderPk := 0
  signature := (0, 0)

/-! ## Client -/

/-- client/src/circuits/mod.rs:262-319: one iteration. -/
def txStep (P : Client.Params p) (cv : Curve p q G) (blk : BlockVar (ZMod p)) (pk : G)
    (s : Client.Loop p) (t : Tx (ZMod p) G) (index : ZMod p) (txPath signerPath : List (ZMod p × ZMod p)) :
    Syn (Client.Loop p) := do
  let regular : Bool := decide (txVarCRH cv P.hs.crh t ≠ Client.dummyHash cv P)
  let lower ← isLess s.prevTxIndex index
  condEnforce regular lower true
  condCheckMembershipIdx (txTreeCfgVar cv P.hs) txPath blk.txRoot t index regular
  condCheckMembership (signerTreeCfgVar cv P.hs) signerPath blk.signerRoot t.getSigner regular
  pure { nonce := s.nonce + boolF (decide (pk = t.getSigner))
         balance := t.outputs.toList.foldl (Client.credit pk) (t.inputs.toList.foldl (Client.debit pk) s.balance)
         prevTxIndex := (1 - boolF regular) * s.prevTxIndex + boolF regular * index }

/-- client/src/circuits/mod.rs:251-260: the loop over the zipped lists. -/
def txLoop (P : Client.Params p) (cv : Curve p q G) (blk : BlockVar (ZMod p)) (pk : G) :
    List (((Tx (ZMod p) G × ZMod p) × List (ZMod p × ZMod p)) × List (ZMod p × ZMod p)) →
    Client.Loop p → Syn (Client.Loop p)
  | [], s => pure s
  | (((t, i), tp), sp) :: rest, s => do
    let s1 ← txStep P cv blk pk s t i tp sp
    txLoop P cv blk pk rest s1

/-- client/src/circuits/mod.rs:196-337 `update_balance` with `N_TX_PER_FOLD_STEP = n`. -/
def updateBalance (P : Client.Params p) (cv : Curve p q G) (n : Nat) (z : Client.UState p)
    (a : Client.UserAuxVar p G) : Syn (Client.UState p) := do
  assert (decide (a.txProofs.length = n))
  assert (decide (a.transactions.length = n))
  assert (decide (a.signerProofs.length = n))
  enforce (decide (pkVarCRH cv P.hs.crh a.pk = z.pkHash))
  let blockHash := blockVarCRH P.hs.crh a.block
  let acc := P.acc z.acc blockHash
  enforceLe z.prevBlockNumber a.block.height
  let prev := select (decide (blockHash = z.prevBlockHash)) z.prevTxIndex 0
  let s' ← txLoop P cv a.block a.pk ((a.transactions.zip a.txProofs).zip a.signerProofs)
    ⟨z.balance, z.nonce, prev⟩
  pure { balance := s'.balance, nonce := s'.nonce, pkHash := z.pkHash, acc := acc,
         prevBlockHash := blockHash, prevBlockNumber := a.block.height, prevTxIndex := s'.prevTxIndex }

/-- The steps of a client run synthesised one after the other (client/src/lib.rs:83, 141). -/
def runUser (P : Client.Params p) (cv : Curve p q G) (n : Nat) : Client.UState p →
    List (Client.UserAuxVar p G) → Syn (Client.UState p)
  | z, [] => pure z
  | z, a :: rest => do
    let z1 ← updateBalance P cv n z a
    runUser P cv n z1 rest

end
end PF.Wit
