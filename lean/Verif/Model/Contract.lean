import Verif.Model.Accumulator

/-!
# Model of the mock L1 contract

`/repo/mock-contract/src/lib.rs`. `add_block` and `verify_proof` are `unimplemented!` there.
`HashMap` is an association list with at most one entry per key.
-/

namespace PF

/-- `HashMap<K, V>`.
Library type, used at mock-contract/src/lib.rs:28, 35. -/
abbrev HMap (K V : Type) := List (K × V)

namespace HMap
variable {K V : Type} [DecidableEq K]

/-- `HashMap::get`.
Library function, used at mock-contract/src/lib.rs:50-90, aggregator/src/lib.rs:235. -/
def get : HMap K V → K → Option V
  | [], _ => none
  | (k', v) :: t, k => if k = k' then some v else get t k

/-- `HashMap::insert` / assignment through `entry`.
Library function, used at mock-contract/src/lib.rs:57 and for `deposits` (35). -/
def insert (m : HMap K V) (k : K) (v : V) : HMap K V := (k, v) :: m.filter (fun e => e.1 ≠ k)

end HMap

namespace Contract
variable {p q : Nat} {G : Type}

/-- `MockContract` (lib.rs:26-36); `l1_accounts` holds balances. `block_hashes` is never written. -/
structure State (G : Type) where
  pks : List G
  pkIndices : HMap G Nat
  accounts : List Nat
  nonces : List Nat
  deposits : HMap G Nat
deriving DecidableEq, Repr

/-- lib.rs:54-61 `join`. -/
def join [DecidableEq G] (s : State G) (balance : Nat) (pk : G) : State G × Nat :=
  let index := s.pks.length
  ({ s with
      pks := s.pks ++ [pk]
      pkIndices := s.pkIndices.insert pk index
      accounts := s.accounts ++ [balance]
      nonces := s.nonces ++ [0] }, index)

/-- lib.rs:39-51 `new`. -/
def new [DecidableEq G] (contractPk : G) : State G :=
  (join { pks := [], pkIndices := [], accounts := [], nonces := [], deposits := [] } 0 contractPk).1

/-- lib.rs:19-23 `L1Account::transfer`: new balances of (`self`, `other`). The assertion makes the
subtraction safe. -/
def transfer (b : Build) (self other amount : Nat) : Outcome Unit (Nat × Nat) :=
  if self ≥ amount then do
    let o ← addU64 b other amount
    .ok (self - amount, o)
  else .panic

/-- lib.rs:67-70: `entry(pk).and_modify(|e| *e += amount).or_insert(amount)`, the new value. -/
def entryAdd (b : Build) (old : Option Nat) (amount : Nat) : Outcome Unit Nat :=
  match old with
  | some e => addU64 b e amount
  | none => .ok amount

/-- lib.rs:64-71 `deposit`: `split_at_mut(index)` panics if `index > len`, `r[0]` if `index = len`,
`l[0]` if `index = 0`. -/
def deposit [DecidableEq G] (b : Build) (s : State G) (index amount : Nat) :
    Outcome Unit (State G) :=
  if index > s.accounts.length then .panic
  else do
    let r0 ← Outcome.unwrap s.accounts[index]?
    let l0 ← Outcome.unwrap (s.accounts.take index)[0]?
    let (r0', l0') ← transfer b r0 l0 amount
    let pk ← Outcome.unwrap s.pks[index]?
    let d ← entryAdd b (s.deposits.get pk) amount
    .ok { s with
      accounts := (s.accounts.set index r0').set 0 l0'
      deposits := s.deposits.insert pk d }

section
variable [AddCommGroup G] [Module (ZMod q) G]

/-- lib.rs:89-93: key of a signer entry, zero for `None`. -/
def signerKey (pks : List G) : Option Nat → Outcome Unit G
  | some i => Outcome.unwrap pks[i]?
  | none => .ok 0

/-- Loop of lib.rs:88-104 (signer accumulator). -/
def signerAcc (cv : Curve p q G) (sha : Sha) (pks : List G) :
    List (Option Nat) → ZMod p → Outcome Unit (ZMod p)
  | [], acc => .ok acc
  | i :: rest, acc => do
    let pk ← signerKey pks i
    signerAcc cv sha pks rest (shaField p sha (fBytes acc ++ pkBytes cv pk))

/-- Loops of lib.rs:107-122 (deposits) and 124-139 (withdrawals). -/
def amountAcc (cv : Curve p q G) (sha : Sha) (pks : List G) :
    List (Nat × Nat) → ZMod p → Outcome Unit (ZMod p)
  | [], acc => .ok acc
  | (i, amount) :: rest, acc => do
    let pk ← Outcome.unwrap pks[i]?
    amountAcc cv sha pks rest (shaField p sha (fBytes acc ++ pkBytes cv pk ++ bytesLe 8 amount))

/-- lib.rs:77-153 `derive_public_inputs`. -/
def derivePublicInputs (cv : Curve p q G) (sha : Sha) (s : State G) (b : Block (ZMod p)) :
    Outcome Unit (List (ZMod p)) := do
  let sa ← signerAcc cv sha s.pks b.signers 0
  let da ← amountAcc cv sha s.pks b.deposits 0
  let wa ← amountAcc cv sha s.pks b.withdrawals 0
  .ok [(b.signers.length : ZMod p), b.utxoRoot, b.txRoot, b.txRoot, b.signerRoot, sa, da, wa]

end
end Contract
end PF
