import Verif.Model.Contract
import Verif.Spec.Accumulator

/-!
# Specification of the contract's books, in terms of the history of calls
-/

namespace PF.Contract
variable {G : Type}

/-- A state-changing call on the contract. -/
inductive Call (G : Type) where
  | join (balance : Nat) (pk : G)
  | deposit (index amount : Nat)
deriving DecidableEq, Repr

/-- Perform one call. -/
def step [DecidableEq G] (b : Build) (s : State G) : Call G → Outcome Unit (State G)
  | .join bal pk => .ok (join s bal pk).1
  | .deposit i a => deposit b s i a

/-- Perform a sequence of calls. -/
def run [DecidableEq G] (b : Build) (s : State G) : List (Call G) → Outcome Unit (State G)
  | [] => .ok s
  | c :: cs => do run b (← step b s c) cs

/-- Keys registered by the calls, in order. -/
def joinedKeys (cs : List (Call G)) : List G :=
  cs.filterMap fun | .join _ pk => some pk | .deposit _ _ => none

/-- Initial balances of the registered accounts, in order. -/
def joinedBalances (cs : List (Call G)) : List Nat :=
  cs.filterMap fun | .join b _ => some b | .deposit _ _ => none

/-- The deposits, in order. -/
def depositCalls (cs : List (Call G)) : List (Nat × Nat) :=
  cs.filterMap fun | .join _ _ => none | .deposit i a => some (i, a)

/-- Sum of all deposits. -/
def totalDeposited (cs : List (Call G)) : Nat := ((depositCalls cs).map (·.2)).sum

/-- Sum of the deposits made by account `i`. -/
def depositedBy (cs : List (Call G)) (i : Nat) : Nat :=
  (((depositCalls cs).filter (fun d => d.1 = i)).map (·.2)).sum

/-- Sum of the deposits made by accounts registered under `pk`. -/
def depositedUnder [DecidableEq G] (keys : List G) (cs : List (Call G)) (pk : G) : Nat :=
  (((depositCalls cs).filter (fun d => keys[d.1]? = some pk)).map (·.2)).sum

/-! ## What the public inputs of a block stand for -/

/-- The bytes of the digest that reach the field: at most 31, at most the capacity. -/
def truncated (p : Nat) (sha : Sha) (bs : List Byte) : List Byte :=
  ((sha.digest bs).take 31).take (capBytes p)

section
variable {p q : Nat} [AddCommGroup G] [Module (ZMod q) G]

/-- Key meant by a signer entry of a block: zero point for "no signer". -/
def signerOf (pks : List G) : Option Nat → Option G
  | none => some 0
  | some i => pks[i]?

/-- Key and amount meant by a deposit or withdrawal entry of a block. -/
def entryOf (pks : List G) (e : Nat × Nat) : Option (G × Nat) := pks[e.1]?.map (·, e.2)

/-- Bytes hashed for a signer. -/
def signerInput (cv : Curve p q G) (a : ZMod p) (P : G) : List Byte := fBytes a ++ pkBytes cv P
/-- Bytes hashed for a deposit or withdrawal. -/
def amountInput (cv : Curve p q G) (a : ZMod p) (e : G × Nat) : List Byte :=
  fBytes a ++ pkBytes cv e.1 ++ bytesLe 8 e.2

end

/-- Amounts of a block fit `u64`. -/
def BlockAmounts {F : Type} (b : Block F) : Prop :=
  (∀ d ∈ b.deposits, d.2 < 2 ^ 64) ∧ (∀ w ∈ b.withdrawals, w.2 < 2 ^ 64)

end PF.Contract
