import Verif.Spec.Order

/-!
# Specification vocabulary for payments out of many UTXOs
-/

namespace PF.Spec
open PF PF.Agg
variable {G : Type} [DecidableEq G]

/-- UTXOs of `owner` with the given amounts. -/
def holdings (owner : G) (amounts : List Nat) : List (UTXO Nat G) := amounts.map (UTXO.new owner)

/-- What a payment of `a` to `receiver` with the change `c` for `owner` leaves in the ledger: a payment to the contract
leaves nothing, and there is no change of zero. -/
def paidOut (rollup owner receiver : G) (a c : Nat) : List (UTXO Nat G) :=
  (if receiver = rollup then [] else [UTXO.new receiver a]) ++ (if c = 0 then [] else [UTXO.new owner c])

end PF.Spec
