import Verif.Spec.Aggregator
import Verif.Spec.AggregatorCircuit

/-!
# Specification: transactions that have nothing to do with a rollup contract
-/

namespace PF.Spec
open PF PF.Agg
variable {p q : Nat} {G : Type}

/-- No UTXO of the transaction belongs to the key (dummies, which carry no key, do not count). -/
def Foreign {F : Type} (k : G) (tx : Tx F G) : Prop :=
  ∀ u ∈ tx.inputs.toList ++ tx.outputs.toList, u.isDummy = false → u.pk ≠ k

/-- A circuit input whose sender is not the key and whose transaction has nothing to do with the key. -/
def ForeignInput {F : Type} (k sender : G) (tx : Tx F G) : Prop := sender ≠ k ∧ Foreign k tx

end PF.Spec
