import Verif.Model.AggregatorCircuit

/-!
# Batches of circuit inputs

`/repo/aggregator/src/circuit.rs`: a step of the circuit takes exactly `B` inputs
(`BatchedAggregatorCircuitInputs([AggregatorCircuitInputs; B])`, 82-86); the driver cuts the recorded inputs
with `array_chunks::<B>()` (circuit.rs:636).
-/

namespace PF.AggC

/-- circuit.rs:636 `into_iter().array_chunks::<B>()`: the full chunks of `n` elements; what remains at the end
is dropped. -/
def arrayChunks {α : Type} (n : Nat) (l : List α) : List (List α) :=
  (List.range (l.length / n)).map fun k => (l.drop (k * n)).take n

end PF.AggC
