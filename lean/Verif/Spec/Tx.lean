import Verif.Model.Data

/-!
# Specification vocabulary for transactions
-/

namespace PF
variable {A G : Type} {p : Nat}

/-- Sum of the amounts of the UTXOs that are not dummies, as a natural number (no overflow). -/
def totalOf (us : List (UTXO Nat G)) : Nat :=
  (us.map fun u => if u.isDummy then 0 else u.amount).sum

/-- The same for circuit UTXOs: canonical representatives, summed in the naturals. -/
def totalVal (us : List (UTXO (ZMod p) G)) : Nat :=
  (us.map fun u => if u.isDummy then 0 else u.amount.val).sum

/-- All non-dummy UTXOs of the list belong to `pk`. -/
def OwnedBy (pk : G) (us : List (UTXO A G)) : Prop := ∀ u ∈ us, u.isDummy = false → u.pk = pk

instance [DecidableEq G] (pk : G) (us : List (UTXO A G)) : Decidable (OwnedBy pk us) := by
  unfold OwnedBy; infer_instance

/-- Sum of the non-dummy amounts belonging to `pk`. -/
def totalOwned [DecidableEq G] (pk : G) (us : List (UTXO Nat G)) : Nat :=
  totalOf (us.filter fun u => u.pk = pk)

/-- Amounts fit in the Rust type (`u64`). -/
def Tx.U64Amounts (t : Tx Nat G) : Prop := ∀ u ∈ t.ios, u.amount < U64

/-- A collision of the sponge hash between two given inputs. -/
def Collides (H : List (ZMod p) → ZMod p) (x y : List (ZMod p)) : Prop := x ≠ y ∧ H x = H y

end PF
