import Verif.Model.Data

/-!
# What a signing attempt does with a sampled nonce

The challenge of a nonce `k` for a message is the integer formed by the low bits (one more than the bit size
of the scalar field) of the hash of the coordinates of `k·gen` and the message.
-/
namespace PF.Spec
variable {p q : Nat} {G : Type} [AddCommGroup G] [Module (ZMod q) G]

/-- The nonce `k` is used for the message, with challenge `e`. -/
def Uses (cv : Curve p q G) (H : List (ZMod p) → ZMod p) (m : List (ZMod p)) (k e : ZMod q) : Prop :=
  ∃ x y, cv.xy (k • cv.gen) = some (x, y) ∧
    (H ([x, y] ++ m)).val % 2 ^ (Nat.size q + 1) < q ∧
    e = (((H ([x, y] ++ m)).val % 2 ^ (Nat.size q + 1) : Nat) : ZMod q)

/-- The nonce `k` is dropped for the message: its challenge is not below the group order. -/
def Drops (cv : Curve p q G) (H : List (ZMod p) → ZMod p) (m : List (ZMod p)) (k : ZMod q) : Prop :=
  ∃ x y, cv.xy (k • cv.gen) = some (x, y) ∧ q ≤ (H ([x, y] ++ m)).val % 2 ^ (Nat.size q + 1)

end PF.Spec
