import Verif.Model.Data

/-!
# Model of the Schnorr signatures, `enforce_lt` and `to_n_bits`

`/repo/plasma-fold/src/primitives/schnorr.rs`, `/repo/plasma-fold/src/datastructures/keypair/*`,
`/repo/aggregator/src/circuit.rs:42-58`.

Scalars are `ZMod q`, curve points an abstract `ZMod q`-module `G`, `H` is the Poseidon sponge.
-/

namespace PF.Schnorr
open PF.Circuit
variable {p q : Nat} {G : Type} [AddCommGroup G] [Module (ZMod q) G]

/-- `C::ScalarField::from_bigint`: `None` unless the integer is below the modulus.
Library function, used at schnorr.rs:49, 71. -/
def fromBigint (q h : Nat) : Option (ZMod q) := if h < q then some (h : ZMod q) else none

/-- schnorr.rs:27-32 `key_gen` (and keypair/mod.rs:46-52, 78-86) with sampled secret `sk`. -/
def keyGen (cv : Curve p q G) (sk : ZMod q) : ZMod q × G := (sk, sk • cv.gen)

/-- schnorr.rs:34-53 `sign`; `ks` is the stream of sampled nonces. `ok none`: the loop is still running
when the (finite) stream ends. The sampled `k = 0` panics (`xy().unwrap()` at infinity). -/
def sign (cv : Curve p q G) (H : List (ZMod p) → ZMod p) (sk : ZMod q) (m : List (ZMod p)) :
    List (ZMod q) → Outcome Unit (Option (ZMod q × ZMod q))
  | [] => .ok none
  | k :: ks => do
    let (x, y) ← Outcome.unwrap (cv.xy (k • cv.gen))
    let h := (H ([x, y] ++ m)).val % 2 ^ (modBits q + 1)
    match fromBigint q h with
    | some e => .ok (some (k - sk * e, e))
    | none => sign cv H sk m ks

/-- schnorr.rs:55-72 `verify`, keypair/mod.rs:62-71 `verify_signature`. -/
def verify (cv : Curve p q G) (H : List (ZMod p) → ZMod p) (pk : G) (m : List (ZMod p))
    (sig : ZMod q × ZMod q) : Bool :=
  let (x, y) := (cv.xy (sig.1 • cv.gen + sig.2 • pk)).getD (0, 0)
  let h := (H ([x, y] ++ m)).val % 2 ^ modBits q
  decide (fromBigint q h = some sig.2)

/-! ## Gadgets -/

/-- `slice::chunks(w + 1)`.
Library function, used at schnorr.rs:80, 84, aggregator/src/circuit.rs:355, 409. -/
def chunks {α : Type} (w : Nat) : List α → List (List α)
  | [] => []
  | a :: t => (a :: t.take w) :: chunks w (t.drop w)
termination_by l => l.length
decreasing_by simp

/-- Chunk values of schnorr.rs:79-86 (`Boolean::le_bits_to_fp` of each chunk; `W` is smaller than the
field's bit size so it adds no constraint). -/
def chunkVals (p W : Nat) (x : List Bool) : List (ZMod p) :=
  (chunks (W - 1) x).map fun c => (bitsVal c : ZMod p)

/-- schnorr.rs:91-94: chunk-wise differences, missing chunks are zero. -/
def deltas (x y : List (ZMod p)) : List (ZMod p) :=
  (List.range (max x.length y.length)).map fun i => y.getD i 0 - x.getD i 0

/-- Loop of schnorr.rs:110-116 with state `(c, r)` and helper bits `bs`; `k` is what follows. -/
def ltLoop : List Bool → List (ZMod p) → ZMod p → ZMod p → (ZMod p → ZMod p → Prop) → Prop
  | b :: bs, d :: ds, c, r, k => r * d = 0 ∧ ltLoop bs ds (c + select b d 0) (r + boolF b) k
  | _, _, c, r, k => k c r

/-- schnorr.rs:75-126 `enforce_lt::<F, W>`: helper bits and the bits of `c - 1` are witnesses. -/
def enforceLt (p W : Nat) (x y : List Bool) : Prop :=
  let ds := deltas (chunkVals p W x) (chunkVals p W y)
  ∃ helper bits : List Bool, helper.length = ds.length ∧ bits.length = W ∧
    ltLoop helper ds 0 0 (fun c r => (bitsVal bits : ZMod p) = c - 1 ∧ r = 1)

/-- schnorr.rs:143-152 (and 178-187): the truncated challenge bits computed in the circuit.
`scalar_mul_le` of a bit string is multiplication by its integer value (external crate). -/
def challengeBits (cv : Curve p q G) (H : List (ZMod p) → ZMod p) (pk : G) (m : List (ZMod p))
    (s e : List Bool) : List Bool :=
  let r := bitsVal s • cv.gen + bitsVal e • pk
  let xy := (pkEncVar cv r).dropLast
  (toBitsLe (H (xy ++ m))).take (modBits q)

/-- schnorr.rs:131-164 `SchnorrGadget::verify::<W>` (keypair/constraints.rs:88-95). The comparison of
the first `len - 1` bits is as packed field elements, of the last one as a Boolean. -/
def verifyGadget (W : Nat) (cv : Curve p q G) (H : List (ZMod p) → ZMod p) (pk : G)
    (m : List (ZMod p)) (s e : List Bool) : Prop :=
  let len := modBits q
  let h := challengeBits cv H pk m s e
  enforceLt p W h (natBits len q) ∧
  (bitsVal (h.take (len - 1)) : ZMod p) = bitsVal (e.take (len - 1)) ∧
  h[len - 1]? = e[len - 1]?

/-- schnorr.rs:166-197 `SchnorrGadget::is_valid::<W>` (keypair/constraints.rs:97-104): constraints and
output bit. -/
def isValidGadget (W : Nat) (cv : Curve p q G) (H : List (ZMod p) → ZMod p) (pk : G)
    (m : List (ZMod p)) (s e : List Bool) (out : Bool) : Prop :=
  let len := modBits q
  let h := challengeBits cv H pk m s e
  enforceLt p W h (natBits len q) ∧
  out = (decide ((bitsVal (h.take (len - 1)) : ZMod p) = bitsVal (e.take (len - 1))) &&
    decide (h[len - 1]? = e[len - 1]?))

/-- keypair/constraints.rs:67-83: allocation of a native signature as two bit strings of length
`MODULUS_BIT_SIZE`. -/
def allocSig (sig : ZMod q × ZMod q) : List Bool × List Bool :=
  (natBits (modBits q) sig.1.val, natBits (modBits q) sig.2.val)

end PF.Schnorr

namespace PF.Circuit

/-- aggregator/src/circuit.rs:46-58 `to_n_bits(n)`: `n` witness bits packing to `x`
(`le_bits_to_fp` additionally enforces canonicity when `n` reaches the field's bit size). -/
def toNBits {p : Nat} (x : ZMod p) (n : Nat) (bits : List Bool) : Prop :=
  bits.length = n ∧ (modBits p ≤ n → bitsVal bits < p) ∧ (bitsVal bits : ZMod p) = x

end PF.Circuit
