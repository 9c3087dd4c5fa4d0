import Verif.Model.Schnorr

/-!
# Bytes, SHA-256 and the accumulators

`/repo/plasma-fold/src/primitives/accumulator/*`, and the byte-level vocabulary shared by
`/repo/mock-contract/src/lib.rs` and `/repo/aggregator/src/circuit.rs`.

SHA-256 is a parameter (`Sha`): any function from byte strings to 32-byte strings.
-/

namespace PF
open PF.Circuit

/-- A byte.
Library type `u8` / `UInt8`; used at mock-contract/src/lib.rs:97-139, aggregator/src/circuit.rs:350-414. -/
abbrev Byte := Fin 256

/-- SHA-256 (external crate): any function with 32-byte output. -/
structure Sha where
  digest : List Byte → List Byte
  len : ∀ x, (digest x).length = 32

/-- `n` little-endian bytes of `x` (`u64::to_le_bytes` for `n = 8`).
Library function, used at mock-contract/src/lib.rs:118, 135 and, for field elements, at 97-99, 114-116. -/
def bytesLe : Nat → Nat → List Byte
  | 0, _ => []
  | n + 1, x => (⟨x % 256, Nat.mod_lt _ (by decide)⟩ : Byte) :: bytesLe n (x / 256)

/-- Integer denoted by little-endian bytes.
Library: the integer read by `to_field_elements`, mock-contract/src/lib.rs:104, 122, 139. -/
def bytesVal : List Byte → Nat
  | [] => 0
  | b :: t => b.val + 256 * bytesVal t

/-- Bytes of a field element: `BigInt::NUM_LIMBS * 8`.
Library: the length behind `to_bytes_le` at mock-contract/src/lib.rs:97-99, accumulator/mod.rs:13-14. -/
def fieldBytes (p : Nat) : Nat := 8 * ((modBits p + 63) / 64)

/-- `F::into_bigint().to_bytes_le()`.
Library function, used at mock-contract/src/lib.rs:97-99, 114-116, 131-133, accumulator/mod.rs:13-14. -/
def fBytes {p : Nat} (x : ZMod p) : List Byte := bytesLe (fieldBytes p) x.val

/-- Bytes per field element in `to_field_elements` / `to_constraint_field`:
`(MODULUS_BIT_SIZE - 1) / 8`.
Library constant, behind mock-contract/src/lib.rs:104, 122, 139, aggregator/src/circuit.rs:360, 399, 414, accumulator/constraints.rs:48. -/
def capBytes (p : Nat) : Nat := (modBits p - 1) / 8

/-- `Sha256::digest(bytes)[..31].to_field_elements().unwrap()[0]`, native
(mock-contract/src/lib.rs:95-104): the first chunk of at most `capBytes` bytes, little-endian. -/
def shaField (p : Nat) (sha : Sha) (bs : List Byte) : ZMod p :=
  (bytesVal (((sha.digest bs).take 31).take (capBytes p)) : ZMod p)

/-- accumulator/mod.rs:11-22 `Sha256Accumulator::update`: `from_le_bytes_mod_order` of the digest
without its last byte. (Its bound `F: PrimeField + BigInteger` has no instance, so no program can call
it; the formula is modelled.) -/
def shaAccNative {p : Nat} (sha : Sha) (acc value : ZMod p) : ZMod p :=
  (bytesVal (sha.digest (fBytes acc ++ fBytes value)).dropLast : ZMod p)

/-! ## Gadgets -/

/-- `UInt8::from_bits_le`: value of (at most) 8 bits.
Library function, used at aggregator/src/circuit.rs:356, 410. -/
def byteOfBits (bs : List Bool) : Byte := ⟨bitsVal bs % 256, Nat.mod_lt _ (by decide)⟩

/-- Bits of a byte (`UInt8::to_bits_le`).
Library function, inverse of the one used at aggregator/src/circuit.rs:356, 410. -/
def bitsOfByte (b : Byte) : List Bool := natBits 8 b.val

/-- `bits.chunks(8).map(UInt8::from_bits_le)`.
aggregator/src/circuit.rs:355-356, 409-410. -/
def bytesOfBits (bits : List Bool) : List Byte := (Schnorr.chunks 7 bits).map byteOfBits

/-- `FpVar::to_bytes_le` (external crate): canonical bits padded with zeros to whole limbs, in
chunks of 8. -/
def fBytesVar {p : Nat} (x : ZMod p) : List Byte :=
  bytesOfBits (toBitsLe x ++ List.replicate (8 * fieldBytes p - modBits p) false)

/-- `[UInt8]::to_constraint_field()[0]` (external crate): packs the bits of the first `capBytes`
bytes. -/
def packVar (p : Nat) (bs : List Byte) : ZMod p :=
  (bitsVal ((bs.take (capBytes p)).flatMap bitsOfByte) : ZMod p)

/-- `Sha256Gadget::digest(bytes).0[..31].to_constraint_field()[0]` (aggregator/src/circuit.rs:358,
389-400, 413); the SHA-256 gadget computes SHA-256. -/
def shaFieldVar (p : Nat) (sha : Sha) (bs : List Byte) : ZMod p :=
  packVar p ((sha.digest bs).take 31)

/-- accumulator/constraints.rs:32-48 `Sha256AccumulatorVar::update`: `split_last` drops the last
byte. -/
def shaAccVar {p : Nat} (sha : Sha) (prev value : ZMod p) : ZMod p :=
  packVar p (sha.digest (fBytesVar prev ++ fBytesVar value)).dropLast

/-- accumulator/constraints.rs:55-66 `PoseidonAccumulatorVar::update`. -/
def poseidonAccVar {p : Nat} (h2 : ZMod p → ZMod p → ZMod p) (prev value : ZMod p) : ZMod p :=
  h2 prev value

section
variable {p q : Nat} {G : Type} [AddCommGroup G] [Module (ZMod q) G]

/-- Native bytes of a point: `x`, `y` (default 0), `is_zero` (mock-contract/src/lib.rs:96-100). -/
def pkBytes (cv : Curve p q G) (P : G) : List Byte :=
  fBytes ((cv.xy P).getD (0, 0)).1 ++ fBytes ((cv.xy P).getD (0, 0)).2 ++
    [if (cv.xy P).isNone then 1 else 0]

/-- `CurveVar::to_bytes_le` (external crate): affine coordinates, then the infinity flag as one
byte; `(0, 0)` at infinity. -/
def pkBytesVar (cv : Curve p q G) (P : G) : List Byte :=
  fBytesVar ((cv.xy P).getD (0, 0)).1 ++ fBytesVar ((cv.xy P).getD (0, 0)).2 ++
    [byteOfBits [(cv.xy P).isNone]]

end

end PF
