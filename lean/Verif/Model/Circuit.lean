import Verif.Basic
import Mathlib.Data.ZMod.Basic
import Mathlib.Data.Nat.Size

/-!
# R1CS vocabulary

Semantics of the ark-r1cs-std gadgets the repository uses (external crate, recalled):
a field variable is an element of `ZMod p`, a `Boolean` is a `Bool`, and a gadget call contributes a
`Prop` (its constraints) and possibly output values.
-/

namespace PF.Circuit

/-- Little-endian bits of `x`, `n` of them.
Library: `BigInt::to_bits_le`, used at schnorr.rs:45, 67, aggregator/src/circuit.rs:50. -/
def natBits : Nat → Nat → List Bool
  | 0, _ => []
  | n + 1, x => decide (x % 2 = 1) :: natBits n (x / 2)

/-- Integer denoted by little-endian bits.
Library: `BigInt::from_bits_le`, used at schnorr.rs:47, 69. -/
def bitsVal : List Bool → Nat
  | [] => 0
  | b :: t => b.toNat + 2 * bitsVal t

variable {p : Nat}

/-- `MODULUS_BIT_SIZE`.
Library constant, used at schnorr.rs:46, 68, 141, 176, keypair/constraints.rs:79-80. -/
def modBits (p : Nat) : Nat := Nat.size p

/-- `FpVar::to_bits_le`: the canonical `MODULUS_BIT_SIZE` bits (the gadget enforces that the bit
string is below the modulus, hence canonical).
Library gadget, used at schnorr.rs:151, 186, sparsemt/constraints.rs:186, 265. -/
def toBitsLe (x : ZMod p) : List Bool := natBits (modBits p) x.val

/-- `conditionally_select` / `Boolean::select`: `b ? x : y`.
Library gadget, used at transaction/constraints.rs:115, 118, 128, aggregator/src/circuit.rs:341-412, client/src/circuits/mod.rs:245. -/
def select {α : Type} (b : Bool) (x y : α) : α := if b then x else y

/-- `conditional_enforce_equal`.
Library gadget, used at sparsemt/constraints.rs:100-138, 192-205, 334-335, transaction/constraints.rs:111, aggregator/src/circuit.rs:340, 375, 386. -/
def condEq {α : Type} (enforce : Bool) (x y : α) : Prop := enforce = true → x = y

/-- Range side conditions of `FpVar::{is_cmp, enforce_cmp}` (`Ordering::Less`): both sides are
enforced to be at most `(p-1)/2`.
Library gadget, used at client/src/circuits/mod.rs:240, 267. -/
def cmpRange (l r : ZMod p) : Prop := l.val ≤ (p - 1) / 2 ∧ r.val ≤ (p - 1) / 2

/-- Output bit of `is_smaller_than_unchecked`: lowest canonical bit of `2(l - r)`.
Library gadget, used at client/src/circuits/mod.rs:240, 267. -/
def cmpBit (l r : ZMod p) : Bool := decide ((2 * (l - r)).val % 2 = 1)

/-- `FpVar::is_cmp(Ordering::Less, false)`: constraints and output bit.
Library gadget, used at client/src/circuits/mod.rs:267. -/
def isLess (l r : ZMod p) (out : Bool) : Prop := cmpRange l r ∧ out = cmpBit l r

/-- `FpVar::enforce_cmp(Ordering::Less, true)`: enforce `l ≤ r` as `l < r + 1`.
Library gadget, used at client/src/circuits/mod.rs:240. -/
def enforceLe (l r : ZMod p) : Prop := cmpRange l (r + 1) ∧ cmpBit l (r + 1) = true

end PF.Circuit
