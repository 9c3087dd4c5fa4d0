import Verif.Spec.Program

/-!
# What a program of gadget calls says about an assignment

A program is read as a constraint system: an assignment gives a value to every variable, and each gadget call relates
the values of its operands to the values of the variables it returns. What the library gadgets guarantee is written
down here once, gadget by gadget; nothing here refers to how values are computed during synthesis.
-/

namespace PF.Prog
open PF PF.Circuit
variable {p q : Nat} {G : Type}

/-- The functions behind the library gadgets. -/
structure Lib (p q : Nat) (G : Type) [AddCommGroup G] [Module (ZMod q) G] where
  cv : Curve p q G
  crh : List (ZMod p) → ZMod p
  h2 : ZMod p → ZMod p → ZMod p
  sha : Sha

/-- A value for every variable of each sort. -/
structure Assignment (p : Nat) (G : Type) where
  field : Nat → ZMod p
  bool : Nat → Bool
  point : Nat → G
  byte : Nat → Byte

/-- The value of an operand. -/
def Ref.read {α : Type} (v : Nat → α) : Ref α → α
  | .var n => v n
  | .const c => c

namespace Assignment
/-- Value of a field operand. -/
abbrev f (e : Assignment p G) (r : Ref (ZMod p)) : ZMod p := r.read e.field
/-- Value of a Boolean operand. -/
abbrev b (e : Assignment p G) (r : Ref Bool) : Bool := r.read e.bool
/-- Value of a point operand. -/
abbrev g (e : Assignment p G) (r : Ref G) : G := r.read e.point
/-- Value of a byte operand. -/
abbrev y (e : Assignment p G) (r : Ref Byte) : Byte := r.read e.byte
end Assignment

/-- The values of `k` consecutive variables. -/
def consecutive {α : Type} (v : Nat → α) (n k : Nat) : List α := (List.range k).map fun i => v (n + i)

/-- What the gadget call `i`, which returns the variables from number `n` on, says about the assignment `e`. -/
def Holds [AddCommGroup G] [Module (ZMod q) G] (L : Lib p q G) (e : Assignment p G) (n : Nat) (i : Instr p G) : Prop :=
  match i.gadget, i.args with
  | .allocField, _ => True
  | .allocBool, _ => True
  | .allocPoint, _ => True
  | .add, [.field x, .field y] => e.field n = e.f x + e.f y
  | .sub, [.field x, .field y] => e.field n = e.f x - e.f y
  | .mul, [.field x, .field y] => e.field n = e.f x * e.f y
  | .toField, [.bool x] => e.field n = boolF (e.b x)
  | .packBits, args => ∃ xs : List (Ref Bool), args = xs.map .bool ∧ e.field n = (bitsVal (xs.map e.b) : Nat)
  | .toBits, [.field x] => consecutive e.bool n i.results = toBitsLe (e.f x)
  | .coords, [.point x] => consecutive e.field n i.results = pkEncVar L.cv (e.g x)
  | .enforceEq, [.field x, .field y] => e.f x = e.f y
  | .condEnforceEq, [.field x, .field y, .bool on] => e.b on = true → e.f x = e.f y
  | .condEnforceEq, [.bool x, .bool y, .bool on] => e.b on = true → e.b x = e.b y
  | .condEnforceEq, [.point x, .point y, .bool on] => e.b on = true → e.g x = e.g y
  | .enforcePacked, args => ∃ (xs : List (Ref Bool)) (x : Ref (ZMod p)), args = xs.map .bool ++ [.field x] ∧
      (modBits p ≤ xs.length → bitsVal (xs.map e.b) < p) ∧ ((bitsVal (xs.map e.b) : Nat) : ZMod p) = e.f x
  | .isEq, [.field x, .field y] => e.bool n = true ↔ e.f x = e.f y
  | .isEq, [.bool x, .bool y] => e.bool n = true ↔ e.b x = e.b y
  | .isEq, [.point x, .point y] => e.bool n = true ↔ e.g x = e.g y
  | .isZero, [.field x] => e.bool n = true ↔ e.f x = 0
  | .isLess, [.field x, .field y] =>
      if i.results = 0 then cmpRange (e.f x) (e.f y) else e.bool n = cmpBit (e.f x) (e.f y)
  | .enforceLe, [.field x, .field y] => Circuit.enforceLe (e.f x) (e.f y)
  | .not, [.bool x] => e.bool n = !e.b x
  | .and, [.bool x, .bool y] => e.bool n = (e.b x && e.b y)
  | .or, [.bool x, .bool y] => e.bool n = (e.b x || e.b y)
  | .select, [.bool c, .field x, .field y] => e.field n = if e.b c then e.f x else e.f y
  | .select, [.bool c, .point x, .point y] => e.point n = if e.b c then e.g x else e.g y
  | .hash, args => ∃ xs : List (Ref (ZMod p)), args = xs.map .field ∧ e.field n = L.crh (xs.map e.f)
  | .twoToOne, [.field x, .field y] => e.field n = L.h2 (e.f x) (e.f y)
  | .sha, args => ∃ xs : List (Ref Byte), args = xs.map .byte ∧
      consecutive e.byte n i.results = L.sha.digest (xs.map e.y)
  | .toBytes, [.field x] => consecutive e.byte n i.results = fBytesVar (e.f x)
  | .pointBytes, [.point x] => consecutive e.byte n i.results = pkBytesVar L.cv (e.g x)
  | .bitsToBytes, args => ∃ xs : List (Ref Bool), args = xs.map .bool ∧
      consecutive e.byte n i.results = bytesOfBits (xs.map e.b)
  | .packBytes, args => ∃ xs : List (Ref Byte), args = xs.map .byte ∧ e.field n = packVar p (xs.map e.y)
  | .scalarMul, .point x :: args => ∃ xs : List (Ref Bool), args = xs.map .bool ∧
      e.point n = bitsVal (xs.map e.b) • e.g x
  | .pointAdd, [.point x, .point y] => e.point n = e.g x + e.g y
  | _, _ => False

/-- The assignment satisfies every call of the program, whose first variable has number `n`. -/
def Satisfies [AddCommGroup G] [Module (ZMod q) G] (L : Lib p q G) (e : Assignment p G) : Nat → List (Instr p G) → Prop
  | _, [] => True
  | n, i :: l => Holds L e n i ∧ Satisfies L e (n + i.results) l

/-- The first `k` variables, which hold the state a step starts from. -/
def firstVars (k : Nat) : List (Ref (ZMod p)) := (List.range k).map .var

variable [AddCommGroup G] [Module (ZMod q) G]

/-- The functions behind the gadgets of the aggregator's circuit. -/
structure ForAgg (L : Lib p q G) (P : AggC.Params p G) (cv : Curve p q G) : Prop where
  cv : cv = L.cv
  crh : P.hs.crh = L.crh
  h2 : P.hs.h2 = L.h2
  sha : P.sha = L.sha

/-- The functions behind the gadgets of the client's circuit. -/
structure ForClient (L : Lib p q G) (hs : Hashes p) (A : AccKind) (cv : Curve p q G) : Prop where
  cv : cv = L.cv
  crh : hs.crh = L.crh
  h2 : hs.h2 = L.h2
  sha : ∀ s, A = .sha s → s = L.sha

/-- A run of the folding scheme: every step is an assignment that satisfies the same program; the first `k` variables
hold the state before the step and the operands `out` the state after it, from which the next step starts. -/
def Folded (L : Lib p q G) (prog : List (Instr p G)) (k : Nat) (out : List (Ref (ZMod p))) :
    List (Assignment p G) → List (ZMod p) → List (ZMod p) → Prop
  | [], v, v' => v' = v
  | e :: es, v, v' => Satisfies L e 0 prog ∧ (firstVars k).map e.f = v ∧ Folded L prog k out es (out.map e.f) v'

end PF.Prog
