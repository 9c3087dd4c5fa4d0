import Verif.Model.Witness

/-!
# The constraint program

The folding scheme needs one constraint system for all steps: it is generated once, from default inputs
(aggregator/src/circuit.rs:88-94, client/src/circuits/mod.rs:91-118), and every step is folded into it. This
module follows the synthesis once more and records, besides the values, the straight-line program of gadget
calls it emits: every allocation, every library gadget and every constraint, in source order, each with the
variables and constants it is applied to and the number of variables it returns. What the library gadgets do
inside is not looked at; they see the variables and constants only.

Values flow along, so a synthesis that branched on a value would show in the program.
-/

namespace PF.Prog
open PF PF.Circuit

/-- What a gadget sees of an operand: the number of a variable, or a constant. Library (`FpVar::{Var, Constant}`,
`Boolean::{Var, Constant}`), used throughout aggregator/src/circuit.rs:272-430, client/src/circuits/mod.rs:196-337. -/
inductive Ref (α : Type) where
  | var (n : Nat)
  | const (c : α)

/-- An operand together with the value assigned to it. Library, as `Ref`; aggregator/src/circuit.rs:272-430. -/
structure Wire (α : Type) where
  ref : Ref α
  val : α

/-- `new_constant`, `FpVar::zero`, `FpVar::one`.
Library, used at aggregator/src/circuit.rs:281-282, 311, 337, 344, 371, 382, client/src/circuits/mod.rs:206-210, 248, 316. -/
def Wire.const {α : Type} (c : α) : Wire α := ⟨.const c, c⟩

/-- Operands of the four sorts: field elements, Booleans, curve points, bytes.
Library types, used at aggregator/src/circuit.rs:272-430. -/
inductive Arg (p : Nat) (G : Type) where
  | field (r : Ref (ZMod p))
  | bool (r : Ref Bool)
  | point (r : Ref G)
  | byte (r : Ref Byte)

/-- The gadgets the two step circuits call.
Library gadgets, used at aggregator/src/circuit.rs:272-430, client/src/circuits/mod.rs:196-337 and below. -/
inductive Gadget where
  | allocField | allocBool | allocPoint
  | add | sub | mul | toField | packBits | toBits | coords
  | enforceEq | condEnforceEq | enforcePacked | isEq | isZero | isLess | enforceLe
  | not | and | or | select
  | hash | twoToOne | sha | toBytes | pointBytes | bitsToBytes | packBytes
  | scalarMul | pointAdd
deriving DecidableEq

/-- A gadget call: the gadget, its operands, the number of variables it returns.
Library (`ConstraintSystem`), used at aggregator/src/circuit.rs:272-430. -/
structure Instr (p : Nat) (G : Type) where
  gadget : Gadget
  args : List (Arg p G)
  results : Nat

/-- A gadget call together with the values assigned to the variables it returns, written as constant operands.
Library (`ConstraintSystem`, its instance and witness assignment), used at aggregator/src/circuit.rs:272-430. -/
structure Entry (p : Nat) (G : Type) where
  gadget : Gadget
  args : List (Arg p G)
  vals : List (Arg p G)

/-- Without the values. Library, as `Entry`; aggregator/src/circuit.rs:272-430. -/
def Entry.instr {p : Nat} {G : Type} (e : Entry p G) : Instr p G := ⟨e.gadget, e.args, e.vals.length⟩

/-- What a synthesis adds to the constraint system: the gadget calls with the values assigned, and whether these
satisfy the constraints added.
Library (`ConstraintSystemRef`), used at aggregator/src/circuit.rs:272-430, client/src/circuits/mod.rs:196-337. -/
structure Out (p : Nat) (G : Type) where
  log : List (Entry p G)
  ok : Bool

/-- The number of variables returned by a list of calls.
Library (`ConstraintSystem::num_*_variables`), used at aggregator/src/circuit.rs:272-430. -/
def width {p : Nat} {G : Type} : List (Entry p G) → Nat
  | [] => 0
  | e :: l => e.vals.length + width l

/-- Synthesis, given the number of the next variable; `none` is a panic.
aggregator/src/circuit.rs:272-430, client/src/circuits/mod.rs:196-337 (`Result<_, SynthesisError>` with `?`). -/
def Tr (p : Nat) (G α : Type) : Type := Nat → Option (α × Out p G)

variable {p q : Nat} {G α β : Type}

/-- Sequencing.
Library (`?` in aggregator/src/circuit.rs:272-430, client/src/circuits/mod.rs:196-337). -/
def Tr.bind (m : Tr p G α) (f : α → Tr p G β) : Tr p G β := fun n =>
  match m n with
  | none => none
  | some (a, o) =>
    match f a (n + width o.log) with
    | none => none
    | some (b, o') => some (b, ⟨o.log ++ o'.log, o.ok && o'.ok⟩)

instance : Monad (Tr p G) where
  pure a := fun _ => some (a, ⟨[], true⟩)
  bind := Tr.bind

/-- A panic. `assert_eq!` and slice indices, sparsemt/constraints.rs:86, 177, 248. -/
def panic : Tr p G α := fun _ => none

/-- `assert!`.
sparsemt/constraints.rs:86, 177, 248, client/src/circuits/mod.rs:202-204. -/
def assert (b : Bool) : Tr p G Unit := fun _ => if b then some ((), ⟨[], true⟩) else none

/-- A gadget call returning one variable of sort `k`, with the value assigned to it.
Library, used at aggregator/src/circuit.rs:272-430. -/
def call (k : Wire α → Arg p G) (g : Gadget) (args : List (Arg p G)) (v : α) : Tr p G (Wire α) := fun n =>
  some (⟨.var n, v⟩, ⟨[⟨g, args, [k (.const v)]⟩], true⟩)

/-- Consecutive variables.
Library (`Vec::new_variable`), used at aggregator/src/circuit.rs:52, schnorr.rs:107, 121. -/
def wiresFrom : Nat → List α → List (Wire α)
  | _, [] => []
  | n, v :: vs => ⟨.var n, v⟩ :: wiresFrom (n + 1) vs

/-- A gadget call returning several variables of sort `k`.
Library, used at aggregator/src/circuit.rs:50-52, 349-359, sparsemt/constraints.rs:186, 265. -/
def callN (k : Wire α → Arg p G) (g : Gadget) (args : List (Arg p G)) (vs : List α) : Tr p G (List (Wire α)) := fun n =>
  some (wiresFrom n vs, ⟨[⟨g, args, vs.map fun v => k (.const v)⟩], true⟩)

/-- A gadget call that only constrains; `holds` says whether the assignment satisfies it.
Library, used at aggregator/src/circuit.rs:272-430. -/
def constrain (g : Gadget) (args : List (Arg p G)) (holds : Bool) : Tr p G Unit := fun _ =>
  some ((), ⟨[⟨g, args, []⟩], holds⟩)

/-- A loop over a list, collecting the results.
Library (`collect::<Result<Vec<_>, _>>`), used at schnorr.rs:79-86, 91-94. -/
def each (f : α → Tr p G β) : List α → Tr p G (List β)
  | [] => pure []
  | a :: l => do
    let b ← f a
    let bs ← each f l
    pure (b :: bs)

/-! ## Library gadgets with their operands -/

/-- Field operand. Library; aggregator/src/circuit.rs:272-430. -/
def fa (w : Wire (ZMod p)) : Arg p G := .field w.ref
/-- Boolean operand. Library; aggregator/src/circuit.rs:272-430. -/
def ba (w : Wire Bool) : Arg p G := .bool w.ref
/-- Point operand. Library; aggregator/src/circuit.rs:272-430. -/
def pa (w : Wire G) : Arg p G := .point w.ref
/-- Byte operand. Library; aggregator/src/circuit.rs:349-359. -/
def ya (w : Wire Byte) : Arg p G := .byte w.ref

/-- `FpVar::new_variable`. Library, used at utxo/constraints.rs:48, block/constraints.rs:23-27. -/
def allocF (v : ZMod p) : Tr p G (Wire (ZMod p)) := call fa .allocField [] v
/-- `Boolean::new_variable`. Library, used at utxo/constraints.rs:50, sparsemt/constraints.rs:96, 113. -/
def allocB (v : Bool) : Tr p G (Wire Bool) := call ba .allocBool [] v
/-- `CVar::new_variable`. Library, used at keypair/constraints.rs:37. -/
def allocP (v : G) : Tr p G (Wire G) := call pa .allocPoint [] v
/-- Vectors of Booleans. Library, used at schnorr.rs:107, 121, aggregator/src/circuit.rs:52, keypair/constraints.rs:79-80. -/
def allocBs (vs : List Bool) : Tr p G (List (Wire Bool)) := callN ba .allocBool [] vs
/-- Vectors of field elements. Library, used at sparsemt/constraints.rs:383, aggregator/src/circuit.rs:159-190. -/
def allocFs (vs : List (ZMod p)) : Tr p G (List (Wire (ZMod p))) := callN fa .allocField [] vs

/-- `+` of field variables. Library; transaction/constraints.rs:115, sparsemt/constraints.rs:268. -/
def add (x y : Wire (ZMod p)) : Tr p G (Wire (ZMod p)) := call fa .add [fa x, fa y] (x.val + y.val)
/-- `-`. Library; transaction/constraints.rs:118, schnorr.rs:93, 117. -/
def sub (x y : Wire (ZMod p)) : Tr p G (Wire (ZMod p)) := call fa .sub [fa x, fa y] (x.val - y.val)
/-- `*`. Library; schnorr.rs:113, client/src/circuits/mod.rs:304, 311, 316-319. -/
def mul (x y : Wire (ZMod p)) : Tr p G (Wire (ZMod p)) := call fa .mul [fa x, fa y] (x.val * y.val)
/-- `FpVar::from(Boolean)`. Library; schnorr.rs:114, transaction/constraints.rs:38. -/
def toField (b : Wire Bool) : Tr p G (Wire (ZMod p)) := call fa .toField [ba b] (boolF b.val)
/-- `Boolean::le_bits_to_fp` of fewer bits than the field has (no constraint). Library; schnorr.rs:81, 85, 123, 158, 193. -/
def packBits (bs : List (Wire Bool)) : Tr p G (Wire (ZMod p)) :=
  call fa .packBits (bs.map ba) ((bitsVal (bs.map (·.val)) : Nat) : ZMod p)
/-- `FpVar::to_bits_le`. Library; schnorr.rs:151, 186, sparsemt/constraints.rs:186, 265. -/
def toBits (x : Wire (ZMod p)) : Tr p G (List (Wire Bool)) := callN ba .toBits [fa x] (toBitsLe x.val)
/-- `enforce_equal`. Library; aggregator/src/circuit.rs:315, transaction/constraints.rs:120. -/
def enforceEq [DecidableEq α] (k : Wire α → Arg p G) (x y : Wire α) : Tr p G Unit :=
  constrain .enforceEq [k x, k y] (decide (x.val = y.val))
/-- `conditional_enforce_equal`. Library; sparsemt/constraints.rs:100-138, aggregator/src/circuit.rs:340. -/
def condEnforceEq [DecidableEq α] (k : Wire α → Arg p G) (x y : Wire α) (on : Wire Bool) : Tr p G Unit :=
  constrain .condEnforceEq [k x, k y, ba on] (!on.val || decide (x.val = y.val))
/-- `is_eq`. Library; aggregator/src/circuit.rs:327, 346, client/src/circuits/mod.rs:244, 297, 303, 310. -/
def isEq [DecidableEq α] (k : Wire α → Arg p G) (x y : Wire α) : Tr p G (Wire Bool) :=
  call ba .isEq [k x, k y] (decide (x.val = y.val))
/-- `is_zero`. Library; aggregator/src/circuit.rs:412. -/
def isZero (x : Wire (ZMod p)) : Tr p G (Wire Bool) := call ba .isZero [fa x] (decide (x.val = 0))
/-- `!`. Library; aggregator/src/circuit.rs:331, 359, 364, 367. -/
def bnot (x : Wire Bool) : Tr p G (Wire Bool) := call ba .not [ba x] (!x.val)
/-- `&`. Library; aggregator/src/circuit.rs:331, 359, 364, 367. -/
def band (x y : Wire Bool) : Tr p G (Wire Bool) := call ba .and [ba x, ba y] (x.val && y.val)
/-- `|`. Library; aggregator/src/circuit.rs:328. -/
def bor (x y : Wire Bool) : Tr p G (Wire Bool) := call ba .or [ba x, ba y] (x.val || y.val)
/-- `select`. Library; aggregator/src/circuit.rs:341, 359, 365, 376, 387, 393, 412. -/
def sel (k : Wire α → Arg p G) (b : Wire Bool) (x y : Wire α) : Tr p G (Wire α) :=
  call k .select [ba b, k x, k y] (select b.val x.val y.val)
/-- Poseidon `CRHGadget::evaluate`. Library; crh/constraints.rs:59, 98, 125, 149, schnorr.rs:150, 185. -/
def hash (H : List (ZMod p) → ZMod p) (l : List (Wire (ZMod p))) : Tr p G (Wire (ZMod p)) :=
  call fa .hash (l.map fa) (H (l.map (·.val)))
/-- `TwoToOneCRHGadget::evaluate`. Library; sparsemt/constraints.rs:126, 196, 272, 277. -/
def two (h2 : ZMod p → ZMod p → ZMod p) (x y : Wire (ZMod p)) : Tr p G (Wire (ZMod p)) :=
  call fa .twoToOne [fa x, fa y] (h2 x.val y.val)
/-- `FpVar::to_bytes_le`. Library; aggregator/src/circuit.rs:350, 391, 404. -/
def toBytes (x : Wire (ZMod p)) : Tr p G (List (Wire Byte)) := callN ya .toBytes [fa x] (fBytesVar x.val)
/-- `UInt8::from_bits_le` on chunks of 8 bits. Library; aggregator/src/circuit.rs:353-358, 406-411. -/
def toByteChunks (bs : List (Wire Bool)) : Tr p G (List (Wire Byte)) :=
  callN ya .bitsToBytes (bs.map ba) (bytesOfBits (bs.map (·.val)))
/-- `Sha256Gadget::digest`. Library; aggregator/src/circuit.rs:360, 389, 414. -/
def digest (sha : Sha) (bs : List (Wire Byte)) : Tr p G (List (Wire Byte)) :=
  callN ya .sha (bs.map ya) (sha.digest (bs.map (·.val)))
/-- `[UInt8]::to_constraint_field()[0]`. Library; aggregator/src/circuit.rs:360, 399, 414. -/
def packBytes (bs : List (Wire Byte)) : Tr p G (Wire (ZMod p)) :=
  call fa .packBytes (bs.map ya) (packVar p (bs.map (·.val)))
/-- `Sha256Gadget::digest(bytes).0[..31].to_constraint_field()[0]`; aggregator/src/circuit.rs:360, 389-400, 414. -/
def shaField (sha : Sha) (bs : List (Wire Byte)) : Tr p G (Wire (ZMod p)) := do
  let d ← digest sha bs
  packBytes (d.take 31)

/-- aggregator/src/circuit.rs:46-58 `to_n_bits(n)`; the constraint covers `le_bits_to_fp` and the equality. -/
def toNBits (x : Wire (ZMod p)) (n : Nat) : Tr p G (List (Wire Bool)) := do
  let bits ← allocBs (natBits n x.val.val)
  constrain .enforcePacked (bits.map ba ++ [fa x])
    (decide (modBits p ≤ n → bitsVal (natBits n x.val.val) < p) &&
      decide (((bitsVal (natBits n x.val.val) : Nat) : ZMod p) = x.val))
  pure bits

/-- `FpVar::is_cmp(Ordering::Less, false)`. Library; client/src/circuits/mod.rs:267. -/
def isLess (l r : Wire (ZMod p)) : Tr p G (Wire Bool) := do
  constrain .isLess [fa l, fa r] (decide (l.val.val ≤ (p - 1) / 2 ∧ r.val.val ≤ (p - 1) / 2))
  call ba .isLess [fa l, fa r] (cmpBit l.val r.val)

/-- `FpVar::enforce_cmp(Ordering::Less, true)`. Library; client/src/circuits/mod.rs:240. -/
def enforceLe (l r : Wire (ZMod p)) : Tr p G Unit :=
  constrain .enforceLe [fa l, fa r]
    (decide (l.val.val ≤ (p - 1) / 2 ∧ (r.val + 1).val ≤ (p - 1) / 2) && cmpBit l.val (r.val + 1))

/-! ## Comparison and signatures -/

/-- schnorr.rs:110-116. -/
def ltLoop : List (Wire Bool) → List (Wire (ZMod p)) → Wire (ZMod p) → Wire (ZMod p) →
    Tr p G (Wire (ZMod p) × Wire (ZMod p))
  | b :: bs, d :: ds, c, r => do
    let t ← sel fa b d (.const 0)
    let c1 ← add c t
    let m ← mul r d
    enforceEq fa m (.const 0)
    let f ← toField b
    let r1 ← add r f
    ltLoop bs ds c1 r1
  | _, _, c, r => pure (c, r)

/-- schnorr.rs:75-126 `enforce_lt::<F, W>`. -/
def enforceLt (W : Nat) (x y : List (Wire Bool)) : Tr p G Unit := do
  let xs ← each packBits (Schnorr.chunks (W - 1) x)
  let ys ← each packBits (Schnorr.chunks (W - 1) y)
  let ds ← each (fun i => sub (ys.getD i (.const 0)) (xs.getD i (.const 0))) (List.range (max xs.length ys.length))
  let helper ← allocBs (Wit.ltHelper ((List.range (max xs.length ys.length)).map fun i =>
    ((xs.getD i (.const 0)).val, (ys.getD i (.const 0)).val)))
  let (c, r) ← ltLoop helper ds (.const 0) (.const 0)
  let c1 ← sub c (.const 1)
  let bits ← allocBs (natBits W c1.val.val)
  let v ← packBits bits
  enforceEq fa v c1
  enforceEq fa r (.const 1)

section
variable [AddCommGroup G] [Module (ZMod q) G]

/-- `CVar::to_constraint_field`. Library; transaction/constraints.rs:39, crh/constraints.rs:97, 119, schnorr.rs:146, 181. -/
def coords (cv : Curve p q G) (P : Wire G) : Tr p G (List (Wire (ZMod p))) :=
  callN fa .coords [pa P] (pkEncVar cv P.val)
/-- `CVar::to_bytes_le`. Library; aggregator/src/circuit.rs:351, 394, 405. -/
def pointBytes (cv : Curve p q G) (P : Wire G) : Tr p G (List (Wire Byte)) :=
  callN ya .pointBytes [pa P] (pkBytesVar cv P.val)
/-- `scalar_mul_le`. Library; schnorr.rs:144, 179. -/
def scalarMul (P : Wire G) (bs : List (Wire Bool)) : Tr p G (Wire G) :=
  call pa .scalarMul (pa P :: bs.map ba) (bitsVal (bs.map (·.val)) • P.val)
/-- `+` of points. Library; schnorr.rs:144, 179. -/
def pointAdd (P Q : Wire G) : Tr p G (Wire G) := call pa .pointAdd [pa P, pa Q] (P.val + Q.val)

/-- schnorr.rs:166-197 `SchnorrGadget::is_valid::<W>`; the slices `[..len - 1]` and the last bits panic when the
strings are too short. -/
def isValid (W : Nat) (cv : Curve p q G) (H : List (ZMod p) → ZMod p) (pk : Wire G) (m : List (Wire (ZMod p)))
    (s e : List (Wire Bool)) : Tr p G (Wire Bool) := do
  let len := modBits q
  let r1 ← scalarMul (.const cv.gen) s
  let r2 ← scalarMul pk e
  let r ← pointAdd r1 r2
  let xy ← coords cv r
  let h ← hash H (xy.dropLast ++ m)
  let hb ← toBits h
  let hb := hb.take len
  enforceLt W hb ((natBits len q).map .const)
  match hb[len - 1]?, e[len - 1]? with
  | some x, some y => do
    let a ← packBits (hb.take (len - 1))
    let b ← packBits (e.take (len - 1))
    let eq ← isEq fa a b
    let last ← isEq ba x y
    band eq last
  | _, _ => panic

/-! ## Data -/

/-- utxo/constraints.rs:26-30 `UTXOVar`. -/
structure UtxoW (p : Nat) (G : Type) where
  amount : Wire (ZMod p)
  pk : Wire G
  isDummy : Wire Bool

/-- transaction/constraints.rs:50-58 `TransactionVar` (arrays of `TX_IO_SIZE` as lists). -/
structure TxW (p : Nat) (G : Type) where
  inputs : List (UtxoW p G)
  outputs : List (UtxoW p G)

/-- utxo/constraints.rs:32-53 `UTXOVar::new_variable`. -/
def allocUtxo (u : UTXO (ZMod p) G) : Tr p G (UtxoW p G) := do
  let amount ← allocF u.amount
  let pk ← allocP u.pk
  let isDummy ← allocB u.isDummy
  pure ⟨amount, pk, isDummy⟩

/-- transaction/constraints.rs:59-80 `TransactionVar::new_variable`. -/
def allocTx (t : Tx (ZMod p) G) : Tr p G (TxW p G) := do
  let i ← each allocUtxo t.inputs.toList
  let o ← each allocUtxo t.outputs.toList
  pure ⟨i, o⟩

/-- `UTXOVar::new_constant`; aggregator/src/circuit.rs:337, 371. -/
def constUtxo (u : UTXO (ZMod p) G) : UtxoW p G := ⟨.const u.amount, .const u.pk, .const u.isDummy⟩

/-- `TransactionVar::new_constant`; aggregator/src/circuit.rs:311. -/
def constTx (t : Tx (ZMod p) G) : TxW p G :=
  ⟨t.inputs.toList.map constUtxo, t.outputs.toList.map constUtxo⟩

/-- transaction/constraints.rs:36-43, crh/constraints.rs:118-124. -/
def utxoFields (cv : Curve p q G) (u : UtxoW p G) : Tr p G (List (Wire (ZMod p))) := do
  let d ← toField u.isDummy
  let c ← coords cv u.pk
  pure (u.amount :: d :: c)

/-- transaction/constraints.rs:31-47. -/
def txFields (cv : Curve p q G) (t : TxW p G) : Tr p G (List (Wire (ZMod p))) := do
  let l ← each (utxoFields cv) (t.inputs ++ t.outputs)
  pure l.flatten

/-- crh/constraints.rs:107-126 `UTXOVarCRH`. -/
def utxoHash (cv : Curve p q G) (H : List (ZMod p) → ZMod p) (u : UtxoW p G) : Tr p G (Wire (ZMod p)) := do
  let l ← utxoFields cv u
  hash H l

/-- crh/constraints.rs:48-62 `TransactionVarCRH`. -/
def txHash (cv : Curve p q G) (H : List (ZMod p) → ZMod p) (t : TxW p G) : Tr p G (Wire (ZMod p)) := do
  let l ← txFields cv t
  hash H l

/-- crh/constraints.rs:85-99 `PublicKeyVarCRH`. -/
def pkHash (cv : Curve p q G) (H : List (ZMod p) → ZMod p) (P : Wire G) : Tr p G (Wire (ZMod p)) := do
  let l ← coords cv P
  hash H l

/-! ## Trees -/

/-- sparsemt/constraints.rs:266-283. -/
def updateLoop (h2 : ZMod p → ZMod p → ZMod p) : List (Wire (ZMod p)) → List (Wire Bool) → Wire (ZMod p) →
    Wire (ZMod p) → Tr p G (Wire (ZMod p) × Wire (ZMod p))
  | s :: rest, bit :: bits, o, n => do
    let ol ← sel fa bit s o
    let t ← add o s
    let or ← sub t ol
    let nl ← sel fa bit s n
    let t' ← add n s
    let nr ← sub t' nl
    let o1 ← two h2 ol or
    let n1 ← two h2 nl nr
    updateLoop h2 rest bits o1 n1
  | _, _, o, n => pure (o, n)

/-- sparsemt/constraints.rs:236-284 `update_root`. -/
def updateRoot {L : Type} (leafHash : L → Tr p G (Wire (ZMod p))) (h2 : ZMod p → ZMod p → ZMod p) (height : Nat)
    (proof : List (Wire (ZMod p))) (old new : L) (index : Wire (ZMod p)) :
    Tr p G (Wire (ZMod p) × Wire (ZMod p)) := do
  assert (decide (proof.length = height - 1))
  let o ← leafHash old
  let n ← leafHash new
  let bits ← toBits index
  updateLoop h2 proof bits o n

/-- aggregator/src/circuit.rs:333-341 (and 367-376, 379-387). -/
def condUpdate {L : Type} (leafHash : L → Tr p G (Wire (ZMod p))) (h2 : ZMod p → ZMod p → ZMod p) (height : Nat)
    (on : Wire Bool) (pos : Wire (ZMod p)) (proof : List (Wire (ZMod p))) (old new : L) (r : Wire (ZMod p)) :
    Tr p G (Wire (ZMod p)) := do
  let u ← updateRoot leafHash h2 height proof old new pos
  condEnforceEq fa r u.1 on
  sel fa on u.2 r

/-- sparsemt/constraints.rs:111-136. -/
def memLoop (h2 : ZMod p → ZMod p → ZMod p) (on : Wire Bool) : List (Wire (ZMod p) × Wire (ZMod p)) →
    Wire (ZMod p) → Tr p G (Wire (ZMod p))
  | [], prev => pure prev
  | (l, r) :: rest, prev => do
    let b ← allocB (decide (prev.val = l.val))
    let x ← sel fa b l r
    condEnforceEq fa prev x on
    let h ← two h2 l r
    memLoop h2 on rest h

/-- sparsemt/constraints.rs:74-139 `conditionally_check_membership`. -/
def checkMembership {L : Type} (leafHash : L → Tr p G (Wire (ZMod p))) (h2 : ZMod p → ZMod p → ZMod p)
    (height : Nat) (path : List (Wire (ZMod p) × Wire (ZMod p))) (root : Wire (ZMod p)) (leaf : L)
    (on : Wire Bool) : Tr p G Unit := do
  assert (decide (path.length = height - 1))
  let lh ← leafHash leaf
  match path with
  | [] => panic
  | (l, r) :: _ => do
    let b ← allocB (decide (lh.val = l.val))
    let x ← sel fa b l r
    condEnforceEq fa lh x on
    let prev ← memLoop h2 on path lh
    condEnforceEq fa root prev on

/-- sparsemt/constraints.rs:187-203. -/
def memIdxLoop (h2 : ZMod p → ZMod p → ZMod p) (on : Wire Bool) : List (Wire (ZMod p) × Wire (ZMod p)) →
    List (Wire Bool) → Wire (ZMod p) → Tr p G (Wire (ZMod p))
  | [], _, prev => pure prev
  | _ :: _, [], _ => panic
  | (l, r) :: rest, bit :: bits, prev => do
    let b ← bnot bit
    let x ← sel fa b l r
    condEnforceEq fa prev x on
    let h ← two h2 l r
    memIdxLoop h2 on rest bits h

/-- sparsemt/constraints.rs:164-206 `conditionally_check_membership_with_index`. -/
def checkMembershipIdx {L : Type} (leafHash : L → Tr p G (Wire (ZMod p))) (h2 : ZMod p → ZMod p → ZMod p)
    (height : Nat) (path : List (Wire (ZMod p) × Wire (ZMod p))) (root : Wire (ZMod p)) (leaf : L)
    (index : Wire (ZMod p)) (on : Wire Bool) : Tr p G Unit := do
  assert (decide (path.length = height - 1))
  let lh ← leafHash leaf
  let bits ← toBits index
  let prev ← memIdxLoop h2 on path bits lh
  condEnforceEq fa root prev on

variable [DecidableEq G]

/-! ## Aggregator -/

/-- transaction/constraints.rs:109-112. -/
def ownerLoop (sender : Wire G) : List (UtxoW p G) → Tr p G Unit
  | [] => pure ()
  | u :: us => do
    let nd ← bnot u.isDummy
    condEnforceEq pa u.pk sender nd
    ownerLoop sender us

/-- transaction/constraints.rs:114-119: `sum += ` (inputs) or `sum -= ` (outputs) of the amounts not dummy. -/
def sumLoop (op : Wire (ZMod p) → Wire (ZMod p) → Tr p G (Wire (ZMod p))) : List (UtxoW p G) → Wire (ZMod p) →
    Tr p G (Wire (ZMod p))
  | [], s => pure s
  | u :: us, s => do
    let x ← sel fa u.isDummy (.const 0) u.amount
    let s1 ← op s x
    sumLoop op us s1

/-- transaction/constraints.rs:108-122 `enforce_valid`. -/
def enforceValid (t : TxW p G) (sender : Wire G) : Tr p G Unit := do
  ownerLoop sender t.inputs
  let s ← sumLoop add t.inputs (.const 0)
  let s ← sumLoop sub t.outputs s
  enforceEq fa s (.const 0)

/-- aggregator/src/circuit.rs:96-126 `AggregatorCircuitInputsVar`. -/
structure InputsW (p : Nat) (G : Type) where
  tx : TxW p G
  txProof : List (Wire (ZMod p))
  dels : List (Wire (ZMod p) × List (Wire (ZMod p)))
  adds : List (Wire (ZMod p) × List (Wire (ZMod p)))
  signerProof : List (Wire (ZMod p))
  senderPk : Wire G
  sigS : List (Wire Bool)
  sigE : List (Wire Bool)

/-- aggregator/src/circuit.rs:134-200: proofs are allocated before positions. -/
def allocInputs (i : AggC.CInputs p G) : Tr p G (InputsW p G) := do
  let tx ← allocTx i.tx
  let txProof ← allocFs i.txProof
  let dels ← each allocFs (i.dels.map (·.2))
  let delPos ← each allocF (i.dels.map (·.1))
  let adds ← each allocFs (i.adds.map (·.2))
  let addPos ← each allocF (i.adds.map (·.1))
  let signerProof ← allocFs i.signerProof
  let senderPk ← allocP i.senderPk
  let sigS ← allocBs i.sigS
  let sigE ← allocBs i.sigE
  pure ⟨tx, txProof, delPos.zip dels, addPos.zip adds, signerProof, senderPk, sigS, sigE⟩

/-- aggregator/src/circuit.rs:284-291: the state vector. -/
structure StateW (p : Nat) where
  step : Wire (ZMod p)
  utxoRoot : Wire (ZMod p)
  txRoot : Wire (ZMod p)
  txRootFinal : Wire (ZMod p)
  signerRoot : Wire (ZMod p)
  signerAcc : Wire (ZMod p)
  depositAcc : Wire (ZMod p)
  withdrawalAcc : Wire (ZMod p)

/-- aggregator/src/circuit.rs:330-342. Lists of different lengths do not occur in the source (fixed-size arrays). -/
def delLoop (cv : Curve p q G) (hs : Hashes p) (sigOk : Wire Bool) :
    List (UtxoW p G) → List (Wire (ZMod p) × List (Wire (ZMod p))) → Wire (ZMod p) → Tr p G (Wire (ZMod p))
  | u :: us, d :: ds, r => do
    let nd ← bnot u.isDummy
    let on ← band sigOk nd
    let r1 ← condUpdate (utxoHash cv hs.crh) hs.h2 UTXO_TREE_HEIGHT on d.1 d.2 u (constUtxo UTXO.dummy) r
    delLoop cv hs sigOk us ds r1
  | [], [], r => pure r
  | _, _, _ => panic

/-- aggregator/src/circuit.rs:348-363. -/
def depositStep (P : AggC.Params p G) (cv : Curve p q G) (senderIsContract : Wire Bool) (u : UtxoW p G)
    (dep : Wire (ZMod p)) : Tr p G (Wire (ZMod p)) :=
  if P.transferOnly then pure dep
  else do
    let b1 ← toBytes dep
    let b2 ← pointBytes cv u.pk
    let bits ← toNBits u.amount 64
    let b3 ← toByteChunks bits
    let nd ← bnot u.isDummy
    let on ← band senderIsContract nd
    let f ← shaField P.sha (b1 ++ b2 ++ b3)
    sel fa on f dep

/-- aggregator/src/circuit.rs:345-377. -/
def addLoop (P : AggC.Params p G) (cv : Curve p q G) (senderIsContract txOk : Wire Bool) :
    List (UtxoW p G) → List (Wire (ZMod p) × List (Wire (ZMod p))) → (dep w r : Wire (ZMod p)) →
      Tr p G (Wire (ZMod p) × Wire (ZMod p) × Wire (ZMod p))
  | u :: us, a :: as, dep, w, r => do
    let rc ← isEq pa u.pk (.const P.contract)
    let dep1 ← depositStep P cv senderIsContract u dep
    let nd ← bnot u.isDummy
    let isW ← band rc nd
    let x ← sel fa isW u.amount (.const 0)
    let w1 ← add w x
    let nrc ← bnot rc
    let on1 ← band txOk nrc
    let nd' ← bnot u.isDummy
    let on ← band on1 nd'
    let r1 ← condUpdate (utxoHash cv P.hs.crh) P.hs.h2 UTXO_TREE_HEIGHT on a.1 a.2 (constUtxo UTXO.dummy) u r
    addLoop P cv senderIsContract txOk us as dep1 w1 r1
  | [], [], dep, w, r => pure (dep, w, r)
  | _, _, _, _, _ => panic

/-- aggregator/src/circuit.rs:402-416. -/
def withdrawalStep (P : AggC.Params p G) (cv : Curve p q G) (senderPk : Wire G) (w acc : Wire (ZMod p)) :
    Tr p G (Wire (ZMod p)) :=
  if P.transferOnly then pure acc
  else do
    let b1 ← toBytes acc
    let b2 ← pointBytes cv senderPk
    let bits ← toNBits w 64
    let b3 ← toByteChunks bits
    let z ← isZero w
    let f ← shaField P.sha (b1 ++ b2 ++ b3)
    sel fa z acc f

/-- aggregator/src/circuit.rs:293-418: one transaction. Signature strings of other lengths do not occur in the
source (keypair/constraints.rs:67-83). -/
def stepOne (P : AggC.Params p G) (cv : Curve p q G) (z : StateW p) (i : InputsW p G) : Tr p G (StateW p) := do
  assert (decide (i.sigS.length = modBits q ∧ i.sigE.length = modBits q))
  enforceValid i.tx i.senderPk
  let u ← updateRoot (txHash cv P.hs.crh) P.hs.h2 TX_TREE_HEIGHT i.txProof (constTx Tx.default) i.tx z.step
  enforceEq fa u.1 z.txRoot
  let m ← txFields cv i.tx
  let sigOk ← isValid 32 cv P.hs.crh i.senderPk (m ++ [z.txRootFinal]) i.sigS i.sigE
  let isContract ← isEq pa i.senderPk (.const P.contract)
  let txOk ← bor sigOk isContract
  let r1 ← delLoop cv P.hs sigOk i.tx.inputs i.dels z.utxoRoot
  let (dep, w, r2) ← addLoop P cv isContract txOk i.tx.outputs i.adds z.depositAcc (.const 0) r1
  let s ← updateRoot (pkHash cv P.hs.crh) P.hs.h2 SIGNER_TREE_HEIGHT i.signerProof (.const 0) i.senderPk z.step
  condEnforceEq fa s.1 z.signerRoot txOk
  let signerRoot ← sel fa txOk s.2 z.signerRoot
  let b1 ← toBytes z.signerAcc
  let k ← sel pa txOk i.senderPk (.const 0)
  let b2 ← pointBytes cv k
  let signerAcc ← shaField P.sha (b1 ++ b2)
  let withdrawalAcc ← withdrawalStep P cv i.senderPk w z.withdrawalAcc
  let step ← add z.step (.const 1)
  pure ⟨step, r2, u.2, z.txRootFinal, signerRoot, signerAcc, dep, withdrawalAcc⟩

/-- aggregator/src/circuit.rs:293-419. -/
def stepBatch (P : AggC.Params p G) (cv : Curve p q G) : StateW p → List (InputsW p G) → Tr p G (StateW p)
  | z, [] => pure z
  | z, i :: is => do
    let z1 ← stepOne P cv z i
    stepBatch P cv z1 is

/-- The state vector as variables, in order (aggregator/src/circuit.rs:284-291; allocated by the folding library). -/
def allocState (z : AggC.CState p) : Tr p G (StateW p) := do
  let a ← allocF z.step
  let b ← allocF z.utxoRoot
  let c ← allocF z.txRoot
  let d ← allocF z.txRootFinal
  let e ← allocF z.signerRoot
  let f ← allocF z.signerAcc
  let g ← allocF z.depositAcc
  let h ← allocF z.withdrawalAcc
  pure ⟨a, b, c, d, e, f, g, h⟩

/-- One step of the aggregator's circuit as the folding library synthesises it: the state and the external inputs
become variables (aggregator/src/circuit.rs:203-223), then `generate_step_constraints` (272-430). -/
def aggregatorStep (P : AggC.Params p G) (cv : Curve p q G) (z : AggC.CState p) (is : List (AggC.CInputs p G)) :
    Tr p G (StateW p) := do
  let zw ← allocState z
  let iw ← each allocInputs is
  stepBatch P cv zw iw

/-! ## Client -/

/-- block/constraints.rs:7-12 `BlockVar`. -/
structure BlockW (p : Nat) where
  utxoRoot : Wire (ZMod p)
  txRoot : Wire (ZMod p)
  signerRoot : Wire (ZMod p)
  height : Wire (ZMod p)

/-- block/constraints.rs:14-35. -/
def allocBlock (b : BlockVar (ZMod p)) : Tr p G (BlockW p) := do
  let u ← allocF b.utxoRoot
  let t ← allocF b.txRoot
  let s ← allocF b.signerRoot
  let h ← allocF b.height
  pure ⟨u, t, s, h⟩

/-- sparsemt/constraints.rs:340-367 `MerkleSparseTreePathVar::new_variable`. -/
def allocPath (l : List (ZMod p × ZMod p)) : Tr p G (List (Wire (ZMod p) × Wire (ZMod p))) :=
  each (fun x => do
    let a ← allocF x.1
    let b ← allocF x.2
    pure (a, b)) l

/-- client/src/circuits/mod.rs:120-135 `UserAuxVar`. -/
structure AuxW (p : Nat) (G : Type) where
  txProofs : List (List (Wire (ZMod p) × Wire (ZMod p)))
  signerProofs : List (List (Wire (ZMod p) × Wire (ZMod p)))
  block : BlockW p
  transactions : List (TxW p G × Wire (ZMod p))
  pk : Wire G

/-- client/src/circuits/mod.rs:137-184 `UserAuxVar::new_variable`. -/
def allocAux (a : Client.UserAuxVar p G) : Tr p G (AuxW p G) := do
  let txProofs ← each allocPath a.txProofs
  let signerProofs ← each allocPath a.signerProofs
  let block ← allocBlock a.block
  let transactions ← each (fun x => do
    let t ← allocTx x.1
    let i ← allocF x.2
    pure (t, i)) a.transactions
  let pk ← allocP a.pk
  pure ⟨txProofs, signerProofs, block, transactions, pk⟩

/-- transaction/constraints.rs:124-131 `get_signer`. -/
def signerLoop : List (UtxoW p G) → Wire G → Tr p G (Wire G)
  | [], pk => pure pk
  | u :: us, pk => do
    let k ← sel pa u.isDummy pk u.pk
    signerLoop us k

/-- client/src/circuits/mod.rs:302-305 and 309-312: `balance ∓= amount * (pk == user)`. -/
def balanceLoop (op : Wire (ZMod p) → Wire (ZMod p) → Tr p G (Wire (ZMod p))) (pk : Wire G) :
    List (UtxoW p G) → Wire (ZMod p) → Tr p G (Wire (ZMod p))
  | [], b => pure b
  | u :: us, b => do
    let e ← isEq pa u.pk pk
    let f ← toField e
    let x ← mul u.amount f
    let b1 ← op b x
    balanceLoop op pk us b1

/-- client/src/circuits/mod.rs:213-229: the variables updated by the loop. -/
structure LoopW (p : Nat) where
  balance : Wire (ZMod p)
  nonce : Wire (ZMod p)
  prevTxIndex : Wire (ZMod p)

/-- client/src/circuits/mod.rs:262-319: one iteration. -/
def txStep (P : Client.Params p) (cv : Curve p q G) (blk : BlockW p) (pk : Wire G) (s : LoopW p) (t : TxW p G)
    (index : Wire (ZMod p)) (txPath signerPath : List (Wire (ZMod p) × Wire (ZMod p))) : Tr p G (LoopW p) := do
  let h ← txHash cv P.hs.crh t
  let eq ← isEq fa h (.const (Client.dummyHash cv P))
  let regular ← bnot eq
  let lower ← isLess s.prevTxIndex index
  condEnforceEq ba lower (.const true) regular
  checkMembershipIdx (txHash cv P.hs.crh) P.hs.h2 TX_TREE_HEIGHT txPath blk.txRoot t index regular
  let signer ← signerLoop t.inputs (.const 0)
  checkMembership (pkHash cv P.hs.crh) P.hs.h2 SIGNER_TREE_HEIGHT signerPath blk.signerRoot signer regular
  let isUser ← isEq pa pk signer
  let f ← toField isUser
  let nonce ← add s.nonce f
  let b1 ← balanceLoop sub pk t.inputs s.balance
  let b2 ← balanceLoop add pk t.outputs b1
  let r1 ← toField regular
  let c ← sub (.const 1) r1
  let x ← mul c s.prevTxIndex
  let r2 ← toField regular
  let y ← mul r2 index
  let prev ← add x y
  pure ⟨b2, nonce, prev⟩

/-- client/src/circuits/mod.rs:251-260: the loop over the zipped lists. -/
def txLoop (P : Client.Params p) (cv : Curve p q G) (blk : BlockW p) (pk : Wire G) :
    List (((TxW p G × Wire (ZMod p)) × List (Wire (ZMod p) × Wire (ZMod p))) ×
      List (Wire (ZMod p) × Wire (ZMod p))) → LoopW p → Tr p G (LoopW p)
  | [], s => pure s
  | x :: rest, s => do
    let s1 ← txStep P cv blk pk s x.1.1.1 x.1.1.2 x.1.2 x.2
    txLoop P cv blk pk rest s1

/-- client/src/circuits/mod.rs:213-229: the seven variables of the state. -/
structure UStateW (p : Nat) where
  balance : Wire (ZMod p)
  nonce : Wire (ZMod p)
  pkHash : Wire (ZMod p)
  acc : Wire (ZMod p)
  prevBlockHash : Wire (ZMod p)
  prevBlockNumber : Wire (ZMod p)
  prevTxIndex : Wire (ZMod p)

/-- The accumulator a client's circuit is instantiated with: client/src/lib.rs:74-81 (`PoseidonAccumulatorVar`) and
131-138 (`Sha256AccumulatorVar`). -/
inductive AccKind where
  | poseidon
  | sha (s : Sha)

/-- The function the accumulator computes; client/src/lib.rs:64-84 `ClientCircuitPoseidon` (`Client.poseidonParams`) and
121-142 `ClientCircuitSha` (`Client.shaParams`). -/
def AccKind.fn (A : AccKind) (hs : Hashes p) : ZMod p → ZMod p → ZMod p :=
  match A with
  | .poseidon => poseidonAccVar hs.h2
  | .sha s => shaAccVar s

/-- client/src/lib.rs:72-81, 130-138: the parameters of `UserCircuit`. -/
def AccKind.params (A : AccKind) (hs : Hashes p) : Client.Params p := ⟨hs, A.fn hs⟩

/-- accumulator/constraints.rs:32-48 and 55-66 `update`; the bytes of the new value come first. `split_last` cannot fail:
the digest has 32 bytes. -/
def accumulate (A : AccKind) (hs : Hashes p) (prev value : Wire (ZMod p)) : Tr p G (Wire (ZMod p)) :=
  match A with
  | .poseidon => two hs.h2 prev value
  | .sha s => do
    let r ← toBytes value
    let l ← toBytes prev
    let d ← digest s (l ++ r)
    packBytes d.dropLast

/-- client/src/circuits/mod.rs:196-337 `update_balance`. -/
def updateBalance (hs : Hashes p) (A : AccKind) (cv : Curve p q G) (n : Nat) (z : UStateW p) (a : AuxW p G) :
    Tr p G (UStateW p) := do
  assert (decide (a.txProofs.length = n))
  assert (decide (a.transactions.length = n))
  assert (decide (a.signerProofs.length = n))
  let k ← pkHash cv hs.crh a.pk
  enforceEq fa k z.pkHash
  let blockHash ← hash hs.crh [a.block.utxoRoot, a.block.txRoot, a.block.signerRoot, a.block.height]
  let acc ← accumulate A hs z.acc blockHash
  enforceLe z.prevBlockNumber a.block.height
  let same ← isEq fa blockHash z.prevBlockHash
  let prev ← sel fa same z.prevTxIndex (.const 0)
  let s ← txLoop (A.params hs) cv a.block a.pk ((a.transactions.zip a.txProofs).zip a.signerProofs) ⟨z.balance, z.nonce, prev⟩
  pure ⟨s.balance, s.nonce, z.pkHash, acc, blockHash, a.block.height, s.prevTxIndex⟩

/-- The state vector as variables (client/src/circuits/mod.rs:213-229; allocated by the folding library). -/
def allocUState (z : Client.UState p) : Tr p G (UStateW p) := do
  let a ← allocF z.balance
  let b ← allocF z.nonce
  let c ← allocF z.pkHash
  let d ← allocF z.acc
  let e ← allocF z.prevBlockHash
  let f ← allocF z.prevBlockNumber
  let g ← allocF z.prevTxIndex
  pure ⟨a, b, c, d, e, f, g⟩

/-- One step of the client's circuit as the folding library synthesises it (client/src/lib.rs:64-84, 121-142). -/
def clientStep (hs : Hashes p) (A : AccKind) (cv : Curve p q G) (n : Nat) (z : Client.UState p)
    (a : Client.UserAuxVar p G) : Tr p G (UStateW p) := do
  let zw ← allocUState z
  let aw ← allocAux a
  updateBalance hs A cv n zw aw

end
end PF.Prog
