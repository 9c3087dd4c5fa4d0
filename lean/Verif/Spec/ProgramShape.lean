import Verif.Spec.Program

/-!
# Shapes of constraint programs

The shape of a program forgets the numbers of the variables and keeps the rest: the gadgets, the sorts of their operands,
which operands are constants and which constants, and how many variables each gadget returns. Any measure of
the size of a constraint system to which each gadget call contributes what its operands' kinds determine (numbers of constraints,
of variables, of non-zero entries) is a sum over the shape.
-/

namespace PF.Prog
open PF PF.Circuit
variable {p : Nat} {G α : Type}

/-- Forgets the number of a variable. -/
def Ref.forget : Ref α → Ref α
  | .var _ => .var 0
  | .const c => .const c

/-- Forgets the number of a variable. -/
def Arg.forget : Arg p G → Arg p G
  | .field r => .field r.forget
  | .bool r => .bool r.forget
  | .point r => .point r.forget
  | .byte r => .byte r.forget

/-- A gadget call without the numbers of its variables. -/
def Instr.shape (i : Instr p G) : Instr p G := ⟨i.gadget, i.args.map Arg.forget, i.results⟩

/-- A list, repeated `n` times. -/
def rep (n : Nat) (l : List α) : List α := (List.replicate n l).flatten

/-- How often a program calls a gadget. -/
def calls (g : Gadget) (prog : List (Instr p G)) : Nat := (prog.filter fun i => i.gadget = g).length

/-- Whether the client uses the SHA-256 accumulator. -/
def AccKind.isSha : AccKind → Bool
  | .poseidon => false
  | .sha _ => true

end PF.Prog
