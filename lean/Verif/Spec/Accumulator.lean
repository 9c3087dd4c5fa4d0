/-!
# Specification: hash chains
-/

namespace PF.Spec

/-- Value of a hash chain: from `a`, absorb the values in order; `inp` forms the hash input. -/
def chain {D V Q : Type} (h : Q → D) (inp : D → V → Q) (a : D) (vs : List V) : D :=
  vs.foldl (fun a v => h (inp a v)) a

/-- The hash inputs met when computing a chain. -/
def chainInputs {D V Q : Type} (h : Q → D) (inp : D → V → Q) : D → List V → List Q
  | _, [] => []
  | a, v :: vs => inp a v :: chainInputs h inp (h (inp a v)) vs

/-- Two transcripts exhibit a collision of `t`: at one common position the inputs differ and
hash to the same value. -/
def TranscriptCollision {D Q : Type} (t : Q → D) (xs ys : List Q) : Prop :=
  ∃ (i : Nat) (x y : Q), xs[i]? = some x ∧ ys[i]? = some y ∧ x ≠ y ∧ t x = t y

/-- Two chains started from `a` break the hash function: two different inputs met in them have the same
value of `t`, or one of the inputs met hashes to the starting value `a`. -/
def ChainBreak {D E V Q : Type} (h : Q → D) (t : Q → E) (inp : D → V → Q) (a : D) (vs vs' : List V) :
    Prop :=
  (∃ x ∈ chainInputs h inp a vs, ∃ y ∈ chainInputs h inp a vs', x ≠ y ∧ t x = t y) ∨
  ∃ x ∈ chainInputs h inp a vs ++ chainInputs h inp a vs', h x = a

end PF.Spec
