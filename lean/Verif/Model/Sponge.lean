import Mathlib.Algebra.Group.Pi.Basic
import Mathlib.Algebra.Group.Prod
import Verif.Model.Data

/-!
# The sponge behind the two Poseidon functions (library)

The repository calls `CRH::evaluate` and `TwoToOneCRH::evaluate` of ark-crypto-primitives
(plasma-fold/src/primitives/crh/mod.rs:42, 69, 77, 103, 144, 172; schnorr.rs:44, 66;
sparsemt/mod.rs:626). Elsewhere in the model they are arbitrary functions; here the duplex sponge of the library
(`sponge/poseidon/mod.rs`) is modelled around an arbitrary permutation. The rounds of Poseidon are not
modelled. `c` and `r` are the capacity and the rate of the configuration.
-/

namespace PF.Sponge
variable {F : Type} [AddCommGroup F] {c r : Nat}

/-- (library) `PoseidonSponge::state`: the capacity elements, then the rate elements. -/
abbrev St (F : Type) (c r : Nat) := (Fin c → F) × (Fin r → F)

/-- (library) `state[capacity + i] += x`. -/
def addAt (st : St F c r) (i : Nat) (x : F) : St F c r :=
  (st.1, fun j => if j.val = i then st.2 j + x else st.2 j)

/-- (library) the loop `state[capacity + i + start] += element`. -/
def addFrom (st : St F c r) (start : Nat) : List F → St F c r
  | [] => st
  | x :: xs => addFrom (addAt st start x) (start + 1) xs

/-- (library) `absorb_internal`; returns the state and `next_absorb_index`. Simplification: a start index beyond
the rate, which no caller passes, ends the loop. -/
def absorbInternal (perm : St F c r → St F c r) (start : Nat) (st : St F c r) (xs : List F) : St F c r × Nat :=
  if start + xs.length ≤ r ∨ r ≤ start then (addFrom st start xs, start + xs.length)
  else absorbInternal perm 0 (perm (addFrom st start (xs.take (r - start)))) (xs.drop (r - start))
termination_by xs.length
decreasing_by simp only [List.length_drop]; omega

/-- (library) `absorb` in absorbing mode with index `st.2`. -/
def absorb (perm : St F c r → St F c r) (st : St F c r × Nat) (xs : List F) : St F c r × Nat :=
  if xs = [] then st
  else if st.2 = r then absorbInternal perm 0 (perm st.1) xs
  else absorbInternal perm st.2 st.1 xs

/-- (library) `squeeze_field_elements(1)` after absorbing: permute, first rate element. -/
def squeeze (perm : St F c r → St F c r) [NeZero r] (st : St F c r × Nat) : F := (perm st.1).2 0

/-- (library) `crh::poseidon::CRH::evaluate`. -/
def evaluate (perm : St F c r → St F c r) [NeZero r] (xs : List F) : F :=
  squeeze perm (absorb perm (0, 0) xs)

/-- (library) `crh::poseidon::TwoToOneCRH::evaluate`. -/
def compress (perm : St F c r → St F c r) [NeZero r] (a b : F) : F :=
  squeeze perm (absorb perm (absorb perm (0, 0) [a]) [b])

/-- The pair of functions used by the repository.
primitives/crh/mod.rs (Poseidon `CRH` and `TwoToOneCRH` of the library). -/
def hashes {p : Nat} (perm : St (ZMod p) c r → St (ZMod p) c r) [NeZero r] : Hashes p :=
  ⟨evaluate perm, compress perm⟩

end PF.Sponge
