import Verif.Model.Sponge

/-!
# What a sponge computes

Blocks of `r` elements are added to the rate part, with a permutation between blocks; missing elements count as
zero.
-/

namespace PF.Spec
open PF.Sponge
variable {F : Type} [AddCommGroup F] {c r : Nat}

/-- Input of the permutation for block `k`. -/
def spongeState (perm : St F c r → St F c r) (xs : List F) : Nat → St F c r
  | 0 => (0, fun j => xs.getD j 0)
  | k + 1 => ((perm (spongeState perm xs k)).1,
      fun j => (perm (spongeState perm xs k)).2 j + xs.getD ((k + 1) * r + j) 0)

/-- Index of the last block of a list of `n` elements. -/
def lastBlock (r n : Nat) : Nat := (n - 1) / r

/-- Two computations break the permutation: at some block before the last, different inputs whose images have the
same capacity part; or different inputs for the last block whose images have the same first rate element. -/
def SpongeBreak (perm : St F c r → St F c r) [NeZero r] (xs ys : List F) : Prop :=
  (∃ i < lastBlock r xs.length, spongeState perm xs i ≠ spongeState perm ys i ∧
    (perm (spongeState perm xs i)).1 = (perm (spongeState perm ys i)).1) ∨
  (spongeState perm xs (lastBlock r xs.length) ≠ spongeState perm ys (lastBlock r xs.length) ∧
    (perm (spongeState perm xs (lastBlock r xs.length))).2 0 =
      (perm (spongeState perm ys (lastBlock r xs.length))).2 0)

end PF.Spec
