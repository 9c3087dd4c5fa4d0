import Verif.Model.TreeGadgets
import Verif.Spec.TreeUpdates
import Verif.Proof.SparseMTVerify
import Verif.Proof.Circuit

/-!
# Lemmas on the dense-tree gadgets
-/

set_option linter.unusedSectionVars false

namespace PF.TreeG
open PF PF.MT PF.Circuit PF.Spec
variable {L LV G : Type} {p q : Nat}

theorem pathVar_up_eq (h2 : ZMod p → ZMod p → ZMod p) (bs : List Bool) (ss : List (ZMod p))
    (hl : bs.length = ss.length) (cur : ZMod p) :
    PathVar.up h2 bs ss cur = climb h2 ss cur (bitsVal bs) := by
  induction bs generalizing ss cur with
  | nil =>
    cases ss with
    | nil => rfl
    | cons => simp at hl
  | cons b bs ih =>
    cases ss with
    | nil => simp at hl
    | cons s ss =>
      simp only [PathVar.up, climb_cons]
      rw [ih ss (by simpa using hl)]
      have h1 : (bitsVal (b :: bs)) / 2 = bitsVal bs := by
        cases b <;> simp [bitsVal] <;> omega
      have h3 : (bitsVal (b :: bs)) % 2 = b.toNat := by cases b <;> simp [bitsVal]
      rw [h1, h3]
      cases b <;> simp [select]

theorem path_up_eq (h2 : ZMod p → ZMod p → ZMod p) (ss : List (ZMod p)) (i : Nat) (cur : ZMod p) :
    Path.up h2 ss i cur = climb h2 ss cur i := by
  induction ss generalizing i cur with
  | nil => rfl
  | cons s ss ih =>
    simp only [Path.up, climb_cons, ih]
    rcases Nat.mod_two_eq_zero_or_one i with h | h <;> simp [h]

theorem climb_mod (h2 : ZMod p → ZMod p → ZMod p) (ss : List (ZMod p)) (i : Nat) (cur : ZMod p) :
    climb h2 ss cur (i % 2 ^ ss.length) = climb h2 ss cur i := by
  induction ss generalizing i cur with
  | nil => rfl
  | cons s ss ih =>
    simp only [climb_cons, List.length_cons]
    have h1 : i % 2 ^ (ss.length + 1) % 2 = i % 2 := by
      rw [pow_succ', Nat.mod_mul_right_mod]
    have h3 : i % 2 ^ (ss.length + 1) / 2 = i / 2 % 2 ^ ss.length := by
      rw [pow_succ', Nat.mod_mul_right_div_self]
    rw [h1, h3, ih]

/-- The sibling digests of a path variable, from the leaf up. -/
def PathVar.sibs (v : PathVar p) : List (ZMod p) := v.leafSibling :: v.authPath.reverse

theorem calculateRoot_eq (cfg : Config L p) (v : PathVar p) (hl : v.path.length = v.authPath.length)
    (leaf : L) :
    v.calculateRoot cfg leaf = climb cfg.h2 v.sibs (cfg.leafHash leaf) (bitsVal v.getLeafPosition) := by
  unfold PathVar.calculateRoot PathVar.sibs PathVar.getLeafPosition
  rw [climb_cons, pathVar_up_eq _ _ _ (by simpa using hl)]
  have h1 : (bitsVal (v.leafIsRight :: v.path.reverse)) / 2 = bitsVal v.path.reverse := by
    cases v.leafIsRight <;> simp [bitsVal] <;> omega
  have h3 : (bitsVal (v.leafIsRight :: v.path.reverse)) % 2 = v.leafIsRight.toNat := by
    cases v.leafIsRight <;> simp [bitsVal]
  rw [h1, h3]
  cases v.leafIsRight <;> simp [select]

theorem natBits_map (n x : Nat) : natBits n x = (List.range n).map fun i => x.testBit i := by
  induction n generalizing x with
  | zero => rfl
  | succ n ih =>
    rw [natBits, ih, List.range_succ_eq_map, List.map_cons, List.map_map]
    congr 1
    · simp [Nat.testBit_zero]
    · apply List.map_congr_left
      intro i _
      simp [Nat.testBit_succ]

theorem getLeafPosition_alloc (a : Path p) :
    a.alloc.getLeafPosition = natBits (a.authPath.length + 1) a.leafIndex := by
  have hlen : a.positionList.length - 1 = a.authPath.length := by simp [Path.positionList]
  simp only [PathVar.getLeafPosition, Path.alloc, hlen]
  rw [natBits_map, List.range_succ_eq_map, List.map_cons]
  congr 1
  simp only [Path.positionList, List.range_succ_eq_map, List.map_cons, List.reverse_cons]
  rw [List.take_append_of_le_length (by simp), List.take_of_length_le (by simp), List.reverse_reverse]

theorem alloc_len (a : Path p) : a.alloc.path.length = a.alloc.authPath.length := by
  simp [Path.alloc, Path.positionList]

theorem verifyMembership_alloc (cfg : Config L p) (a : Path p) (root : ZMod p) (leaf : L) :
    a.alloc.verifyMembership cfg root leaf = a.verify cfg root leaf := by
  have h1 : a.verify cfg root leaf =
      decide (climb cfg.h2 a.alloc.sibs (cfg.leafHash leaf) a.leafIndex = root) := by
    unfold Path.verify PathVar.sibs
    rw [climb_cons]
    simp only [path_up_eq, Path.alloc]
    rcases Nat.mod_two_eq_zero_or_one a.leafIndex with h | h <;> simp [h]
  rw [h1, PathVar.verifyMembership, calculateRoot_eq _ _ (alloc_len a), getLeafPosition_alloc,
    bitsVal_natBits]
  have : a.authPath.length + 1 = a.alloc.sibs.length := by simp [PathVar.sibs, Path.alloc]
  rw [this, climb_mod]

theorem two_pow_le_of_lt_modBits {n : Nat} (h : n < modBits p) : 2 ^ n ≤ p := by
  unfold modBits at h
  exact Nat.lt_size.1 h

end PF.TreeG
