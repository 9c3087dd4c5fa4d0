import Verif.Proof.SparseMTBuild
import Verif.Proof.SparseMTVerify

/-!
# Proofs produced by a tree with given contents verify
-/

namespace PF.MT
open PF PF.Spec
variable {L D : Type} [DecidableEq D]

theorem genProof_rep {cfg : Config L D} {t : STree D} {c : Nat → L} (hR : Rep cfg t c) (i : Nat)
    (hi : i < 2 ^ (cfg.height - 1)) :
    genProof cfg t i (c i) = .ok (truePath cfg.leafHash cfg.h2 cfg.height c i) := by
  have hp := genMembershipProof_eq hR i hi
  simp only [genProof, convertIndex_eq]
  have hn := hR.node (cfg.height - 1) 0 i (by omega) hi
  cases hg : t.tree.get (hidx (cfg.height - 1) i) with
  | none => simp only []; exact hp
  | some x =>
    rw [hg] at hn
    simp only [Option.getD_some, nodeAt, lf] at hn
    simp only [hn, ne_eq, not_true, if_false]; exact hp

theorem Rep.rootHash {cfg : Config L D} {t : STree D} {c : Nat → L} (hR : Rep cfg t c) {ε : Type} :
    (t.rootHash : Outcome ε D) = .ok (merkleRoot cfg.leafHash cfg.h2 cfg.height c) := by
  unfold STree.rootHash; rw [hR.root]; rfl

theorem truePath_verifies (cfg : Config L D) (hH : 2 ≤ cfg.height) (h64 : cfg.height ≤ 64) (c : Nat → L)
    (i : Nat) (hi : i < 2 ^ (cfg.height - 1)) (b : Build) :
    (verifyWithIndex b cfg (truePath cfg.leafHash cfg.h2 cfg.height c i)
      (merkleRoot cfg.leafHash cfg.h2 cfg.height c) (c i) i : Outcome Unit Bool) = .ok true := by
  have hb : 2 ^ (cfg.height - 1) - 1 + i < U64 := by
    have : 2 ^ (cfg.height - 1) ≤ 2 ^ 63 := Nat.pow_le_pow_right (by omega) (by omega)
    unfold U64; omega
  rw [verifyWithIndex_eq b cfg _ _ _ i hb]
  congr 1
  simp only [decide_eq_true_eq]
  refine ⟨pathFrom_length _ _ _ _ _, ?_, hi, ?_⟩
  · intro e; have := congrArg List.length e; simp only [truePath] at this; rw [pathFrom_length] at this
    simp at this; omega
  · have := chainRoot_pathFrom cfg.h2 (lf cfg c) (cfg.height - 1) 0 i
    rw [Nat.div_eq_of_lt hi, Nat.zero_add] at this
    exact this

theorem sibs_verify_update (cfg : Config L D) (h64 : cfg.height ≤ 64) (c : Nat → L)
    (i : Nat) (v : L) (hi : i < 2 ^ (cfg.height - 1)) (b : Build) :
    (verifyUpdate b cfg (sibsFrom cfg.h2 (lf cfg c) 0 (cfg.height - 1) i)
      (merkleRoot cfg.leafHash cfg.h2 cfg.height c) (merkleRoot cfg.leafHash cfg.h2 cfg.height (write c i v))
      (c i) v i : Outcome Unit Bool) = .ok true := by
  have hb : 2 ^ (cfg.height - 1) - 1 + i < U64 := by
    have : 2 ^ (cfg.height - 1) ≤ 2 ^ 63 := Nat.pow_le_pow_right (by omega) (by omega)
    unfold U64; omega
  rw [verifyUpdate_eq b cfg _ _ _ _ _ i hb]
  congr 1
  simp only [decide_eq_true_eq]
  refine ⟨sibsFrom_length _ _ _ _ _, hi, ?_, ?_⟩
  · have := climb_sibsFrom cfg.h2 (lf cfg c) (cfg.height - 1) 0 i
    rw [Nat.div_eq_of_lt hi, Nat.zero_add] at this
    exact this
  · have := climb_sibsFrom_write cfg.h2 cfg.leafHash c i v (cfg.height - 1) 0
    simp only [pow_zero, Nat.div_one, Nat.zero_add, Nat.div_eq_of_lt hi] at this
    unfold merkleRoot
    rw [← this]; simp only [nodeAt, write, if_true]

end PF.MT
