import Verif.Model.SparseMTGadget
import Verif.Proof.Circuit
import Verif.Proof.SparseMTVerify

/-! The Merkle gadgets in terms of `chainRoot` and `climb`. -/

namespace PF.MT
open PF.Circuit PF.Spec
variable {L : Type} {p : Nat}

theorem pick_eq_select {D : Type} (j : Nat) (l r : D) :
    select (!decide (j % 2 = 1)) l r = pick j l r := by
  unfold select pick
  rcases Nat.mod_two_eq_zero_or_one j with h | h <;> simp [h]

theorem memIdxLoop_iff (h2 : ZMod p → ZMod p → ZMod p) (root : ZMod p)
    (path : List (ZMod p × ZMod p)) (m j : Nat) (prev : ZMod p) (hm : path.length ≤ m) :
    memIdxGadgetLoop h2 true root path (natBits m j) prev ↔ chainRoot h2 path prev j = some root := by
  induction path generalizing m j prev with
  | nil => simp [memIdxGadgetLoop, condEq, chainRoot, eq_comm]
  | cons e rest ih =>
    obtain ⟨l, r⟩ := e
    cases m with
    | zero => simp at hm
    | succ m =>
      simp only [natBits, memIdxGadgetLoop, condEq, true_implies, pick_eq_select, chainRoot]
      rw [ih m (j / 2) _ (by simpa using hm)]
      by_cases h : pick j l r = prev
      · simp [h]
      · simp [h, Ne.symm h]

theorem memIdxLoop_off (h2 : ZMod p → ZMod p → ZMod p) (root : ZMod p)
    (path : List (ZMod p × ZMod p)) (bits : List Bool) (prev : ZMod p)
    (hm : path.length ≤ bits.length) : memIdxGadgetLoop h2 false root path bits prev := by
  induction path generalizing bits prev with
  | nil => simp [memIdxGadgetLoop, condEq]
  | cons e rest ih =>
    obtain ⟨l, r⟩ := e
    cases bits with
    | nil => simp at hm
    | cons b bits =>
      simp only [memIdxGadgetLoop]
      exact ⟨by simp [condEq], ih bits _ (by simpa using hm)⟩

theorem chainRoot_mod {D : Type} [DecidableEq D] (h2 : D → D → D) (path : List (D × D)) (prev : D)
    (j : Nat) : chainRoot h2 path prev (j % 2 ^ path.length) = chainRoot h2 path prev j := by
  induction path generalizing prev j with
  | nil => rfl
  | cons e rest ih =>
    obtain ⟨l, r⟩ := e
    simp only [chainRoot, List.length_cons]
    have h1 : (j % 2 ^ (rest.length + 1)) % 2 = j % 2 := by
      rw [pow_succ', Nat.mod_mul]; omega
    have h2' : (j % 2 ^ (rest.length + 1)) / 2 = j / 2 % 2 ^ rest.length := by
      rw [pow_succ', Nat.mod_mul]; omega
    rw [h2', ih]
    unfold pick
    rw [h1]

theorem updateRootLoop_eq (h2 : ZMod p → ZMod p → ZMod p) (sibs : List (ZMod p)) (m j : Nat)
    (o n : ZMod p) (hm : sibs.length ≤ m) :
    updateRootLoop h2 sibs (natBits m j) o n = (climb h2 sibs o j, climb h2 sibs n j) := by
  induction sibs generalizing m j o n with
  | nil =>
    cases m <;> rfl
  | cons s rest ih =>
    cases m with
    | zero => simp at hm
    | succ m =>
      simp only [natBits, updateRootLoop, climb_cons]
      rw [ih m (j / 2) _ _ (by simpa using hm)]
      rcases Nat.mod_two_eq_zero_or_one j with h | h
      · simp [select, h]
      · simp [select, h]

theorem memLoop_iff (h2 : ZMod p → ZMod p → ZMod p) (root : ZMod p)
    (path : List (ZMod p × ZMod p)) (prev : ZMod p) :
    memGadgetLoop h2 true root path prev ↔ verifyLoop h2 path prev = some root := by
  induction path generalizing prev with
  | nil => simp [memGadgetLoop, condEq, verifyLoop, eq_comm]
  | cons e rest ih =>
    obtain ⟨l, r⟩ := e
    simp only [memGadgetLoop, condEq, true_implies, verifyLoop, ih]
    by_cases h1 : prev = l
    · subst h1
      simp [select]
    · by_cases h3 : prev = r
      · subst h3
        simp [select, h1]
      · simp [select, h1, h3]

theorem memLoop_off (h2 : ZMod p → ZMod p → ZMod p) (root : ZMod p)
    (path : List (ZMod p × ZMod p)) (prev : ZMod p) :
    memGadgetLoop h2 false root path prev := by
  induction path generalizing prev with
  | nil => simp [memGadgetLoop, condEq]
  | cons e rest ih =>
    obtain ⟨l, r⟩ := e
    exact ⟨⟨true, by simp [condEq]⟩, ih _⟩

theorem checkMembershipIdx_iff (cfg : Config L (ZMod p)) (path : List (ZMod p × ZMod p))
    (root : ZMod p) (leaf : L) (index : ZMod p) (hb : cfg.height - 1 ≤ modBits p) :
    checkMembershipIdx cfg path root leaf index ↔
      path.length = cfg.height - 1 ∧
      chainRoot cfg.h2 path (cfg.leafHash leaf) (index.val % 2 ^ (cfg.height - 1)) = some root := by
  unfold checkMembershipIdx condCheckMembershipIdx toBitsLe
  constructor
  · rintro ⟨h1, h2⟩
    rw [memIdxLoop_iff _ _ _ _ _ _ (by omega)] at h2
    refine ⟨h1, ?_⟩
    rw [← h1, chainRoot_mod]; exact h2
  · rintro ⟨h1, h2⟩
    refine ⟨h1, ?_⟩
    rw [memIdxLoop_iff _ _ _ _ _ _ (by omega)]
    rw [← h1, chainRoot_mod] at h2; exact h2

theorem updateRoot_eq (cfg : Config L (ZMod p)) (sibs : List (ZMod p)) (old new : L)
    (index : ZMod p) (hb : cfg.height - 1 ≤ modBits p) (hl : sibs.length = cfg.height - 1) :
    updateRoot cfg sibs old new index =
      (climb cfg.h2 sibs (cfg.leafHash old) (index.val % 2 ^ (cfg.height - 1)),
       climb cfg.h2 sibs (cfg.leafHash new) (index.val % 2 ^ (cfg.height - 1))) := by
  unfold updateRoot toBitsLe
  rw [updateRootLoop_eq _ _ _ _ _ _ (by omega), ← hl, climb_mod, climb_mod]

theorem checkUpdate_iff (cfg : Config L (ZMod p)) (sibs : List (ZMod p)) (r r' : ZMod p)
    (old new : L) (index : ZMod p) (hb : cfg.height - 1 ≤ modBits p) :
    checkUpdate cfg sibs r r' old new index ↔
      sibs.length = cfg.height - 1 ∧
      climb cfg.h2 sibs (cfg.leafHash old) (index.val % 2 ^ (cfg.height - 1)) = r ∧
      climb cfg.h2 sibs (cfg.leafHash new) (index.val % 2 ^ (cfg.height - 1)) = r' := by
  unfold checkUpdate condCheckUpdate
  constructor
  · rintro ⟨h1, h2, h3⟩
    rw [updateRoot_eq cfg sibs old new index hb h1] at h2 h3
    exact ⟨h1, (h2 rfl).symm, (h3 rfl).symm⟩
  · rintro ⟨h1, h2, h3⟩
    refine ⟨h1, ?_, ?_⟩ <;> rw [updateRoot_eq cfg sibs old new index hb h1] <;> intro _
    · exact h2.symm
    · exact h3.symm

end PF.MT
