import Verif.Proof.SparseMTGadget

/-!
# Properties C12–C16: the sparse Merkle tree gadgets
-/

namespace PF.Props
open PF PF.MT PF.Spec PF.Circuit
variable {L LV : Type} {p : Nat}

/-- The circuit configuration `g` is the in-circuit counterpart of the native one: same height, same
two-to-one hash, and the gadget's leaf hash of an allocated leaf is the native leaf hash. -/
structure GadgetOf (g : Config LV (ZMod p)) (n : Config L (ZMod p)) (alloc : L → LV) : Prop where
  height : g.height = n.height
  h2 : g.h2 = n.h2
  leafHash : ∀ l, g.leafHash (alloc l) = n.leafHash l

/-- Toy configuration over the field with 97 elements (4 leaves). -/
def toyF : Config Nat (ZMod 97) :=
  { leafHash := fun x => x + 1, h2 := fun a b => 10 * a + b + 3, dflt := 0, height := 3 }

theorem toyF_gadget : GadgetOf toyF toyF id := ⟨rfl, rfl, fun _ => rfl⟩

private theorem no_overflow {H i : Nat} (h : H ≤ 63) (hi : i < 2 ^ (H - 1)) :
    2 ^ (H - 1) - 1 + i < U64 := by
  have : 2 ^ (H - 1) ≤ 2 ^ 62 := Nat.pow_le_pow_right (by omega) (by omega)
  unfold U64; omega

/-! ## C12 -/

/-- C12: for an in-range index the indexed membership gadget is satisfiable exactly when the native
verifier returns `Ok(true)`. -/
theorem C12_indexed_gadget_iff_native (g : Config LV (ZMod p)) (n : Config L (ZMod p))
    (alloc : L → LV) (hg : GadgetOf g n alloc) (hH : 2 ≤ n.height) (hH63 : n.height ≤ 63)
    (hb : n.height - 1 ≤ modBits p) (path : List (ZMod p × ZMod p)) (root : ZMod p) (leaf : L)
    (index : ZMod p) (hi : index.val < 2 ^ (n.height - 1)) (b : Build) :
    checkMembershipIdx g path root (alloc leaf) index ↔
      (verifyWithIndex b n path root leaf index.val : Outcome Unit Bool) = .ok true := by
  rw [checkMembershipIdx_iff g _ _ _ _ (by rw [hg.height]; exact hb),
    verifyWithIndex_eq b n _ _ _ _ (no_overflow hH63 hi), hg.height, hg.h2, hg.leafHash,
    Nat.mod_eq_of_lt hi]
  simp only [Outcome.ok.injEq, decide_eq_true_eq]
  constructor
  · rintro ⟨h1, h2⟩
    exact ⟨h1, by rintro rfl; simp at h1; omega, hi, h2⟩
  · rintro ⟨h1, _, _, h2⟩; exact ⟨h1, h2⟩

example : GadgetOf toyF toyF id ∧ 2 ≤ toyF.height ∧ toyF.height - 1 ≤ modBits 97 ∧
    (2 : ZMod 97).val < 2 ^ (toyF.height - 1) ∧
    (verifyWithIndex .debug toyF [(10, 1), (8, 7)] (10 * 8 + 7 + 3) 9 2 : Outcome Unit Bool) = .ok true ∧
    (verifyWithIndex .debug toyF [(10, 1), (8, 7)] (10 * 8 + 7 + 3) 8 2 : Outcome Unit Bool) = .ok false :=
  ⟨toyF_gadget, by decide, by decide, by decide, by decide, by decide⟩

/-! ## C13 -/

/-- C13: with a false condition the conditional gadgets impose nothing beyond the fixed shape of the
path; with a true condition they are the unconditional gadgets. -/
theorem C13_conditional_gadgets (g : Config LV (ZMod p)) (hH : 2 ≤ g.height)
    (hb : g.height - 1 ≤ modBits p) (path : List (ZMod p × ZMod p)) (sibs : List (ZMod p))
    (hp : path.length = g.height - 1) (hs : sibs.length = g.height - 1)
    (root root' : ZMod p) (leaf leaf' : LV) (index : ZMod p) :
    condCheckMembership g path root leaf false ∧
    condCheckMembershipIdx g path root leaf index false ∧
    condCheckUpdate g sibs root root' leaf leaf' index false ∧
    (condCheckMembership g path root leaf true ↔ checkMembership g path root leaf) ∧
    (condCheckMembershipIdx g path root leaf index true ↔ checkMembershipIdx g path root leaf index) ∧
    (condCheckUpdate g sibs root root' leaf leaf' index true ↔
      checkUpdate g sibs root root' leaf leaf' index) := by
  refine ⟨⟨hp, ?_, memLoop_off _ _ _ _⟩, ⟨hp, memIdxLoop_off _ _ _ _ _ ?_⟩,
    ⟨hs, by simp [condEq], by simp [condEq]⟩, Iff.rfl, Iff.rfl, Iff.rfl⟩
  · cases path with
    | nil => simp at hp; omega
    | cons e rest => exact ⟨e.1, e.2, rest, rfl, true, by simp [condEq]⟩
  · rw [toBitsLe_length]; omega

example : 2 ≤ toyF.height ∧ toyF.height - 1 ≤ modBits 97 ∧
    [((5 : ZMod 97), (6 : ZMod 97)), (1, 2)].length = toyF.height - 1 := by decide

/-! ## C14 -/

/-- C14: for an in-range index the update gadget is satisfiable exactly when the native update
verifier returns `Ok(true)`; `update_root` outputs the only pair of roots it accepts. -/
theorem C14_update_gadget_iff_native (g : Config LV (ZMod p)) (n : Config L (ZMod p))
    (alloc : L → LV) (hg : GadgetOf g n alloc) (hH63 : n.height ≤ 63)
    (hb : n.height - 1 ≤ modBits p) (sibs : List (ZMod p)) (r r' : ZMod p) (old new : L)
    (index : ZMod p) (hi : index.val < 2 ^ (n.height - 1)) (b : Build) :
    (checkUpdate g sibs r r' (alloc old) (alloc new) index ↔
      (verifyUpdate b n sibs r r' old new index.val : Outcome Unit Bool) = .ok true) ∧
    (sibs.length = n.height - 1 →
      (updateRoot g sibs (alloc old) (alloc new) index = (r, r') ↔
        (verifyUpdate b n sibs r r' old new index.val : Outcome Unit Bool) = .ok true)) := by
  have hb' : g.height - 1 ≤ modBits p := by rw [hg.height]; exact hb
  constructor
  · rw [checkUpdate_iff g _ _ _ _ _ _ hb', verifyUpdate_eq b n _ _ _ _ _ _ (no_overflow hH63 hi),
      hg.height, hg.h2, hg.leafHash, hg.leafHash, Nat.mod_eq_of_lt hi]
    simp [hi]
  · intro hl
    rw [updateRoot_eq g sibs _ _ _ hb' (by rw [hg.height]; exact hl),
      verifyUpdate_eq b n _ _ _ _ _ _ (no_overflow hH63 hi),
      hg.height, hg.h2, hg.leafHash, hg.leafHash, Nat.mod_eq_of_lt hi]
    simp [hi, hl]

example : GadgetOf toyF toyF id ∧ toyF.height ≤ 63 ∧ toyF.height - 1 ≤ modBits 97 ∧
    (1 : ZMod 97).val < 2 ^ (toyF.height - 1) ∧
    (verifyUpdate .debug toyF [5, 7] (10 * (10 * 5 + 1 + 3) + 7 + 3) (10 * (10 * 5 + 9 + 3) + 7 + 3) 0 8 1
      : Outcome Unit Bool) = .ok true :=
  ⟨toyF_gadget, by decide, by decide, by decide, by decide⟩

/-! ## C15 -/

/-- C15: what the indexed membership gadget binds, exactly: for every field element as index, it accepts
iff the native verifier accepts for the index reduced modulo the number of leaves. -/
theorem C15_index_binding (g : Config LV (ZMod p)) (n : Config L (ZMod p))
    (alloc : L → LV) (hg : GadgetOf g n alloc) (hH : 2 ≤ n.height) (hH63 : n.height ≤ 63)
    (hb : n.height - 1 ≤ modBits p) (path : List (ZMod p × ZMod p)) (root : ZMod p) (leaf : L)
    (index : ZMod p) (b : Build) :
    checkMembershipIdx g path root (alloc leaf) index ↔
      (verifyWithIndex b n path root leaf (index.val % 2 ^ (n.height - 1)) : Outcome Unit Bool)
        = .ok true := by
  have hi : index.val % 2 ^ (n.height - 1) < 2 ^ (n.height - 1) := Nat.mod_lt _ (by positivity)
  rw [checkMembershipIdx_iff g _ _ _ _ (by rw [hg.height]; exact hb),
    verifyWithIndex_eq b n _ _ _ _ (no_overflow hH63 hi), hg.height, hg.h2, hg.leafHash]
  simp only [Outcome.ok.injEq, decide_eq_true_eq]
  constructor
  · rintro ⟨h1, h2⟩
    exact ⟨h1, by rintro rfl; simp at h1; omega, hi, h2⟩
  · rintro ⟨h1, _, _, h2⟩; exact ⟨h1, h2⟩

/-- C15: the same for the update gadget: for every field element as index it accepts iff the native
update verifier accepts for the index reduced modulo the number of leaves. -/
theorem C15_update_index_binding (g : Config LV (ZMod p)) (n : Config L (ZMod p))
    (alloc : L → LV) (hg : GadgetOf g n alloc) (hH63 : n.height ≤ 63)
    (hb : n.height - 1 ≤ modBits p) (sibs : List (ZMod p)) (r r' : ZMod p) (old new : L)
    (index : ZMod p) (b : Build) :
    checkUpdate g sibs r r' (alloc old) (alloc new) index ↔
      (verifyUpdate b n sibs r r' old new (index.val % 2 ^ (n.height - 1)) : Outcome Unit Bool)
        = .ok true := by
  have hi : index.val % 2 ^ (n.height - 1) < 2 ^ (n.height - 1) := Nat.mod_lt _ (by positivity)
  rw [checkUpdate_iff g _ _ _ _ _ _ (by rw [hg.height]; exact hb),
    verifyUpdate_eq b n _ _ _ _ _ _ (no_overflow hH63 hi), hg.height, hg.h2, hg.leafHash, hg.leafHash]
  simp [hi]

theorem chainRoot_bits (h2 : ZMod p → ZMod p → ZMod p) (path : List (ZMod p × ZMod p))
    (h r r' : ZMod p) (i j : Nat) (hd : ∀ e ∈ path, e.1 ≠ e.2)
    (hi : chainRoot h2 path h i = some r) (hj : chainRoot h2 path h j = some r') :
    i % 2 ^ path.length = j % 2 ^ path.length := by
  induction path generalizing h i j with
  | nil => simp [Nat.mod_one]
  | cons e rest ih =>
    obtain ⟨x, y⟩ := e
    have hne : x ≠ y := hd (x, y) (by simp)
    simp only [chainRoot] at hi hj
    split_ifs at hi hj with e1 e2
    have := ih _ _ _ (fun e he => hd e (by simp [he])) hi hj
    have hb : i % 2 = j % 2 := by
      unfold pick at e1 e2
      rcases Nat.mod_two_eq_zero_or_one i with a | a <;> rcases Nat.mod_two_eq_zero_or_one j with b | b <;>
        simp [a, b] at e1 e2 ⊢
      · exact hne (e1.trans e2.symm)
      · exact hne (e2.trans e1.symm)
    simp only [List.length_cons, pow_succ', Nat.mod_mul]
    rw [hb, this]

/-- C15: a path without a pair of equal digests is accepted for at most one position: two indices it is
accepted for are congruent modulo the number of leaves. -/
theorem C15_one_position (g : Config LV (ZMod p)) (hb : g.height - 1 ≤ modBits p)
    (path : List (ZMod p × ZMod p)) (root root' : ZMod p) (leaf : LV) (i j : ZMod p)
    (hd : ∀ e ∈ path, e.1 ≠ e.2) (hi : checkMembershipIdx g path root leaf i)
    (hj : checkMembershipIdx g path root' leaf j) :
    i.val % 2 ^ (g.height - 1) = j.val % 2 ^ (g.height - 1) := by
  rw [checkMembershipIdx_iff g _ _ _ _ hb] at hi hj
  have := chainRoot_bits g.h2 path _ _ _ _ _ hd hi.2 hj.2
  rw [hi.1] at this
  simpa using this

/-- C15, aliasing: every proof accepted by the gadgets for an index is also accepted for
`index + k·2^(HEIGHT-1)` (as long as this does not wrap the field), although the native verifier
rejects that index. -/
theorem C15_index_aliasing [NeZero p] (g : Config LV (ZMod p))
    (hb : g.height - 1 ≤ modBits p) (index : ZMod p) (k : Nat)
    (hk : index.val + k * 2 ^ (g.height - 1) < p) :
    (∀ path root leaf, checkMembershipIdx g path root leaf index →
      checkMembershipIdx g path root leaf (index + (k * 2 ^ (g.height - 1) : Nat))) ∧
    (∀ sibs r r' old new, checkUpdate g sibs r r' old new index →
      checkUpdate g sibs r r' old new (index + (k * 2 ^ (g.height - 1) : Nat))) := by
  have hv : (index + ((k * 2 ^ (g.height - 1) : Nat) : ZMod p)).val =
      index.val + k * 2 ^ (g.height - 1) := by
    rw [ZMod.val_add, ZMod.val_natCast, Nat.add_mod_mod, Nat.mod_eq_of_lt hk]
  have hm : (index + ((k * 2 ^ (g.height - 1) : Nat) : ZMod p)).val % 2 ^ (g.height - 1) =
      index.val % 2 ^ (g.height - 1) := by rw [hv, Nat.add_mul_mod_self_right]
  constructor
  · intro path root leaf h
    rw [checkMembershipIdx_iff g _ _ _ _ hb] at h ⊢
    rw [hm]; exact h
  · intro sibs r r' old new h
    rw [checkUpdate_iff g _ _ _ _ _ _ hb] at h ⊢
    rw [hm]; exact h

/-- C15, concrete witness: index 6 in a tree of 4 leaves is accepted by the gadget (aliasing 2) and
rejected by the native verifier. -/
theorem C15_witness :
    checkMembershipIdx toyF [(10, 1), (8, 7)] (10 * 8 + 7 + 3) 9 6 ∧
    (verifyWithIndex .debug toyF [(10, 1), (8, 7)] (10 * 8 + 7 + 3) 9 6 : Outcome Unit Bool)
      = .ok false := by
  constructor
  · have h := (C12_indexed_gadget_iff_native toyF toyF id toyF_gadget (by decide) (by decide)
      (by decide) [(10, 1), (8, 7)] (10 * 8 + 7 + 3) 9 2 (by decide) .debug).2 (by decide)
    have := (C15_index_aliasing toyF (by decide) 2 1 (by decide)).1 _ _ _ h
    exact this
  · decide

/-! ## C16 -/

/-- C16: the un-indexed membership gadget is satisfiable exactly when the native verifier accepts. -/
theorem C16_membership_gadget_iff_native (g : Config LV (ZMod p)) (n : Config L (ZMod p))
    (alloc : L → LV) (hg : GadgetOf g n alloc) (path : List (ZMod p × ZMod p)) (root : ZMod p)
    (leaf : L) :
    checkMembership g path root (alloc leaf) ↔ verify n path root leaf = true := by
  rw [verify_eq]
  simp only [decide_eq_true_eq]
  unfold checkMembership condCheckMembership
  rw [memLoop_iff, hg.height, hg.h2, hg.leafHash]
  constructor
  · rintro ⟨h1, ⟨l, r, rest, rfl, _⟩, h3⟩
    exact ⟨h1, by simp, h3⟩
  · rintro ⟨h1, h2, h3⟩
    refine ⟨h1, ?_, h3⟩
    cases path with
    | nil => exact absurd rfl h2
    | cons e rest =>
      obtain ⟨l, r⟩ := e
      refine ⟨l, r, rest, rfl, decide (n.leafHash leaf = l), ?_⟩
      intro _
      simp only [verifyLoop] at h3
      split_ifs at h3 with hc
      by_cases h : n.leafHash leaf = l
      · simp [select, h]
      · have : n.leafHash leaf = r := by
          by_contra h'; exact hc ⟨h, h'⟩
        simp [select, this]

example : GadgetOf toyF toyF id ∧ verify toyF [(10, 1), (8, 7)] (10 * 8 + 7 + 3) 9 = true ∧
    verify toyF [(10, 1), (8, 7)] (10 * 8 + 7 + 3) 8 = false :=
  ⟨toyF_gadget, by decide, by decide⟩

end PF.Props
