import Verif.Spec.Sponge

/-!
# The sponge computes its specification
-/

namespace PF.Sponge
open PF.Spec
variable {F : Type} [AddCommGroup F] {c r : Nat}

/-- One element at a time. -/
def absorbOne (perm : St F c r → St F c r) (st : St F c r × Nat) (x : F) : St F c r × Nat :=
  if st.2 = r then (addAt (perm st.1) 0 x, 1) else (addAt st.1 st.2 x, st.2 + 1)

theorem fold_within (perm : St F c r → St F c r) :
    ∀ (xs : List F) (start : Nat) (st : St F c r), start + xs.length ≤ r →
      xs.foldl (absorbOne perm) (st, start) = (addFrom st start xs, start + xs.length)
  | [], _, _, _ => rfl
  | x :: xs, start, st, h => by
    simp only [List.length_cons] at h
    have hne : start ≠ r := by omega
    rw [List.foldl_cons, absorbOne, if_neg (by exact hne), fold_within perm xs _ _ (by omega)]
    simp only [addFrom, List.length_cons]
    congr 1; omega

theorem fold_full (perm : St F c r → St F c r) (hr : 0 < r) (st : St F c r) {xs : List F} (h : xs ≠ []) :
    xs.foldl (absorbOne perm) (st, r) = xs.foldl (absorbOne perm) (perm st, 0) := by
  match xs with
  | [] => exact absurd rfl h
  | x :: xs =>
    rw [List.foldl_cons, List.foldl_cons]
    simp only [absorbOne, if_true, if_neg (show ¬ 0 = r by omega)]

theorem absorbInternal_eq (perm : St F c r → St F c r) (start : Nat) (st : St F c r) (xs : List F)
    (hs : start < r) : absorbInternal perm start st xs = xs.foldl (absorbOne perm) (st, start) := by
  rw [absorbInternal]
  split
  · rename_i h
    exact (fold_within perm xs start st (by omega)).symm
  · rename_i h
    rw [absorbInternal_eq perm 0 _ _ (by omega)]
    have hlen : (xs.take (r - start)).length = r - start := by rw [List.length_take]; omega
    have hne : xs.drop (r - start) ≠ [] := by
      intro hh
      have := congrArg List.length hh
      simp only [List.length_drop, List.length_nil] at this
      omega
    conv_rhs => rw [← List.take_append_drop (r - start) xs, List.foldl_append]
    rw [fold_within perm (xs.take (r - start)) start st (by omega), hlen, show start + (r - start) = r by omega,
      fold_full perm (by omega) _ hne]
termination_by xs.length
decreasing_by simp only [List.length_drop]; omega

theorem absorb_eq (perm : St F c r → St F c r) (hr : 0 < r) (st : St F c r × Nat) (hst : st.2 ≤ r) (xs : List F) :
    absorb perm st xs = xs.foldl (absorbOne perm) st := by
  unfold absorb
  split
  · rename_i h; subst h; rfl
  · rename_i h
    split
    · rename_i h'
      rw [absorbInternal_eq perm _ _ _ hr, ← fold_full perm hr _ h]
      obtain ⟨s, i⟩ := st
      simp only at h'
      subst h'; rfl
    · exact absorbInternal_eq perm _ _ _ (by omega)

theorem getD_snoc (xs : List F) (x : F) (i : Nat) :
    (xs ++ [x]).getD i 0 = if i = xs.length then x else xs.getD i 0 := by
  by_cases h : i < xs.length
  · rw [if_neg (by omega)]
    simp [List.getD_eq_getElem?_getD, List.getElem?_append_left h]
  · by_cases h' : i = xs.length
    · subst h'; simp [List.getD_eq_getElem?_getD]
    · rw [if_neg h']
      simp only [List.getD_eq_getElem?_getD]
      rw [List.getElem?_eq_none (by simp; omega), List.getElem?_eq_none (by omega)]

/-- Blocks that only differ from position `n` on give the same states before. -/
theorem spongeState_congr (perm : St F c r → St F c r) (xs ys : List F) (k : Nat)
    (h : ∀ i, i < (k + 1) * r → xs.getD i 0 = ys.getD i 0) : spongeState perm xs k = spongeState perm ys k := by
  induction k with
  | zero =>
    simp only [spongeState, Prod.mk.injEq, true_and]
    funext j
    exact h _ (by have := j.isLt; omega)
  | succ k ih =>
    have e := ih fun i hi => h i (lt_of_lt_of_le hi (Nat.mul_le_mul_right _ (by omega)))
    simp only [spongeState, e, Prod.mk.injEq, true_and]
    funext j
    rw [h _ (by have := j.isLt; rw [Nat.add_mul (k + 1)]; omega)]

theorem fold_spec (perm : St F c r → St F c r) (hr : 0 < r) (xs : List F) :
    xs.foldl (absorbOne perm) (0, 0) =
      (spongeState perm xs (lastBlock r xs.length), xs.length - lastBlock r xs.length * r) := by
  induction xs using List.reverseRecOn with
  | nil =>
    simp only [List.foldl_nil, List.length_nil, lastBlock, Nat.zero_sub, Nat.zero_div, spongeState, Prod.mk.injEq,
      and_true]
    refine Prod.ext rfl ?_
    funext j; simp
  | append_singleton xs x ih =>
    rw [List.foldl_append, ih]
    simp only [List.foldl_cons, List.foldl_nil, List.length_append, List.length_singleton]
    by_cases h0 : xs.length = 0
    · have hx : xs = [] := List.length_eq_zero_iff.1 h0
      subst hx
      have hb : lastBlock r (0 + 1) = 0 := by simp [lastBlock]
      simp only [List.length_nil, hb]
      rw [absorbOne, if_neg (by simp; omega)]
      simp only [lastBlock, Nat.zero_sub, Nat.zero_div, spongeState, addAt, Nat.zero_mul, Nat.sub_zero, List.nil_append,
        Prod.mk.injEq, true_and, and_true]
      funext j
      by_cases hj : j.val = 0
      · simp [hj]
      · simp [hj]
    · have hn : xs.length - 1 = (xs.length - 1) / r * r + (xs.length - 1) % r := (Nat.div_add_mod' _ _).symm
      have hm : (xs.length - 1) % r < r := Nat.mod_lt _ hr
      by_cases hf : xs.length - lastBlock r xs.length * r = r
      · -- the block is full
        have hlen : xs.length = (lastBlock r xs.length + 1) * r := by
          rw [Nat.add_mul, Nat.one_mul]; unfold lastBlock at hf ⊢; omega
        have hnext : lastBlock r (xs.length + 1) = lastBlock r xs.length + 1 := by
          have : (xs.length + 1 - 1) / r = lastBlock r xs.length + 1 := by
            rw [Nat.add_sub_cancel]; nth_rw 1 [hlen]; exact Nat.mul_div_cancel _ hr
          exact this
        generalize lastBlock r xs.length = k at *
        rw [absorbOne, if_pos (by exact hf), hnext]
        have e : spongeState perm (xs ++ [x]) k = spongeState perm xs k :=
          spongeState_congr perm _ _ _ fun i hi => by rw [getD_snoc, if_neg (by omega)]
        simp only [spongeState, e, addAt, Prod.mk.injEq, true_and]
        refine ⟨?_, by rw [hlen]; omega⟩
        funext j
        rw [getD_snoc, hlen]
        by_cases hj : j.val = 0
        · rw [if_pos hj, if_pos (by omega)]
        · rw [if_neg hj, if_neg (by omega)]
          have : xs.getD ((k + 1) * r + j) 0 = 0 := by
            rw [List.getD_eq_getElem?_getD, List.getElem?_eq_none (by omega)]; rfl
          rw [this, add_zero]
      · have hlt : xs.length - lastBlock r xs.length * r < r := by unfold lastBlock at hf ⊢; omega
        have hge : lastBlock r xs.length * r < xs.length := by unfold lastBlock; omega
        have hnext : lastBlock r (xs.length + 1) = lastBlock r xs.length := by
          have : (xs.length + 1 - 1) / r = lastBlock r xs.length := by
            rw [Nat.add_sub_cancel]
            refine Nat.div_eq_of_lt_le (by omega) ?_
            rw [Nat.add_mul]; omega
          exact this
        generalize hk : lastBlock r xs.length = k at *
        rw [absorbOne, if_neg (by exact hf), hnext]
        simp only [Prod.mk.injEq]
        refine ⟨?_, by omega⟩
        match k, hge, hlt with
        | 0, hge, hlt =>
          simp only [spongeState, addAt, Prod.mk.injEq, true_and]
          funext j
          rw [getD_snoc]
          by_cases hj : j.val = xs.length
          · rw [if_pos (by omega), if_pos hj, List.getD_eq_getElem?_getD, List.getElem?_eq_none (by omega)]
            simp
          · rw [if_neg (by omega), if_neg hj]
        | k + 1, hge, hlt =>
          have e : spongeState perm (xs ++ [x]) k = spongeState perm xs k :=
            spongeState_congr perm _ _ _ fun i hi => by rw [getD_snoc, if_neg (by omega)]
          simp only [spongeState, e, addAt, Prod.mk.injEq, true_and]
          funext j
          rw [getD_snoc]
          by_cases hj : (k + 1) * r + j.val = xs.length
          · rw [if_pos (by omega), if_pos hj, List.getD_eq_getElem?_getD, List.getElem?_eq_none (by omega)]
            simp
          · rw [if_neg (by omega), if_neg hj]

variable [NeZero r]

theorem evaluate_eq (perm : St F c r → St F c r) (xs : List F) :
    evaluate perm xs = (perm (spongeState perm xs (lastBlock r xs.length))).2 0 := by
  have hr : 0 < r := Nat.pos_of_ne_zero (NeZero.ne r)
  rw [evaluate, squeeze, absorb_eq perm hr _ (Nat.zero_le _), fold_spec perm hr]

theorem compress_eq (perm : St F c r → St F c r) (a b : F) : compress perm a b = evaluate perm [a, b] := by
  have hr : 0 < r := Nat.pos_of_ne_zero (NeZero.ne r)
  rw [compress, evaluate]
  congr 1
  rw [absorb_eq perm hr (0, 0) (Nat.zero_le _), absorb_eq perm hr (0, 0) (Nat.zero_le _), absorb_eq perm hr]
  · rfl
  · simp only [List.foldl_cons, List.foldl_nil, absorbOne]
    rw [if_neg (by show ¬ 0 = r; omega)]
    show 0 + 1 ≤ r
    omega

/-- Equal states mean equal blocks, unless the permutation was broken before. -/
theorem blocks_eq (perm : St F c r → St F c r) (xs ys : List F) (k : Nat)
    (h : spongeState perm xs k = spongeState perm ys k) :
    (∃ i < k, spongeState perm xs i ≠ spongeState perm ys i ∧
      (perm (spongeState perm xs i)).1 = (perm (spongeState perm ys i)).1) ∨
    ∀ i, i < (k + 1) * r → xs.getD i 0 = ys.getD i 0 := by
  have hr : 0 < r := Nat.pos_of_ne_zero (NeZero.ne r)
  induction k with
  | zero =>
    right
    intro i hi
    simp only [spongeState, Prod.mk.injEq, true_and] at h
    exact congrFun h ⟨i, by omega⟩
  | succ k ih =>
    by_cases e : spongeState perm xs k = spongeState perm ys k
    · rcases ih e with ⟨i, hi, hb⟩ | ih
      · exact .inl ⟨i, by omega, hb⟩
      · right
        intro i hi
        by_cases hlt : i < (k + 1) * r
        · exact ih i hlt
        · simp only [spongeState, e, Prod.mk.injEq, true_and] at h
          have hj : i - (k + 1) * r < r := by rw [Nat.add_mul (k + 1)] at hi; omega
          have := add_left_cancel (congrFun h ⟨i - (k + 1) * r, hj⟩)
          simp only at this
          rwa [show (k + 1) * r + (i - (k + 1) * r) = i by omega] at this
    · left
      refine ⟨k, by omega, e, ?_⟩
      simp only [spongeState, Prod.mk.injEq] at h
      exact h.1

theorem collision_breaks (perm : St F c r → St F c r) (xs ys : List F) (hl : xs.length = ys.length)
    (h : evaluate perm xs = evaluate perm ys) : xs = ys ∨ SpongeBreak perm xs ys := by
  have hr : 0 < r := Nat.pos_of_ne_zero (NeZero.ne r)
  rw [evaluate_eq, evaluate_eq, ← hl] at h
  by_cases e : spongeState perm xs (lastBlock r xs.length) = spongeState perm ys (lastBlock r xs.length)
  · rcases blocks_eq perm xs ys _ e with hb | hb
    · exact .inr (.inl hb)
    · left
      refine List.ext_getElem hl fun i h1 h2 => ?_
      have hi : i < (lastBlock r xs.length + 1) * r := by
        have := Nat.lt_div_mul_add (a := xs.length - 1) hr
        unfold lastBlock
        rw [Nat.add_mul]; omega
      have := hb i hi
      rwa [List.getD_eq_getElem?_getD, List.getD_eq_getElem?_getD, List.getElem?_eq_getElem h1,
        List.getElem?_eq_getElem h2] at this
  · exact .inr (.inr ⟨e, h⟩)

end PF.Sponge
