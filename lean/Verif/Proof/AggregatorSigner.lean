import Verif.Proof.AggregatorCalls

/-!
# Leaves of the signer tree over histories
-/
set_option linter.unusedSectionVars false

namespace PF.Agg
open PF PF.Spec PF.MT
variable {p q : Nat} {G : Type} [AddCommGroup G] [Module (ZMod q) G] [DecidableEq G]
variable {b : Build} {cv : Curve p q G} {hs : Hashes p} {rollup : G} {r : ZMod p}

theorem overlay_nil (sc : Nat → G) : overlay sc [] = sc := rfl

theorem overlay_snoc_none (sc : Nat → G) (l : List (Option G)) : overlay sc (l ++ [none]) = overlay sc l := by
  funext j
  unfold overlay
  by_cases hj : j < l.length
  · rw [List.getElem?_append_left hj]
  · rw [List.getElem?_append_right (by omega), List.getElem?_eq_none (l := l) (by omega)]
    cases hk : ([none] : List (Option G))[j - l.length]? with
    | none => rfl
    | some a =>
      have := List.mem_of_getElem? hk
      simp at this
      subst this; rfl

theorem overlay_snoc_some (sc : Nat → G) (l : List (Option G)) (k : G) :
    overlay sc (l ++ [some k]) = write (overlay sc l) l.length k := by
  funext j
  unfold write
  show _ = if j = l.length then k else overlay sc l j
  unfold overlay
  by_cases hj : j < l.length
  · rw [List.getElem?_append_left hj, if_neg (by omega)]
  · rw [List.getElem?_append_right (by omega), List.getElem?_eq_none (l := l) (by omega)]
    by_cases he : j = l.length
    · subst he; simp
    · rw [if_neg he, List.getElem?_eq_none (by simp; omega)]

theorem Step.leaves {i : Nat} {x : Pair q G} {s s' : State p q G} {c c' : Nat → UTXO Nat G} {sc sc' : Nat → G}
    (h : Step b cv hs rollup r i x s c sc s' c' sc') (hs0 : overlay sc s.signers = sc) :
    sc' = overlay sc s'.signers ∧ overlay sc' s'.signers = sc' := by
  have idem : ∀ l : List (Option G), overlay (overlay sc l) l = overlay sc l := by
    intro l; funext j; unfold overlay; split <;> simp_all
  cases h with
  | rej =>
    simp only
    rw [overlay_snoc_none]; exact ⟨hs0.symm, hs0⟩
  | acc tx tp dels adds l' st c1 _ w ht htp ha hd hadd hn hw1 hw2 =>
    have e : write sc s.signers.length x.1 = overlay sc (s.signers ++ [some x.1]) := by
      rw [overlay_snoc_some, hs0]
    refine ⟨e, ?_⟩
    simp only
    rw [e, idem]

theorem Runs.leaves {i : Nat} {l : List (Pair q G)} {s s' : State p q G} {c c' : Nat → UTXO Nat G}
    {sc sc' : Nat → G} (h : Runs b cv hs rollup r i l s c sc s' c' sc') (hs0 : overlay sc s.signers = sc) :
    sc' = overlay sc s'.signers ∧ overlay sc' s'.signers = sc' := by
  induction h with
  | nil => exact ⟨hs0.symm, hs0⟩
  | cons i x l s s1 s2 c c1 c2 sc sc1 sc2 h1 h2 ih =>
    obtain ⟨a1, a2⟩ := h1.leaves hs0
    obtain ⟨b1, b2⟩ := ih a2
    refine ⟨?_, b2⟩
    rw [b1, a1]
    obtain ⟨new, hn⟩ : ∃ new, s2.signers = s1.signers ++ new := ⟨_, h2.signers⟩
    rw [hn]
    funext j
    unfold overlay
    by_cases hj : j < s1.signers.length
    · rw [List.getElem?_append_left hj]
      split <;> simp_all
    · rw [List.getElem?_append_right (by omega), List.getElem?_eq_none (l := s1.signers) (by omega)]

theorem overlay_idem (sc : Nat → G) (l : List (Option G)) : overlay (overlay sc l) l = overlay sc l := by
  funext j; unfold overlay; split <;> simp_all

theorem op_leaves {s : State p q G} {c : Nat → UTXO Nat G} {sc : Nat → G} (h : Inv cv hs s c sc) (op : Op q G)
    (hs0 : overlay sc s.signers = sc) (hf : op.Fits s) (hr : (op.run b cv hs s).2 ≠ .panic) :
    ∃ c', Inv cv hs (op.run b cv hs s).1 c' (overlay sc (op.run b cv hs s).1.signers) := by
  cases op with
  | newEpoch => exact ⟨c, inv_reset h⟩
  | transactions l =>
    obtain ⟨done, rest, t, prs, e1, e2, e3, o, e4, e5⟩ := processTransactions_spec (b := b) l s h hf
    refine ⟨c, ?_⟩
    simp only [Op.run, e4, hs0]; exact e3
  | signatures rollup l =>
    rcases hres : processSignatures b cv hs rollup l s with ⟨s', o⟩
    have e : (Op.run b cv hs s (Op.signatures rollup l)).1 = s' := by simp [Op.run, hres]
    rw [e]
    rcases o with u | e | _
    · obtain ⟨c', sc', k1, k2, _⟩ := sig_ok h hf hres
      rw [← (k1.leaves hs0).1]
      exact ⟨c', k2⟩
    · obtain ⟨done, x, rest, s1, c1, sc1, c', sc', _, _, _, _, k1, k2, k3⟩ := sig_err h hf hres
      obtain ⟨tx, d2, u, r2, dels, l', st, g1, g2, g3, g4, g5, g6, g7, g8, g9, g10⟩ := k2
      obtain ⟨a1, a2⟩ := k1.leaves hs0
      refine ⟨c', ?_⟩
      have : overlay sc s'.signers = sc' := by
        rw [g10, g9]
        simp only
        rw [overlay_snoc_some, ← a1]
      rw [this]; exact k3
    · exfalso; apply hr; simp [Op.run, hres]

theorem signerLeaves_inv {s : State p q G} {sc : Nat → G} (h : SignerLeaves b cv hs s sc) :
    Reach b cv hs s ∧ overlay sc s.signers = sc ∧ ∃ c, Inv cv hs s c sc := by
  induction h with
  | new => exact ⟨Reach.new, rfl, _, inv_new cv hs⟩
  | call s op sc h hf hr ih =>
    obtain ⟨h1, h2, c, hi⟩ := ih
    exact ⟨Reach.call s op h1 hf hr, overlay_idem _ _, op_leaves hi op h2 hf hr⟩

end PF.Agg
