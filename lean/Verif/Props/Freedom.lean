import Verif.Spec.Freedom
import Verif.Props.SignatureUse

/-!
# Property C125: the prover's choices in the aggregator's circuit
-/
set_option linter.unusedSectionVars false

namespace PF.Props
open PF PF.MT PF.Agg PF.Spec PF.AggC PF.Contract
variable {p q : Nat} {G : Type} [AddCommGroup G] [Module (ZMod q) G] [DecidableEq G]

/-- Same position and same leaves, maybe other paths. -/
def SameUpd {L D : Type} (u u' : Upd L D) : Prop := u'.idx = u.idx ∧ u'.old = u.old ∧ u'.new = u.new

theorem updsOf_sameUpd (us : List (UTXO (ZMod p) G)) (ds ds' : List (ZMod p × List (ZMod p)))
    (sel : UTXO (ZMod p) G → Bool) (o n : UTXO (ZMod p) G → UTXO (ZMod p) G)
    (hl : us.length = ds.length) (hl' : us.length = ds'.length)
    (h : ∀ (k : Nat) (u : UTXO (ZMod p) G) (d d' : ZMod p × List (ZMod p)), us[k]? = some u → sel u = true →
      ds[k]? = some d → ds'[k]? = some d' → d.1.val % UTXO_CAP = d'.1.val % UTXO_CAP) :
    List.Forall₂ SameUpd (updsOf us ds sel o n) (updsOf us ds' sel o n) := by
  induction us generalizing ds ds' with
  | nil => exact List.Forall₂.nil
  | cons u us ih =>
    obtain ⟨d, ds, rfl⟩ := List.exists_cons_of_length_eq_add_one (hl.symm.trans List.length_cons)
    obtain ⟨d', ds', rfl⟩ := List.exists_cons_of_length_eq_add_one (hl'.symm.trans List.length_cons)
    have hrec := ih ds ds' (by simpa using hl) (by simpa using hl')
      (fun k v e e' h1 h2 h3 h4 => h (k + 1) v e e' (by simpa using h1) h2 (by simpa using h3) (by simpa using h4))
    rw [updsOf_cons, updsOf_cons]
    by_cases hs : sel u = true
    · rw [if_pos hs, if_pos hs]
      refine List.Forall₂.cons ⟨?_, rfl, rfl⟩ hrec
      exact (h 0 u d d' rfl hs rfl rfl).symm
    · rw [if_neg hs, if_neg hs]
      exact hrec

theorem updsOf_congr (us : List (UTXO (ZMod p) G)) (ds ds' : List (ZMod p × List (ZMod p)))
    (sel : UTXO (ZMod p) G → Bool) (o n : UTXO (ZMod p) G → UTXO (ZMod p) G)
    (hl : us.length = ds.length) (hl' : us.length = ds'.length)
    (h : ∀ (k : Nat) (u : UTXO (ZMod p) G) (d d' : ZMod p × List (ZMod p)), us[k]? = some u → sel u = true →
      ds[k]? = some d → ds'[k]? = some d' → d.1.val % UTXO_CAP = d'.1.val % UTXO_CAP ∧ d.2 = d'.2) :
    updsOf us ds sel o n = updsOf us ds' sel o n := by
  induction us generalizing ds ds' with
  | nil => rfl
  | cons u us ih =>
    obtain ⟨d, ds, rfl⟩ := List.exists_cons_of_length_eq_add_one (hl.symm.trans List.length_cons)
    obtain ⟨d', ds', rfl⟩ := List.exists_cons_of_length_eq_add_one (hl'.symm.trans List.length_cons)
    have hrec := ih ds ds' (by simpa using hl) (by simpa using hl')
      (fun k v e e' h1 h2 h3 h4 => h (k + 1) v e e' (by simpa using h1) h2 (by simpa using h3) (by simpa using h4))
    rw [updsOf_cons, updsOf_cons, hrec]
    by_cases hs : sel u = true
    · obtain ⟨e1, e2⟩ := h 0 u d d' rfl hs rfl rfl
      have e1' : d.1.val % 2 ^ (UTXO_TREE_HEIGHT - 1) = d'.1.val % 2 ^ (UTXO_TREE_HEIGHT - 1) := e1
      rw [if_pos hs, if_pos hs, e1', e2]
    · rw [if_neg hs, if_neg hs]

theorem authorised_same {P : Params p G} {cv : Curve p q G} {root : ZMod p} {i i' : CInputs p G}
    (h : SameMoves P cv root i i') : i'.authorised P cv root = i.authorised P cv root := by
  unfold CInputs.authorised; rw [h.valid, h.sender]

theorem onLedger_iff (P : Params p G) (u : UTXO (ZMod p) G) :
    u.onLedger P.contract = true ↔ u.isDummy = false ∧ u.pk ≠ P.contract := by
  unfold UTXO.onLedger
  cases u.isDummy <;> simp

/-- The updates of two inputs with the same moves. -/
theorem sameMoves_upds {P : Params p G} {cv : Curve p q G} {root : ZMod p} {i i' : CInputs p G}
    (h : SameMoves P cv root i i') (hs : Shape q i) (hs' : Shape q i') :
    List.Forall₂ SameUpd (i.erases cv P.hs root ++ i.inserts P cv root)
      (i'.erases cv P.hs root ++ i'.inserts P cv root) := by
  have d' := hs'.dels.1
  have a' := hs'.adds.1
  rw [h.tx] at d' a'
  refine List.rel_append ?_ ?_
  · rw [erases_eq, erases_eq, h.tx, h.valid]
    refine updsOf_sameUpd _ _ _ _ _ _ hs.dels.1 d' fun k u d e h1 h2 h3 h4 => ?_
    simp only [Bool.and_eq_true, Bool.not_eq_true'] at h2
    exact h.erased k u d e h2.1 h1 h2.2 h3 h4
  · rw [inserts_eq, inserts_eq, h.tx, authorised_same h]
    refine updsOf_sameUpd _ _ _ _ _ _ hs.adds.1 a' fun k u d e h1 h2 h3 h4 => ?_
    simp only [Bool.and_eq_true] at h2
    obtain ⟨h5, h6⟩ := (onLedger_iff P u).1 h2.2
    exact h.inserted k u d e h2.1 h1 h5 h6 h3 h4

theorem sameUse_upds {P : Params p G} {cv : Curve p q G} {root : ZMod p} {i i' : CInputs p G}
    (h : SameUse P cv root i i') (hs : Shape q i) :
    i'.erases cv P.hs root ++ i'.inserts P cv root = i.erases cv P.hs root ++ i.inserts P cv root := by
  have d' := h.shape.dels.1
  have a' := h.shape.adds.1
  rw [h.tx] at d' a'
  congr 1
  · rw [erases_eq, erases_eq, h.tx, h.valid]
    refine (updsOf_congr _ _ _ _ _ _ hs.dels.1 d' fun k u d e h1 h2 h3 h4 => ?_).symm
    simp only [Bool.and_eq_true, Bool.not_eq_true'] at h2
    exact ⟨h.erased k u d e h2.1 h1 h2.2 h3 h4, h.erasedPath k u d e h2.1 h1 h2.2 h3 h4⟩
  · rw [inserts_eq, inserts_eq, h.tx, authorised_same h.toSameMoves]
    refine (updsOf_congr _ _ _ _ _ _ hs.adds.1 a' fun k u d e h1 h2 h3 h4 => ?_).symm
    simp only [Bool.and_eq_true] at h2
    obtain ⟨h5, h6⟩ := (onLedger_iff P u).1 h2.2
    exact ⟨h.inserted k u d e h2.1 h1 h5 h6 h3 h4, h.insertedPath k u d e h2.1 h1 h5 h6 h3 h4⟩

/-- **C125**: what is switched off does not matter. In a run of the aggregator's circuit the slots and paths shown for
dummies, for outputs paid to the contract and for transactions that are not accepted, the signer path of such
transactions, the upper bits of slot numbers, and the strings of a signature beyond its validity can be replaced by
anything of the right shape: the run stays accepted and ends in the same state. -/
theorem C125_unused_inputs (h : Sizes p q) (hpq : p ≤ q) (P : Params p G) (cv : Curve p q G) (z z' : CState p)
    (bs bs' : List (List (CInputs p G)))
    (hu : List.Forall₂ (SameUse P cv z.txRootFinal) bs.flatten bs'.flatten) (hrun : runSteps P cv z bs z') :
    runSteps P cv z bs' z' := by
  rw [runSteps_flatten] at hrun ⊢
  generalize bs.flatten = is at hu hrun
  generalize bs'.flatten = is' at hu
  generalize hr : z.txRootFinal = r at hu
  induction hu generalizing z with
  | nil => exact hrun
  | @cons i i' is is' h1 h2 ih =>
    obtain ⟨z1, h3, h4⟩ := hrun
    have f := (stepOne_iff h P cv z i z1).1 h3
    refine ⟨z1, (stepOne_iff h P cv z i' z1).2 ?_, ih z1 h4 (by rw [f.final, hr])⟩
    subst hr
    have ht := h1.tx
    have hse := h1.sender
    have ha := authorised_same h1.toSameMoves
    refine ⟨h1.shape, by rw [ht, hse]; exact f.owned, by rw [ht]; exact f.sums,
      sigDefined_of_le h hpq cv P.hs _ _ h1.shape.sigE, ?_, ?_, ?_, ?_, ?_, f.step, f.final⟩
    · rw [sameUse_upds h1 f.shape]; exact f.utxo
    · have e : txUpds z.step [i'] = txUpds z.step [i] := by simp only [txUpds, ht, h1.txProof]
      rw [e]; exact f.tx
    · have e : signerUpds P cv z.txRootFinal z.step [i'] = signerUpds P cv z.txRootFinal z.step [i] := by
        simp only [signerUpds, ha, hse]
        cases hx : i.authorised P cv z.txRootFinal
        · rfl
        · rw [h1.signerProof hx]
      rw [e]; exact f.signer
    · rw [f.signerAcc]; simp only [signerList, List.map_cons, List.map_nil, ha, hse]
    · rcases f.books with hb | ⟨b1, b2, b3, b4, b5⟩
      · exact Or.inl hb
      · refine Or.inr ⟨b1, by rw [ht]; exact b2, ?_, ?_, ?_⟩
        · unfold CInputs.withdrawn at b3 ⊢; rw [ht]; exact b3
        · rw [b4]; simp only [depositList, List.flatMap_cons, List.flatMap_nil, ht, hse]
        · have hw : i'.withdrawn P = i.withdrawn P := by unfold CInputs.withdrawn; rw [ht]
          rw [b5]; simp only [withdrawalList, List.flatMap_cons, List.flatMap_nil, hw, hse]

/-! ## Paths -/

/-- Two paths from the same position to the same root are the same, or show a collision. -/
theorem climb_two {D : Type} (h2 : D → D → D) (sibs sibs' : List D) (x y : D) (i : Nat)
    (hl : sibs.length = sibs'.length) (h : climb h2 sibs x i = climb h2 sibs' y i) :
    (sibs = sibs' ∧ x = y) ∨ PathCollision h2 (climbPairs h2 sibs x i) (climbPairs h2 sibs' y i) := by
  induction sibs generalizing sibs' x y i with
  | nil =>
    obtain rfl : sibs' = [] := List.length_eq_zero_iff.1 hl.symm
    exact Or.inl ⟨rfl, h⟩
  | cons s rest ih =>
    obtain ⟨s', rest', rfl⟩ := List.exists_cons_of_length_eq_add_one (hl.symm.trans List.length_cons)
    rw [climb_cons, climb_cons] at h
    rw [climbPairs_cons, climbPairs_cons]
    rcases ih rest' _ _ _ (by simpa using hl) h with ⟨e1, e2⟩ | ⟨l, a, b, ha, hb, hab, hh⟩
    · by_cases hp : i % 2 = 0
      · rw [if_pos hp, if_pos hp] at e2
        by_cases hx : (x, s) = (y, s')
        · rw [Prod.mk.injEq] at hx
          left; exact ⟨by rw [hx.2, e1], hx.1⟩
        · right; exact ⟨0, (x, s), (y, s'), by simp [hp], by simp [hp], hx, e2⟩
      · rw [if_neg hp, if_neg hp] at e2
        by_cases hx : (s, x) = (s', y)
        · rw [Prod.mk.injEq] at hx
          left; exact ⟨by rw [hx.1, e1], hx.2⟩
        · right; exact ⟨0, (s, x), (s', y), by simp [hp], by simp [hp], hx, e2⟩
    · right
      refine ⟨l + 1, a, b, ?_, ?_, hab, hh⟩
      · rw [List.getElem?_cons_succ, ← ha]
      · rw [List.getElem?_cons_succ, ← hb]

theorem updChain_two {L : Type} (hs : Hashes p) (enc : L → List (ZMod p)) (N : Nat) (us us' : List (Upd L (ZMod p)))
    (hsame : List.Forall₂ SameUpd us us') (r r1 r2 : ZMod p)
    (h1 : UpdChain hs.h2 (fun l => hs.crh (enc l)) N us r r1)
    (h2 : UpdChain hs.h2 (fun l => hs.crh (enc l)) N us' r r2) :
    (us = us' ∧ r1 = r2) ∨ PathsClash hs enc us us' := by
  induction hsame generalizing r with
  | nil => exact Or.inl ⟨rfl, Eq.trans h1 (Eq.symm h2)⟩
  | @cons u u' us us' h ht ih =>
    obtain ⟨e1, e2, e3⟩ := h
    obtain ⟨l1, c1, t1⟩ := h1
    obtain ⟨l2, c2, t2⟩ := h2
    have hc := c1.symm.trans c2
    rw [e1, e2] at hc
    rcases climb_two hs.h2 u.sibs u'.sibs _ _ u.idx (by rw [l1, l2]) hc with ⟨hsib, -⟩ | hp
    · rw [e1, e3, ← hsib] at t2
      rcases ih _ t1 t2 with ⟨k1, k2⟩ | ⟨k, v, v', hv, hv', hx⟩
      · left
        refine ⟨?_, k2⟩
        obtain ⟨a, b, c, d⟩ := u
        obtain ⟨a', b', c', d'⟩ := u'
        dsimp only at e1 e2 e3 hsib
        subst e1 e2 e3 hsib
        rw [k1]
      · exact Or.inr ⟨k + 1, v, v', by simpa using hv, by simpa using hv', hx⟩
    · exact Or.inr ⟨0, u, u', rfl, rfl, by rw [e1, e2]; exact hp⟩

theorem txUpds_same {P : Params p G} {cv : Curve p q G} {root : ZMod p} {is is' : List (CInputs p G)}
    (h : List.Forall₂ (SameMoves P cv root) is is') (s : ZMod p) :
    List.Forall₂ SameUpd (txUpds s is) (txUpds s is') := by
  induction h generalizing s with
  | nil => exact List.Forall₂.nil
  | cons h1 _ ih => exact List.Forall₂.cons ⟨rfl, rfl, h1.tx⟩ (ih _)

theorem signerUpds_same {P : Params p G} {cv : Curve p q G} {root : ZMod p} {is is' : List (CInputs p G)}
    (h : List.Forall₂ (SameMoves P cv root) is is') (s : ZMod p) :
    List.Forall₂ SameUpd (signerUpds P cv root s is) (signerUpds P cv root s is') := by
  induction h generalizing s with
  | nil => exact List.Forall₂.nil
  | @cons i i' is is' h1 _ ih =>
    simp only [signerUpds, authorised_same h1]
    refine List.rel_append ?_ (ih _)
    split_ifs
    · exact List.Forall₂.cons ⟨rfl, rfl, h1.sender⟩ List.Forall₂.nil
    · exact List.Forall₂.nil

theorem ledgerUpds_same {P : Params p G} {cv : Curve p q G} {root : ZMod p} {is is' : List (CInputs p G)}
    (h : List.Forall₂ (SameMoves P cv root) is is') (hs : ∀ i ∈ is, Shape q i) (hs' : ∀ i ∈ is', Shape q i) :
    List.Forall₂ SameUpd (ledgerUpds P cv root is) (ledgerUpds P cv root is') := by
  induction h with
  | nil => exact List.Forall₂.nil
  | @cons i i' is is' h1 _ ih =>
    rw [ledgerUpds_cons, ledgerUpds_cons]
    exact List.rel_append (sameMoves_upds h1 (hs i (by simp)) (hs' i' (by simp)))
      (ih (fun j hj => hs j (by simp [hj])) (fun j hj => hs' j (by simp [hj])))

theorem lists_same {P : Params p G} {cv : Curve p q G} {root : ZMod p} {is is' : List (CInputs p G)}
    (h : List.Forall₂ (SameMoves P cv root) is is') :
    signerList P cv root is' = signerList P cv root is ∧ AggC.depositList P is' = AggC.depositList P is ∧
    withdrawalList P is' = withdrawalList P is ∧ is'.length = is.length := by
  induction h with
  | nil => exact ⟨rfl, rfl, rfl, rfl⟩
  | @cons i i' is is' h1 _ ih =>
    obtain ⟨i1, i2, i3, i4⟩ := ih
    have hw : i'.withdrawn P = i.withdrawn P := by unfold CInputs.withdrawn; rw [h1.tx]
    refine ⟨?_, ?_, ?_, by simp [i4]⟩
    · unfold signerList at i1 ⊢
      rw [List.map_cons, List.map_cons, i1, authorised_same h1, h1.sender]
    · unfold AggC.depositList at i2 ⊢
      rw [List.flatMap_cons, List.flatMap_cons, i2, h1.sender, h1.tx]
    · unfold withdrawalList at i3 ⊢
      rw [List.flatMap_cons, List.flatMap_cons, i3, h1.sender, hw]

/-- **C125**: only the slots matter. Two accepted runs from the same state over the same transactions, senders and
signature decisions, that name the same slots for the UTXOs really erased and inserted, end in the same state, however
they are cut into batches and whatever paths they show; otherwise two of the paths they show exhibit a collision of the
compression hash. -/
theorem C125_slots_determine_the_result (h : Sizes p q) (P : Params p G) (cv : Curve p q G) (z z1 z2 : CState p)
    (bs bs' : List (List (CInputs p G)))
    (hsame : List.Forall₂ (SameMoves P cv z.txRootFinal) bs.flatten bs'.flatten)
    (h1 : runSteps P cv z bs z1) (h2 : runSteps P cv z bs' z2) :
    z1 = z2 ∨
    PathsClash P.hs (utxoEncVar cv) (ledgerUpds P cv z.txRootFinal bs.flatten)
      (ledgerUpds P cv z.txRootFinal bs'.flatten) ∨
    PathsClash P.hs (txEncVar cv) (txUpds z.step bs.flatten) (txUpds z.step bs'.flatten) ∨
    PathsClash P.hs (pkEncVar cv) (signerUpds P cv z.txRootFinal z.step bs.flatten)
      (signerUpds P cv z.txRootFinal z.step bs'.flatten) := by
  rw [runSteps_flatten, stepBatch_iff h] at h1 h2
  generalize bs.flatten = is at hsame h1 ⊢
  generalize bs'.flatten = is' at hsame h2 ⊢
  rcases updChain_two P.hs (utxoEncVar cv) 31 _ _ (ledgerUpds_same hsame h1.shape h2.shape) _ _ _ h1.utxo h2.utxo with
    ⟨-, e1⟩ | hc
  swap; · exact Or.inr (Or.inl hc)
  rcases updChain_two P.hs (txEncVar cv) 12 _ _ (txUpds_same hsame z.step) _ _ _ h1.tx h2.tx with ⟨-, e2⟩ | hc
  swap; · exact Or.inr (Or.inr (Or.inl hc))
  rcases updChain_two P.hs (pkEncVar cv) 12 _ _ (signerUpds_same hsame z.step) _ _ _ h1.signer h2.signer with
    ⟨-, e3⟩ | hc
  swap; · exact Or.inr (Or.inr (Or.inr hc))
  left
  obtain ⟨l1, l2, l3, l4⟩ := lists_same hsame
  have e4 : z1.signerAcc = z2.signerAcc := by rw [h1.signerAcc, h2.signerAcc, l1]
  have e5 : z1.depositAcc = z2.depositAcc ∧ z1.withdrawalAcc = z2.withdrawalAcc := by
    rcases h1.books with ⟨t, b1, b2⟩ | ⟨t, -, -, b1, b2⟩
    · rcases h2.books with ⟨-, c1, c2⟩ | ⟨t', -⟩
      · exact ⟨by rw [b1, c1], by rw [b2, c2]⟩
      · rw [t] at t'; cases t'
    · rcases h2.books with ⟨t', -⟩ | ⟨-, -, -, c1, c2⟩
      · rw [t] at t'; cases t'
      · exact ⟨by rw [b1, c1, l2], by rw [b2, c2, l3]⟩
  have e6 : z1.step = z2.step := by rw [h1.step, h2.step, l4]
  have e7 := h1.final.trans h2.final.symm
  obtain ⟨a1, a2, a3, a4, a5, a6, a7, a8⟩ := z1
  obtain ⟨b1, b2, b3, b4, b5, b6, b7, b8⟩ := z2
  dsimp only at e1 e2 e3 e4 e5 e6 e7
  obtain ⟨e5, e5'⟩ := e5
  subst e1 e2 e3 e4 e5 e5' e6 e7
  rfl

/-! ## The slots are the prover's choice -/

/-- Slots `xs` with their true paths, when the UTXOs selected by `sel` are written one after the other. -/
def shownAt (h2 : ZMod p → ZMod p → ZMod p) (lh : UTXO (ZMod p) G → ZMod p) (sel : UTXO (ZMod p) G → Bool)
    (n : UTXO (ZMod p) G → UTXO (ZMod p) G) :
    (Nat → UTXO (ZMod p) G) → List (UTXO (ZMod p) G) → List (ZMod p) → List (ZMod p × List (ZMod p))
  | c, u :: us, x :: xs => (x, sibsFrom h2 (fun k => lh (c k)) 0 31 (x.val % UTXO_CAP)) ::
      shownAt h2 lh sel n (if sel u then write c (x.val % UTXO_CAP) (n u) else c) us xs
  | _, _, _ => []

theorem shownAt_facts (h2 : ZMod p → ZMod p → ZMod p) (lh : UTXO (ZMod p) G → ZMod p) (sel : UTXO (ZMod p) G → Bool)
    (o n : UTXO (ZMod p) G → UTXO (ZMod p) G) (c : Nat → UTXO (ZMod p) G) (us : List (UTXO (ZMod p) G))
    (xs : List (ZMod p)) (hl : us.length = xs.length) :
    (shownAt h2 lh sel n c us xs).map (·.1) = xs ∧ ProofsShape us (shownAt h2 lh sel n c us xs) ∧
    TrueSibs h2 lh 31 c (updsOf us (shownAt h2 lh sel n c us xs) sel o n) ∧
    List.Forall₂ SameUpd (updsOf us (xs.map (·, [])) sel o n) (updsOf us (shownAt h2 lh sel n c us xs) sel o n) := by
  induction us generalizing xs c with
  | nil =>
    obtain rfl : xs = [] := List.length_eq_zero_iff.1 hl.symm
    exact ⟨rfl, ⟨rfl, by simp [shownAt]⟩, trivial, List.Forall₂.nil⟩
  | cons u us ih =>
    obtain ⟨x, xs, rfl⟩ := List.exists_cons_of_length_eq_add_one (hl.symm.trans List.length_cons)
    obtain ⟨e1, ⟨e2, e3⟩, e4, e5⟩ := ih (if sel u then write c (x.val % UTXO_CAP) (n u) else c) xs (by simpa using hl)
    simp only [shownAt]
    refine ⟨by rw [List.map_cons, e1], ⟨by simp [e2], ?_⟩, ?_, ?_⟩
    · intro d hd
      rcases List.mem_cons.1 hd with rfl | hd
      · exact sibsFrom_length ..
      · exact e3 d hd
    · rw [updsOf_cons]
      by_cases hs : sel u = true
      · rw [if_pos hs]
        have e4' := e4
        rw [if_pos hs] at e4'
        refine ⟨rfl, ?_⟩
        show TrueSibs h2 lh 31 (write c (x.val % UTXO_CAP) (n u)) _
        rw [if_pos hs]
        exact e4'
      · rw [if_neg hs, List.nil_append]
        have e4' := e4
        rw [if_neg hs] at e4'
        rw [if_neg hs]
        exact e4'
    · rw [List.map_cons, updsOf_cons, updsOf_cons]
      by_cases hs : sel u = true
      · rw [if_pos hs, if_pos hs]
        exact List.Forall₂.cons ⟨rfl, rfl, rfl⟩ e5
      · rw [if_neg hs, if_neg hs]
        exact e5

theorem sameUpd_applied {L D : Type} {us us' : List (Upd L D)} (h : List.Forall₂ SameUpd us us') (c : Nat → L) :
    applied c us' = applied c us ∧ (Legal c us → Legal c us') := by
  induction h generalizing c with
  | nil => exact ⟨rfl, id⟩
  | cons h1 _ ih =>
    obtain ⟨e1, e2, e3⟩ := h1
    rw [applied_cons, applied_cons, legal_cons, legal_cons, e1, e2, e3]
    exact ⟨(ih _).1, fun h => ⟨h.1, (ih _).2 h.2⟩⟩

theorem trueSibs_append {L D : Type} (h2 : D → D → D) (lh : L → D) (N : Nat) (us vs : List (Upd L D)) (c : Nat → L)
    (h : TrueSibs h2 lh N c us) (h' : TrueSibs h2 lh N (applied c us) vs) : TrueSibs h2 lh N c (us ++ vs) := by
  induction us generalizing c with
  | nil => exact h'
  | cons u us ih => exact ⟨h.1, ih _ h.2 h'⟩

/-- **C125**: the slots are the prover's choice. If a step is accepted from a state whose ledger root commits to `c`,
then for any other slots for its inputs and outputs for which the ledger holds what is erased (any of several equal
UTXOs) and a dummy where something is inserted (any free slot), there is a witness that differs from the first one in
slots and paths of UTXOs only, and it is accepted; the next state differs in its ledger root only, which commits to
the contents with these slots written. -/
theorem C125_any_slots (h : Sizes p q) (P : Params p G) (cv : Curve p q G) (z z1 : CState p) (i : CInputs p G)
    (hstep : stepOne P cv z i z1) (c : Nat → UTXO (ZMod p) G) (hr : RootOf P.hs (utxoEncVar cv) 32 c z.utxoRoot)
    (dp ap : List (ZMod p)) (hd : dp.length = TX_IO_SIZE) (ha : ap.length = TX_IO_SIZE)
    (hl : Legal c (ledgerUpds P cv z.txRootFinal [i.atSlots dp ap])) :
    ∃ (i' : CInputs p G) (z2 : CState p), i' = { i with dels := i'.dels, adds := i'.adds } ∧
      i'.dels.map (·.1) = dp ∧ i'.adds.map (·.1) = ap ∧ stepOne P cv z i' z2 ∧
      z2 = { z1 with utxoRoot := z2.utxoRoot } ∧
      RootOf P.hs (utxoEncVar cv) 32 (applied c (ledgerUpds P cv z.txRootFinal [i.atSlots dp ap])) z2.utxoRoot := by
  have f := (stepOne_iff h P cv z i z1).1 hstep
  have hd' : i.tx.inputs.toList.length = dp.length := by rw [hd]; simp
  have ha' : i.tx.outputs.toList.length = ap.length := by rw [ha]; simp
  set lh : UTXO (ZMod p) G → ZMod p := fun l => P.hs.crh (utxoEncVar cv l) with hlh
  set sd : UTXO (ZMod p) G → Bool := fun u => i.signed cv P.hs z.txRootFinal && !u.isDummy with hsd
  set sa : UTXO (ZMod p) G → Bool := fun u => i.authorised P cv z.txRootFinal && u.onLedger P.contract with hsa
  obtain ⟨d1, d2, d3, d4⟩ := shownAt_facts P.hs.h2 lh sd id (fun _ => UTXO.dummy) c i.tx.inputs.toList dp hd'
  set ds := shownAt P.hs.h2 lh sd (fun _ => UTXO.dummy) c i.tx.inputs.toList dp
  set c1 := applied c (updsOf i.tx.inputs.toList ds sd id (fun _ => UTXO.dummy)) with hc1
  obtain ⟨a1, a2, a3, a4⟩ := shownAt_facts P.hs.h2 lh sa (fun _ => UTXO.dummy) id c1 i.tx.outputs.toList ap ha'
  set as := shownAt P.hs.h2 lh sa id c1 i.tx.outputs.toList ap
  have hat : ledgerUpds P cv z.txRootFinal [i.atSlots dp ap] =
      updsOf i.tx.inputs.toList (dp.map (·, [])) sd id (fun _ => UTXO.dummy) ++
      updsOf i.tx.outputs.toList (ap.map (·, [])) sa (fun _ => UTXO.dummy) id := by
    simp only [ledgerUpds, List.flatMap_cons, List.flatMap_nil, List.append_nil]
    rfl
  rw [hat] at hl ⊢
  have hsame := List.rel_append d4 a4
  obtain ⟨e1, e2⟩ := sameUpd_applied hsame c
  have hl' := e2 hl
  refine ⟨{ i with dels := ds, adds := as }, { z1 with utxoRoot := merkleRoot lh P.hs.h2 32 (applied c
      (updsOf i.tx.inputs.toList (dp.map (·, [])) sd id (fun _ => UTXO.dummy) ++
      updsOf i.tx.outputs.toList (ap.map (·, [])) sa (fun _ => UTXO.dummy) id)) }, rfl, d1, a1,
    (stepOne_iff h P cv z _ _).2 ?_, rfl, rfl⟩
  refine ⟨⟨f.shape.sigS, f.shape.sigE, d2, a2, f.shape.tx, f.shape.signer⟩, f.owned, f.sums, f.sig, ?_, f.tx,
    f.signer, f.signerAcc, f.books, f.step, f.final⟩
  rw [← e1]
  have ht := trueSibs_append P.hs.h2 lh 31 _ _ c d3 (by rw [← hc1]; exact a3)
  have hi : ∀ u ∈ updsOf i.tx.inputs.toList ds sd id (fun _ => UTXO.dummy) ++
      updsOf i.tx.outputs.toList as sa (fun _ => UTXO.dummy) id, u.idx < 2 ^ (32 - 1) := by
    intro u hu
    have key : ∀ (us : List (UTXO (ZMod p) G)) (ds : List (ZMod p × List (ZMod p))) (sel : UTXO (ZMod p) G → Bool)
        (o n : UTXO (ZMod p) G → UTXO (ZMod p) G), u ∈ updsOf us ds sel o n → u.idx < 2 ^ (32 - 1) := by
      intro us ds sel o n hu
      unfold updsOf at hu
      obtain ⟨x, -, rfl⟩ := List.mem_map.1 hu
      exact Nat.mod_lt _ (Nat.two_pow_pos 31)
    rcases List.mem_append.1 hu with hu | hu
    · exact key _ _ _ _ _ hu
    · exact key _ _ _ _ _ hu
  exact UpdChain.complete (enc := utxoEncVar cv) (height := 32) _ hi hr hl' ht

/-- **C125**: and the choice shows in the result. If two choices of slots lead to different contents in some slot, the
next states have different ledger roots, or the two ledgers exhibit a collision. -/
theorem C125_choice_shows (h : Sizes p q) (P : Params p G) (cv : Curve p q G) (z : CState p) (i i' : CInputs p G)
    (c : Nat → UTXO (ZMod p) G) (r r' : ZMod p)
    (hr : RootOf P.hs (utxoEncVar cv) 32 (applied c (ledgerUpds P cv z.txRootFinal [i])) r)
    (hr' : RootOf P.hs (utxoEncVar cv) 32 (applied c (ledgerUpds P cv z.txRootFinal [i'])) r')
    (j : Nat) (hj : j < 2 ^ 31)
    (hne : applied c (ledgerUpds P cv z.txRootFinal [i]) j ≠ applied c (ledgerUpds P cv z.txRootFinal [i']) j) :
    r ≠ r' ∨ RootClash P.hs (utxoEncVar cv) 32 (applied c (ledgerUpds P cv z.txRootFinal [i]))
      (applied c (ledgerUpds P cv z.txRootFinal [i'])) := by
  by_cases he : r = r'
  · right
    rw [hr, hr'] at he
    rcases root_clash P.hs (utxoEncVar cv) 32 _ _ he with hs | hc
    · exact absurd (utxoEncVar_inj cv (one_lt_p h) (hs j hj)) hne
    · exact hc
  · exact Or.inl he

end PF.Props
