import Verif.Spec.Ledger
import Verif.Proof.Contract
import Verif.Proof.SparseMTBuild
import Verif.Proof.SparseMTVerify

/-!
# Invariants of the aggregator
-/

set_option linter.unusedSectionVars false

namespace PF.Agg
open PF PF.MT PF.Spec
variable {p q : Nat} {G : Type} [AddCommGroup G] [Module (ZMod q) G] [DecidableEq G]

theorem blank_eq {L D : Type} (cfg : Config L D) : blank cfg = .ok (blankTree cfg) := by
  simp only [blank, blankTree, genEmptyHashes_get cfg cfg.height (cfg.height - 1) (by omega),
    Outcome.unwrap_some, Outcome.bind_ok]

theorem blankTree_rep {L D : Type} (cfg : Config L D) : Rep cfg (blankTree cfg) (fun _ => cfg.dflt) := by
  obtain ⟨t, h1, h2⟩ := blank_rep cfg
  rw [blank_eq] at h1
  simp only [Outcome.ok.injEq] at h1
  rw [h1]; exact h2

/-- Sibling digests of leaf `i` of the tree with contents `c`. -/
def sibsOf {L D : Type} (cfg : Config L D) (c : Nat → L) (i : Nat) : List D :=
  sibsFrom cfg.h2 (lf cfg c) 0 (cfg.height - 1) i

theorem updateAndProve_sibs {L D : Type} {cfg : Config L D} {t : STree D} {c : Nat → L} (h : Rep cfg t c)
    {ε : Type} (i : Nat) (v : L) (hi : i < 2 ^ (cfg.height - 1)) :
    ∃ t', (updateAndProve cfg t i v : Outcome ε _) = .ok (t', sibsOf cfg c i) ∧
      Rep cfg t' (write c i v) :=
  updateAndProve_rep h i v hi

theorem onOk_of_ok {σ ε α β : Type} {x : Outcome Unit α} {a : α} (h : x = .ok a) (s : σ)
    (f : α → σ × Outcome ε β) : onOk x s f = f a := by rw [h, onOk]

theorem utxo_cap (cv : Curve p q G) (hs : Hashes p) :
    2 ^ ((utxoTreeCfg cv hs).height - 1) = UTXO_CAP := rfl

theorem tx_cap (cv : Curve p q G) (hs : Hashes p) :
    2 ^ ((txTreeCfg cv hs).height - 1) = TX_CAP := rfl

theorem signer_cap (cv : Curve p q G) (hs : Hashes p) :
    2 ^ ((signerTreeCfg cv hs).height - 1) = TX_CAP := rfl

/-- The UTXO part of the aggregator state represents the slots `c`. -/
structure Holds (cv : Curve p q G) (hs : Hashes p) (l : Ledger p G) (c : Nat → UTXO Nat G) : Prop where
  tree : Rep (utxoTreeCfg cv hs) l.tree c
  fresh : ∀ i, l.next ≤ i → c i = UTXO.dummy
  pos : ∀ u, u.isDummy = false → ∀ i, i ∈ (l.utxos.get u).getD [] ↔ c i = u
  nodup : ∀ u, ((l.utxos.get u).getD []).Nodup
  noDummy : ∀ u, u.isDummy = true → l.utxos.get u = none
  clean : ∀ i, (c i).isDummy = true → c i = UTXO.dummy

/-- Effect and record of the deletion loop. -/
def Deleted (cv : Curve p q G) (hs : Hashes p) (rollup : G) :
    List (UTXO Nat G) → List (ZMod p × List (ZMod p)) → (Nat → UTXO Nat G) → (Nat → UTXO Nat G) → Prop
  | [], ds, c, c' => ds = [] ∧ c' = c
  | u :: us, ds, c, c' =>
    if u.onLedger rollup then
      ∃ idx ds', idx < UTXO_CAP ∧ c idx = u ∧
        ds = ((idx : ZMod p), sibsOf (utxoTreeCfg cv hs) c idx) :: ds' ∧
        Deleted cv hs rollup us ds' (write c idx UTXO.dummy) c'
    else ∃ ds', ds = noUpdate cv hs :: ds' ∧ Deleted cv hs rollup us ds' c c'

/-- Effect and record of the creation loop. -/
def Added (cv : Curve p q G) (hs : Hashes p) (rollup : G) :
    List (UTXO Nat G) → List (ZMod p × List (ZMod p)) → Nat → (Nat → UTXO Nat G) →
      (Nat → UTXO Nat G) → Prop
  | [], ds, _, c, c' => ds = [] ∧ c' = c
  | u :: us, ds, n, c, c' =>
    if u.onLedger rollup then
      ∃ ds', n < UTXO_CAP ∧ ds = ((n : ZMod p), sibsOf (utxoTreeCfg cv hs) c n) :: ds' ∧ c n = UTXO.dummy ∧
        Added cv hs rollup us ds' (n + 1) (write c n u) c'
    else ∃ ds', ds = noUpdate cv hs :: ds' ∧ Added cv hs rollup us ds' n c c'

theorem nodup_dropLast_mem {l : List Nat} {x : Nat} (hl : l.getLast? = some x) (hn : l.Nodup) (i : Nat) :
    i ∈ l.dropLast ↔ i ∈ l ∧ i ≠ x := by
  have hne : l ≠ [] := by rintro rfl; simp at hl
  have hx : l.getLast hne = x := by rw [List.getLast?_eq_some_getLast hne] at hl; simpa using hl
  have hd := List.dropLast_append_getLast hne
  rw [hx] at hd
  rw [← hd] at hn
  rw [List.nodup_append] at hn
  constructor
  · intro h
    refine ⟨List.mem_of_mem_dropLast h, ?_⟩
    rintro rfl
    exact hn.2.2 i h i (by simp) rfl
  · rintro ⟨h, hne⟩
    rw [← hd, List.mem_append] at h
    rcases h with h | h
    · exact h
    · simp at h; exact absurd h hne

theorem Holds.delete {cv : Curve p q G} {hs : Hashes p} {s : Ledger p G} {c : Nat → UTXO Nat G}
    (h : Holds cv hs s c) {u : UTXO Nat G} (hu : u.isDummy = false) {v : List Nat} {idx : Nat}
    (hg : s.utxos.get u = some v) (hl : v.getLast? = some idx) {t : STree (ZMod p)}
    (ht : Rep (utxoTreeCfg cv hs) t (write c idx UTXO.dummy)) :
    c idx = u ∧ idx < s.next ∧
    Holds cv hs { s with utxos := s.utxos.insert u v.dropLast, tree := t }
      (write c idx UTXO.dummy) := by
  have hmem : idx ∈ v := List.mem_of_getLast? hl
  have hc : c idx = u := (h.pos u hu idx).1 (by simp [hg, hmem])
  have hnd : v.Nodup := by have := h.nodup u; simpa [hg] using this
  have hdd : (UTXO.dummy : UTXO Nat G).isDummy = true := rfl
  refine ⟨hc, ?_, ht, ?_, ?_, ?_, ?_, ?_⟩
  · by_contra hge
    have := h.fresh idx (by omega)
    rw [hc] at this; rw [this] at hu; simp [hdd] at hu
  · intro i hi
    simp only [write]
    split
    · rfl
    · exact h.fresh i hi
  · intro u' hu' i
    simp only [HMap.get_insert, write]
    by_cases e : u' = u
    · subst e
      rw [if_pos rfl, Option.getD_some, nodup_dropLast_mem hl hnd]
      have := h.pos u' hu' i
      rw [hg, Option.getD_some] at this
      rw [this]
      by_cases ei : i = idx
      · simp only [ei, ne_eq, not_true, and_false, if_true, false_iff]
        intro hd; rw [← hd] at hu'; simp [hdd] at hu'
      · simp [ei]
    · rw [if_neg e, h.pos u' hu' i]
      by_cases ei : i = idx
      · subst ei
        simp only [if_true, hc]
        constructor
        · intro hh; exact absurd hh.symm e
        · intro hh; rw [← hh] at hu'; simp [hdd] at hu'
      · simp [ei]
  · intro u'
    simp only [HMap.get_insert]
    split
    · exact hnd.sublist (List.dropLast_sublist v)
    · exact h.nodup u'
  · intro u' hu'
    simp only [HMap.get_insert]
    rw [if_neg (by rintro rfl; simp [hu] at hu')]
    exact h.noDummy u' hu'
  · intro i hi
    simp only [write] at hi ⊢
    split
    · rfl
    · next hne => rw [if_neg hne] at hi; exact h.clean i hi

theorem deleteOne_skip {cv : Curve p q G} {hs : Hashes p} {rollup : G} {u : UTXO Nat G}
    (hu : u.onLedger rollup = false) (s : Ledger p G) :
    deleteOne cv hs rollup u s = (s, .ok (noUpdate cv hs)) := by
  unfold deleteOne
  by_cases hd : u.isDummy = true
  · rw [if_pos hd]
  · rw [if_neg hd]
    have : ¬ u.pk ≠ rollup := by
      intro hr; simp [UTXO.onLedger, hr] at hu; exact hd hu
    rw [if_neg this]

theorem onLedger_iff {rollup : G} {u : UTXO Nat G} :
    u.onLedger rollup = true ↔ u.isDummy = false ∧ u.pk ≠ rollup := by
  simp [UTXO.onLedger]

theorem deleteOne_spec {cv : Curve p q G} {hs : Hashes p} {rollup : G} {u : UTXO Nat G}
    (hu : u.onLedger rollup = true) {s : Ledger p G} {c : Nat → UTXO Nat G} (h : Holds cv hs s c)
    (hcap : s.next ≤ UTXO_CAP) :
    (∃ s' idx, idx < UTXO_CAP ∧ c idx = u ∧
      deleteOne cv hs rollup u s = (s', .ok ((idx : ZMod p), sibsOf (utxoTreeCfg cv hs) c idx)) ∧
      s'.next = s.next ∧ Holds cv hs s' (write c idx UTXO.dummy)) ∨
    ((∀ i, c i ≠ u) ∧ ∃ e, deleteOne cv hs rollup u s = (s, .err e) ∧
      (e = .utxoNonExisting ∨ e = .utxoError)) := by
  have hu' := onLedger_iff.1 hu
  unfold deleteOne
  rw [if_neg (by simp [hu'.1]), if_pos hu'.2]
  rcases hg : s.utxos.get u with _ | v
  · right
    refine ⟨?_, _, rfl, Or.inl rfl⟩
    intro i hi
    have := (h.pos u hu'.1 i).2 hi
    simp [hg] at this
  · rcases hl : v.getLast? with _ | idx
    · right
      simp only [hl]
      refine ⟨?_, _, rfl, Or.inr rfl⟩
      intro i hi
      have := (h.pos u hu'.1 i).2 hi
      rw [List.getLast?_eq_none_iff] at hl
      simp [hg, hl] at this
    · left
      have hmem : idx ∈ v := List.mem_of_getLast? hl
      have hc : c idx = u := (h.pos u hu'.1 idx).1 (by simp [hg, hmem])
      have hlt : idx < s.next := by
        by_contra hge
        have h1 := h.fresh idx (by omega)
        rw [hc] at h1; have h2 := hu'.1; rw [h1] at h2; simp [UTXO.dummy] at h2
      obtain ⟨t, ht1, ht2⟩ := updateAndProve_sibs h.tree (ε := Unit) idx UTXO.dummy
        (by rw [utxo_cap]; omega)
      have hd := (h.delete hu'.1 hg hl ht2).2.2
      refine ⟨{ s with utxos := s.utxos.insert u v.dropLast, tree := t }, idx, by omega, hc, ?_, rfl, hd⟩
      simp only [hl]
      rw [onOk_of_ok ht1]

/-- Complete description of the deletion loop. -/
theorem deleteInputs_spec {cv : Curve p q G} {hs : Hashes p} {rollup : G} (us : List (UTXO Nat G))
    (s : Ledger p G) (c : Nat → UTXO Nat G) (h : Holds cv hs s c) (hcap : s.next ≤ UTXO_CAP) :
    ∃ s' c' done rest ds,
      Holds cv hs s' c' ∧ s'.next = s.next ∧
      us = done ++ rest ∧ Deleted cv hs rollup done ds c c' ∧
      ((rest = [] ∧ deleteInputs cv hs rollup us s = (s', .ok ds)) ∨
        ∃ u us' e, rest = u :: us' ∧ u.onLedger rollup = true ∧ (∀ i, c' i ≠ u) ∧
          deleteInputs cv hs rollup us s = (s', .err e) ∧
          (e = .utxoNonExisting ∨ e = .utxoError)) := by
  induction us generalizing s c with
  | nil => exact ⟨s, c, [], [], [], h, rfl, rfl, ⟨rfl, rfl⟩, Or.inl ⟨rfl, rfl⟩⟩
  | cons u us ih =>
    unfold deleteInputs
    by_cases hu : u.onLedger rollup = true
    · rcases deleteOne_spec hu h hcap with ⟨s1, idx, k1, k2, k3, k5, k4⟩ | ⟨k1, e, k2, k3⟩
      · obtain ⟨s', c', done, rest, ds, e2, e6, e3, e4, e5⟩ := ih s1 _ k4 (by omega)
        refine ⟨s', c', u :: done, rest, ((idx : ZMod p), sibsOf (utxoTreeCfg cv hs) c idx) :: ds,
          e2, by omega, by rw [e3]; rfl, ?_, ?_⟩
        · unfold Deleted
          rw [if_pos hu]
          exact ⟨idx, ds, by omega, k2, rfl, e4⟩
        · rw [SM.bind_of_ok k3]
          rcases e5 with ⟨r1, r2⟩ | ⟨u', us', e, r1, r2, r3, r4, r5⟩
          · left; exact ⟨r1, by rw [SM.bind_of_ok r2, SM.pure]⟩
          · right; exact ⟨u', us', e, r1, r2, r3, by rw [SM.bind_of_err r4], r5⟩
      · refine ⟨s, c, [], u :: us, [], h, rfl, rfl, ⟨rfl, rfl⟩, Or.inr
          ⟨u, us, e, rfl, hu, k1, by rw [SM.bind_of_err k2], k3⟩⟩
    · have hu' : u.onLedger rollup = false := by simpa using hu
      rw [SM.bind_of_ok (deleteOne_skip hu' s)]
      obtain ⟨s', c', done, rest, ds, e2, e6, e3, e4, e5⟩ := ih s c h hcap
      refine ⟨s', c', u :: done, rest, noUpdate cv hs :: ds, e2, e6, by rw [e3]; rfl, ?_, ?_⟩
      · unfold Deleted; rw [if_neg hu]; exact ⟨ds, rfl, e4⟩
      · rcases e5 with ⟨r1, r2⟩ | ⟨u', us', e, r1, r2, r3, r4, r5⟩
        · left; exact ⟨r1, by rw [SM.bind_of_ok r2, SM.pure]⟩
        · right; exact ⟨u', us', e, r1, r2, r3, by rw [SM.bind_of_err r4], r5⟩

theorem Holds.add {cv : Curve p q G} {hs : Hashes p} {s : Ledger p G} {c : Nat → UTXO Nat G}
    (h : Holds cv hs s c) {u : UTXO Nat G} (hu : u.isDummy = false) {t : STree (ZMod p)}
    (ht : Rep (utxoTreeCfg cv hs) t (write c s.next u)) :
    Holds cv hs { s with utxos := s.utxos.insert u ((s.utxos.get u).getD [] ++ [s.next]),
                         tree := t, next := s.next + 1 }
      (write c s.next u) := by
  have hdd : (UTXO.dummy : UTXO Nat G).isDummy = true := rfl
  have hcd := h.fresh s.next (le_refl _)
  have hnot : ∀ u', u'.isDummy = false → s.next ∉ (s.utxos.get u').getD [] := by
    intro u' hu' hm
    have := (h.pos u' hu' _).1 hm
    rw [hcd] at this; rw [← this] at hu'; simp [hdd] at hu'
  refine ⟨ht, ?_, ?_, ?_, ?_, ?_⟩
  · intro i hi
    simp only [write] at hi ⊢
    rw [if_neg (by omega)]; exact h.fresh i (by omega)
  · intro u' hu' i
    simp only [HMap.get_insert, write]
    by_cases e : u' = u
    · subst e
      rw [if_pos rfl, Option.getD_some, List.mem_append, h.pos u' hu' i]
      by_cases ei : i = s.next
      · simp [ei]
      · simp [ei]
    · rw [if_neg e, h.pos u' hu' i]
      by_cases ei : i = s.next
      · subst ei
        simp only [if_true, hcd]
        constructor
        · intro hh; rw [← hh] at hu'; simp [hdd] at hu'
        · intro hh; exact absurd hh.symm e
      · simp [ei]
  · intro u'
    simp only [HMap.get_insert]
    split
    · rw [Option.getD_some, List.nodup_append]
      refine ⟨h.nodup u, by simp, ?_⟩
      intro a ha b hb
      simp at hb; subst hb
      rintro rfl; exact hnot u hu ha
    · exact h.nodup u'
  · intro u' hu'
    simp only [HMap.get_insert]
    rw [if_neg (by rintro rfl; simp [hu] at hu')]
    exact h.noDummy u' hu'
  · intro i hi
    simp only [write] at hi ⊢
    split
    · next e => rw [if_pos e] at hi; simp [hu] at hi
    · next hne => rw [if_neg hne] at hi; exact h.clean i hi

/-- Deposits recorded by the output loop. -/
def depositRecs (rollup pk : G) (us : List (UTXO Nat G)) : List (G × Nat) :=
  if pk = rollup then (us.filter (fun u => !u.isDummy)).map (fun u => (u.pk, u.amount)) else []

/-- Amount paid back to the contract by a list of outputs. -/
def paidBack (rollup : G) (us : List (UTXO Nat G)) : Nat :=
  totalOf (us.filter (fun u => u.pk = rollup))

theorem depositRecs_cons (rollup pk : G) (u : UTXO Nat G) (us : List (UTXO Nat G)) :
    depositRecs rollup pk (u :: us) =
      (if pk = rollup ∧ u.isDummy = false then [(u.pk, u.amount)] else []) ++ depositRecs rollup pk us := by
  unfold depositRecs
  by_cases h : pk = rollup
  · cases hd : u.isDummy <;> simp [h, hd]
  · simp [h]

theorem paidBack_cons (rollup : G) (u : UTXO Nat G) (us : List (UTXO Nat G)) :
    paidBack rollup (u :: us) =
      (if u.pk = rollup ∧ u.isDummy = false then u.amount else 0) + paidBack rollup us := by
  unfold paidBack
  by_cases h : u.pk = rollup
  · cases hd : u.isDummy <;> simp [h, hd, totalOf]
  · simp [h]

/-- Deposit record of one output. -/
def depositRec (rollup pk : G) (u : UTXO Nat G) : List (G × Nat) :=
  if pk = rollup ∧ u.isDummy = false then [(u.pk, u.amount)] else []

/-- Amount one output pays back to the contract. -/
def paidOne (rollup : G) (u : UTXO Nat G) : Nat :=
  if u.pk = rollup ∧ u.isDummy = false then u.amount else 0

theorem depositRecs_cons' (rollup pk : G) (u : UTXO Nat G) (us : List (UTXO Nat G)) :
    depositRecs rollup pk (u :: us) = depositRec rollup pk u ++ depositRecs rollup pk us :=
  depositRecs_cons rollup pk u us

theorem paidBack_cons' (rollup : G) (u : UTXO Nat G) (us : List (UTXO Nat G)) :
    paidBack rollup (u :: us) = paidOne rollup u + paidBack rollup us :=
  paidBack_cons rollup u us

theorem recordDeposit_eq {rollup pk : G} {u : UTXO Nat G} (hu : u.isDummy = false) (s : State p q G) :
    recordDeposit rollup pk u s =
      ({ s with deposits := s.deposits ++ depositRec rollup pk u }, .ok ()) := by
  unfold recordDeposit depositRec
  by_cases h : pk = rollup
  · simp [h, hu]
  · simp [h]

theorem addOne_skip {b : Build} {cv : Curve p q G} {hs : Hashes p} {rollup pk : G} {u : UTXO Nat G}
    (hu : u.onLedger rollup = false) (w : Nat) (s : State p q G) :
    (∃ w', addOne b cv hs rollup pk u w s =
        ({ s with deposits := s.deposits ++ depositRec rollup pk u }, .ok (noUpdate cv hs, w')) ∧
      (w + paidOne rollup u < U64 → w' = w + paidOne rollup u) ∧
      (b = .debug → w' = w + paidOne rollup u) ∧ (w < U64 → w' = (w + paidOne rollup u) % U64)) ∨
    ((addOne b cv hs rollup pk u w s).2 = .panic ∧ b = .debug ∧ ¬ w + paidOne rollup u < U64) := by
  unfold addOne
  by_cases hd : u.isDummy = true
  · left
    rw [if_pos hd]
    exact ⟨w, by simp [hd, SM.pure, depositRec], by simp [hd, paidOne], by simp [hd, paidOne],
      by intro h; simp [hd, paidOne, Nat.mod_eq_of_lt h]⟩
  · have hd' : u.isDummy = false := by simpa using hd
    have hr : u.pk = rollup := by
      by_contra hr; simp [UTXO.onLedger, hr, hd'] at hu
    rw [if_neg hd, SM.bind_of_ok (recordDeposit_eq hd' s), if_neg (by simpa using hr)]
    have hpo : paidOne rollup u = u.amount := by simp [paidOne, hr, hd']
    rw [hpo]
    rcases ha : addU64 (ε := AggError) b w u.amount with w1 | e | _
    · left
      rw [SM.bind_of_ok (s' := _) (a := w1) (by unfold addWithdrawal; rw [ha])]
      have hw1 : w + u.amount < U64 → w1 = w + u.amount := by
        intro hlt; rw [addU64_lt b hlt] at ha; simpa using ha.symm
      refine ⟨w1, rfl, hw1, ?_, ?_⟩
      · intro hb; subst hb
        by_cases hlt : w + u.amount < U64
        · exact hw1 hlt
        · rw [addU64_debug hlt] at ha; simp at ha
      · intro _
        by_cases hlt : w + u.amount < U64
        · rw [hw1 hlt, Nat.mod_eq_of_lt hlt]
        · cases b with
          | debug => rw [addU64_debug hlt] at ha; simp at ha
          | release => rw [addU64_release] at ha; simpa using ha.symm
    · unfold addU64 at ha; split at ha
      · simp at ha
      · cases b <;> simp at ha
    · right
      rw [SM.bind_of_panic (s' := { s with deposits := s.deposits ++ depositRec rollup pk u })
        (by unfold addWithdrawal; rw [ha])]
      cases b with
      | debug =>
        refine ⟨rfl, rfl, ?_⟩
        intro hlt
        rw [addU64_lt .debug hlt] at ha; simp at ha
      | release => rw [addU64_release] at ha; simp at ha

theorem insertOne_spec {cv : Curve p q G} {hs : Hashes p} {u : UTXO Nat G} (hu : u.isDummy = false)
    {l : Ledger p G} {c : Nat → UTXO Nat G} (h : Holds cv hs l c) (hcap : l.next < UTXO_CAP) :
    ∃ l', insertOne cv hs u l = (l', .ok ((l.next : ZMod p), sibsOf (utxoTreeCfg cv hs) c l.next)) ∧
      l'.next = l.next + 1 ∧ Holds cv hs l' (write c l.next u) := by
  obtain ⟨t, ht1, ht2⟩ := updateAndProve_sibs h.tree (ε := Unit) l.next u (by rw [utxo_cap]; omega)
  refine ⟨⟨l.utxos.insert u ((l.utxos.get u).getD [] ++ [l.next]), t, l.next + 1⟩, ?_, rfl, h.add hu ht2⟩
  unfold insertOne
  rw [onOk_of_ok ht1]

theorem addOne_spec {b : Build} {cv : Curve p q G} {hs : Hashes p} {rollup pk : G} {u : UTXO Nat G}
    (hu : u.onLedger rollup = true) (w : Nat) {s : State p q G} {c : Nat → UTXO Nat G}
    (h : Holds cv hs s.ledger c) (hcap : s.ledger.next < UTXO_CAP) :
    ∃ l', addOne b cv hs rollup pk u w s =
        ({ s with ledger := l', deposits := s.deposits ++ depositRec rollup pk u },
          .ok (((s.ledger.next : ZMod p), sibsOf (utxoTreeCfg cv hs) c s.ledger.next), w)) ∧
      l'.next = s.ledger.next + 1 ∧ Holds cv hs l' (write c s.ledger.next u) ∧ paidOne rollup u = 0 := by
  have hu' := onLedger_iff.1 hu
  obtain ⟨l', h1, h2, h3⟩ := insertOne_spec hu'.1 h hcap
  refine ⟨l', ?_, h2, h3, by simp [paidOne, hu'.2]⟩
  unfold addOne
  rw [if_neg (by simp [hu'.1]), SM.bind_of_ok (recordDeposit_eq hu'.1 s), if_pos hu'.2]
  rw [SM.bind_of_ok (s' := { s with ledger := l', deposits := s.deposits ++ depositRec rollup pk u })
    (a := ((s.ledger.next : ZMod p), sibsOf (utxoTreeCfg cv hs) c s.ledger.next))
    (by unfold onLedger; simp only [h1])]
  rfl

/-- Complete description of the creation loop: it returns no error; it panics only on overflow of the
withdrawal sum in a debug build. -/
theorem addOutputs_spec {b : Build} {cv : Curve p q G} {hs : Hashes p} {rollup pk : G}
    (us : List (UTXO Nat G)) (w : Nat) (s : State p q G) (c : Nat → UTXO Nat G)
    (h : Holds cv hs s.ledger c)
    (hcap : s.ledger.next + (us.filter (·.onLedger rollup)).length ≤ UTXO_CAP) :
    (∃ l' c' ds w',
      addOutputs b cv hs rollup pk us w s =
        ({ s with ledger := l', deposits := s.deposits ++ depositRecs rollup pk us }, .ok (ds, w')) ∧
      l'.next = s.ledger.next + (us.filter (·.onLedger rollup)).length ∧
      Holds cv hs l' c' ∧
      Added cv hs rollup us ds s.ledger.next c c' ∧
      (w + paidBack rollup us < U64 → w' = w + paidBack rollup us) ∧
      (b = .debug → w' = w + paidBack rollup us) ∧ (w < U64 → w' = (w + paidBack rollup us) % U64)) ∨
    ((addOutputs b cv hs rollup pk us w s).2 = .panic ∧ b = .debug ∧ ¬ w + paidBack rollup us < U64) := by
  induction us generalizing s c w with
  | nil =>
    left
    exact ⟨s.ledger, c, [], w, by simp [addOutputs, depositRecs, SM.pure], rfl,
      h, ⟨rfl, rfl⟩, fun _ => by simp [paidBack, totalOf],
      fun _ => by simp [paidBack, totalOf], fun h => by simp [paidBack, totalOf, Nat.mod_eq_of_lt h]⟩
  | cons u us ih =>
    unfold addOutputs
    rw [paidBack_cons', depositRecs_cons']
    by_cases hl : u.onLedger rollup = true
    · have hlen : ((u :: us).filter (·.onLedger rollup)).length
          = 1 + (us.filter (·.onLedger rollup)).length := by simp [List.filter_cons, hl, Nat.add_comm]
      rw [hlen] at hcap
      obtain ⟨l1, k1, k4, k2, k3⟩ := addOne_spec (b := b) (pk := pk) hl w h (by omega)
      rw [SM.bind_of_ok k1, k3, Nat.zero_add, hlen]
      rcases ih w { s with ledger := l1, deposits := s.deposits ++ depositRec rollup pk u } _ k2
          (by simp only; omega) with ⟨l', c', ds, w', e1, e6, e2, e3, e4, e5⟩ | ⟨e1, e2, e3⟩
      · left
        simp only at e1 e2 e3 e6
        rw [List.append_assoc] at e1
        rw [k4] at e3
        refine ⟨l', c', _ :: ds, w', by rw [SM.bind_of_ok e1, SM.pure], by omega, e2, ?_, e4, e5⟩
        unfold Added; rw [if_pos hl]
        exact ⟨ds, by omega, rfl, h.fresh _ (le_refl _), e3⟩
      · right
        refine ⟨?_, e2, e3⟩
        rw [SM.bind_of_panic_snd e1]
    · have hl' : u.onLedger rollup = false := by simpa using hl
      have hlen : ((u :: us).filter (·.onLedger rollup)).length
          = (us.filter (·.onLedger rollup)).length := by simp [List.filter_cons, hl']
      rw [hlen] at hcap
      rw [hlen]
      rcases addOne_skip (b := b) (cv := cv) (hs := hs) (pk := pk) hl' w s with
        ⟨w1, k1, k2, k3, k4⟩ | ⟨k1, k2, k3⟩
      · rw [SM.bind_of_ok k1]
        rcases ih w1 { s with deposits := s.deposits ++ depositRec rollup pk u } c h hcap with
          ⟨l', c', ds, w', e1, e6, e2, e3, e4, e5, e7⟩ | ⟨e1, e2, e3⟩
        · left
          simp only at e1 e2 e3 e6
          rw [List.append_assoc] at e1
          refine ⟨l', c', noUpdate cv hs :: ds, w', by rw [SM.bind_of_ok e1, SM.pure], e6, e2, ?_, ?_, ?_, ?_⟩
          · unfold Added; rw [if_neg hl]; exact ⟨ds, rfl, e3⟩
          · intro hlt
            rw [e4 (by rw [k2 (by omega)]; omega), k2 (by omega)]; omega
          · intro hb; rw [e5 hb, k3 hb]; omega
          · intro hw
            have hw1 := k4 hw
            rw [e7 (by rw [hw1]; exact Nat.mod_lt _ (by unfold U64; omega)), hw1, Nat.mod_add_mod,
              Nat.add_assoc]
        · right
          refine ⟨by rw [SM.bind_of_panic_snd e1], e2, ?_⟩
          rw [k3 e2] at e3; omega
      · right
        refine ⟨by rw [SM.bind_of_panic_snd k1], k2, by omega⟩

end PF.Agg
