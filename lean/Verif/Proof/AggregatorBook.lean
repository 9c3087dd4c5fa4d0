import Verif.Spec.AggregatorBook
import Verif.Proof.AggregatorFacts

/-!
# The aggregator against the reference ledger, without capacity bounds
-/

set_option linter.unusedSectionVars false

namespace PF.Agg
open PF PF.MT PF.Spec
variable {p q : Nat} {G : Type} [AddCommGroup G] [Module (ZMod q) G] [DecidableEq G]
variable {b : Build} {cv : Curve p q G} {hs : Hashes p} {rollup : G}

theorem updateAndProve_any {L D : Type} {cfg : Config L D} {t : STree D}
    (he : t.emptyHashes = genEmptyHashes cfg cfg.height) (i : Nat) (v : L) :
    ∃ t' s, (updateAndProve cfg t i v : Outcome Unit _) = .ok (t', s) ∧
      t'.emptyHashes = genEmptyHashes cfg cfg.height ∧ s.length = cfg.height - 1 ∧
      t'.root = some (climb cfg.h2 s (cfg.leafHash v) i) := by
  obtain ⟨t', s, h1, h2, h3⟩ := updateAndProve_total (ε := Unit) he i v
  refine ⟨t', s, h1, ?_, h2, h3⟩
  simp only [updateAndProve, bind, Outcome.bind] at h1
  split at h1 <;> try contradiction
  split at h1 <;> try contradiction
  cases h1
  exact he

/-- Positions of `u` in the map of a ledger. -/
def posIn (l : Ledger p G) (u : UTXO Nat G) : List Nat := (l.utxos.get u).getD []

/-- Contents of the slots. -/
def slotsOf (l : Ledger p G) (ever : List (UTXO Nat G)) (i : Nat) : UTXO Nat G :=
  match ever[i]? with
  | some u => if i ∈ posIn l u then u else UTXO.dummy
  | none => UTXO.dummy

structure Tracks (cv : Curve p q G) (hs : Hashes p) (l : Ledger p G) (pool : Multiset (UTXO Nat G))
    (ever : List (UTXO Nat G)) : Prop where
  es : l.tree.emptyHashes = genEmptyHashes (utxoTreeCfg cv hs) (utxoTreeCfg cv hs).height
  pool : ∀ u, (posIn l u).length = pool.count u
  known : ∀ u, (l.utxos.get u).isSome = true ↔ u ∈ ever
  slot : ∀ u i, i ∈ posIn l u → ever[i]? = some u
  nodup : ∀ u, (posIn l u).Nodup
  next : l.next = ever.length
  real : ∀ u ∈ ever, u.isDummy = false
  tree : l.next ≤ UTXO_CAP → Rep (utxoTreeCfg cv hs) l.tree (slotsOf l ever)

theorem Tracks.delete {l : Ledger p G} {pool : Multiset (UTXO Nat G)} {ever : List (UTXO Nat G)}
    (h : Tracks cv hs l pool ever) {u : UTXO Nat G} (hu : u.onLedger rollup = true) (hp : u ∈ pool) :
    ∃ l' d, deleteOne cv hs rollup u l = (l', .ok d) ∧ Tracks cv hs l' (pool.erase u) ever := by
  obtain ⟨hd, hk⟩ := onLedger_iff.1 hu
  have hlen := h.pool u
  have hpos : 0 < pool.count u := Multiset.count_pos.2 hp
  rcases hg : l.utxos.get u with _ | v
  · rw [posIn, hg] at hlen; simp at hlen; omega
  have hv : posIn l u = v := by rw [posIn, hg]; rfl
  rcases hl : v.getLast? with _ | idx
  · rw [List.getLast?_eq_none_iff] at hl
    rw [hv, hl] at hlen; simp at hlen; omega
  have hnd : v.Nodup := hv ▸ h.nodup u
  have hmem : idx ∈ v := List.mem_of_getLast? hl
  obtain ⟨t', π, h1, h2, _, _⟩ := updateAndProve_any h.es idx (UTXO.dummy : UTXO Nat G)
  have hpos' : ∀ (t : STree (ZMod p)) (w : UTXO Nat G),
      posIn { l with utxos := l.utxos.insert u v.dropLast, tree := t } w =
      if w = u then v.dropLast else posIn l w := by
    intro t w
    simp only [posIn, HMap.get_insert]
    split <;> rfl
  have hslots : ∀ t : STree (ZMod p),
      slotsOf { l with utxos := l.utxos.insert u v.dropLast, tree := t } ever =
      write (slotsOf l ever) idx UTXO.dummy := by
    intro t
    funext i
    simp only [slotsOf, write, hpos']
    by_cases ei : i = idx
    · subst ei
      rw [if_pos rfl, h.slot u i (by rw [hv]; exact hmem)]
      simp [nodup_dropLast_mem hl hnd]
    · rw [if_neg ei]
      rcases he : ever[i]? with _ | w
      · rfl
      · simp only
        by_cases ew : w = u
        · subst ew
          simp [nodup_dropLast_mem hl hnd, ei, hv]
        · rw [if_neg ew]
  refine ⟨{ l with utxos := l.utxos.insert u v.dropLast, tree := t' }, ((idx : ZMod p), π), ?_, ?_⟩
  · unfold deleteOne
    rw [if_neg (by simp [hd]), if_pos hk, hg]
    simp only [hl]
    rw [onOk_of_ok h1]
  refine ⟨h2, ?_, ?_, ?_, ?_, h.next, h.real, ?_⟩
  · intro w
    rw [hpos']
    by_cases e : w = u
    · subst e
      rw [if_pos rfl, Multiset.count_erase_self, ← hlen, hv, List.length_dropLast]
    · rw [if_neg e, Multiset.count_erase_of_ne e, h.pool]
  · intro w
    simp only [HMap.get_insert]
    by_cases e : w = u
    · subst e
      rw [if_pos rfl, ← h.known, hg]; rfl
    · rw [if_neg e]; exact h.known w
  · intro w i hi
    rw [hpos'] at hi
    by_cases e : w = u
    · subst e
      rw [if_pos rfl] at hi
      exact h.slot w i (by rw [hv]; exact List.mem_of_mem_dropLast hi)
    · rw [if_neg e] at hi; exact h.slot w i hi
  · intro w
    rw [hpos']
    split
    · exact hnd.sublist (List.dropLast_sublist v)
    · exact h.nodup w
  · intro hc
    rw [hslots]
    have hlt : idx < l.next := by
      have := h.slot u idx (by rw [hv]; exact hmem)
      rw [h.next]; exact (List.getElem?_eq_some_iff.1 this).1
    obtain ⟨t2, k1, k2⟩ := updateAndProve_sibs (h.tree hc) (ε := Unit) idx UTXO.dummy
      (by rw [utxo_cap]; exact lt_of_lt_of_le hlt hc)
    rw [h1] at k1
    have := (Outcome.ok.inj k1)
    have e : t' = t2 := congrArg Prod.fst this
    subst e
    exact k2

theorem Tracks.missing {l : Ledger p G} {pool : Multiset (UTXO Nat G)} {ever : List (UTXO Nat G)}
    (h : Tracks cv hs l pool ever) {u : UTXO Nat G} (hu : u.onLedger rollup = true) (hp : u ∉ pool) :
    deleteOne cv hs rollup u l = (l, .err (if u ∈ ever then .utxoError else .utxoNonExisting)) := by
  obtain ⟨hd, hk⟩ := onLedger_iff.1 hu
  have hlen := h.pool u
  rw [Multiset.count_eq_zero.2 hp] at hlen
  unfold deleteOne
  rw [if_neg (by simp [hd]), if_pos hk]
  have hk' := h.known u
  rcases hg : l.utxos.get u with _ | v
  · rw [hg] at hk'
    rw [if_neg (by rw [← hk']; simp)]
  · rw [hg] at hk'
    rw [if_pos (hk'.1 rfl)]
    rw [posIn, hg] at hlen
    have : v = [] := List.length_eq_zero_iff.1 hlen
    subst this
    rfl

theorem Tracks.insert {l : Ledger p G} {pool : Multiset (UTXO Nat G)} {ever : List (UTXO Nat G)}
    (h : Tracks cv hs l pool ever) {u : UTXO Nat G} (hd : u.isDummy = false) :
    ∃ l' π, insertOne cv hs u l = (l', .ok ((l.next : ZMod p), π)) ∧
      π.length = (utxoTreeCfg cv hs).height - 1 ∧
      l'.tree.root = some (climb hs.h2 π (utxoCRH cv hs.crh u) l.next) ∧
      Tracks cv hs l' (u ::ₘ pool) (ever ++ [u]) := by
  obtain ⟨t', π, h1, h2, h3, h4⟩ := updateAndProve_any h.es l.next u
  have hpos' : ∀ (t : STree (ZMod p)) (n : Nat) (w : UTXO Nat G),
      posIn (⟨l.utxos.insert u ((l.utxos.get u).getD [] ++ [l.next]), t, n⟩ : Ledger p G) w =
      if w = u then posIn l u ++ [l.next] else posIn l w := by
    intro t n w
    simp only [posIn, HMap.get_insert]
    split <;> rfl
  have hfresh : ∀ w i, i ∈ posIn l w → i < ever.length := fun w i hi =>
    (List.getElem?_eq_some_iff.1 (h.slot w i hi)).1
  have hslots : ∀ (t : STree (ZMod p)) (n : Nat),
      slotsOf (⟨l.utxos.insert u ((l.utxos.get u).getD [] ++ [l.next]), t, n⟩ : Ledger p G) (ever ++ [u]) =
      write (slotsOf l ever) l.next u := by
    intro t n
    funext i
    simp only [slotsOf, write, hpos']
    rw [h.next]
    rcases Nat.lt_trichotomy i ever.length with hi | hi | hi
    · rw [List.getElem?_append_left hi, if_neg (by omega)]
      rcases he : ever[i]? with _ | w
      · rfl
      · simp only
        by_cases ew : w = u
        · subst ew; simp [Nat.ne_of_lt hi]
        · rw [if_neg ew]
    · subst hi; simp
    · rw [if_neg (by omega), List.getElem?_eq_none (by simp; omega), List.getElem?_eq_none (by omega)]
  refine ⟨⟨l.utxos.insert u ((l.utxos.get u).getD [] ++ [l.next]), t', l.next + 1⟩, π, ?_, h3, ?_, ?_⟩
  · unfold insertOne
    rw [onOk_of_ok h1]
  · exact h4
  refine ⟨h2, ?_, ?_, ?_, ?_, ?_, ?_, ?_⟩
  · intro w
    rw [hpos']
    by_cases e : w = u
    · subst e; rw [if_pos rfl, Multiset.count_cons_self, List.length_append, h.pool]; rfl
    · rw [if_neg e, Multiset.count_cons_of_ne e, h.pool]
  · intro w
    simp only [HMap.get_insert]
    by_cases e : w = u
    · subst e; simp
    · rw [if_neg e, h.known w]; simp [e]
  · intro w i hi
    rw [hpos'] at hi
    by_cases e : w = u
    · subst e
      rw [if_pos rfl] at hi
      rcases List.mem_append.1 hi with hi | hi
      · rw [List.getElem?_append_left (hfresh w i hi)]; exact h.slot w i hi
      · have : i = l.next := by simpa using hi
        subst this; rw [h.next]; simp
    · rw [if_neg e] at hi
      rw [List.getElem?_append_left (hfresh w i hi)]; exact h.slot w i hi
  · intro w
    rw [hpos']
    split
    · refine List.nodup_append.2 ⟨h.nodup u, by simp, ?_⟩
      intro a ha c hc
      have : c = l.next := by simpa using hc
      have := hfresh u a ha
      rw [h.next] at *; omega
    · exact h.nodup w
  · simp [h.next]
  · intro w hw
    rcases List.mem_append.1 hw with hw | hw
    · exact h.real w hw
    · have : w = u := by simpa using hw
      subst this; exact hd
  · intro hc
    rw [hslots]
    have hc' : l.next < UTXO_CAP := hc
    obtain ⟨t2, k1, k2⟩ := updateAndProve_sibs (h.tree (Nat.le_of_lt hc')) (ε := Unit) l.next u
      (by rw [utxo_cap]; exact hc')
    rw [h1] at k1
    have e : t' = t2 := congrArg Prod.fst (Outcome.ok.inj k1)
    subst e
    exact k2

/-! ## Loops -/

theorem Book.spend_frame (us : List (UTXO Nat G)) (B : Book G) :
    (B.spend rollup us).1 = { B with pool := (B.spend rollup us).1.pool } ∧
    (B.spend rollup us).2 ≠ .panic := by
  induction us generalizing B with
  | nil => exact ⟨rfl, by simp [Book.spend]⟩
  | cons u us ih =>
    unfold Book.spend
    split
    · split
      · obtain ⟨h1, h2⟩ := ih { B with pool := B.pool.erase u }
        exact ⟨h1, h2⟩
      · exact ⟨rfl, by simp⟩
    · exact ih B

/-- Result of a loop whose reference outcome is `o`. -/
def outcomeAs {ε α : Type} (o : Outcome ε Unit) (a : α) : Outcome ε α :=
  match o with
  | .ok _ => .ok a
  | .err e => .err e
  | .panic => .panic

theorem deleteInputs_any (us : List (UTXO Nat G)) (l : Ledger p G) (B : Book G)
    (h : Tracks cv hs l B.pool B.ever) :
    ∃ l' ds, deleteInputs cv hs rollup us l = (l', outcomeAs (B.spend rollup us).2 ds) ∧
      Tracks cv hs l' (B.spend rollup us).1.pool B.ever := by
  induction us generalizing l B with
  | nil => exact ⟨l, [], rfl, h⟩
  | cons u us ih =>
    unfold deleteInputs Book.spend
    by_cases hu : u.onLedger rollup = true
    · rw [if_pos hu]
      by_cases hp : u ∈ B.pool
      · rw [if_pos hp]
        obtain ⟨l1, d, k1, k2⟩ := h.delete hu hp
        obtain ⟨l', ds, k3, k4⟩ := ih l1 { B with pool := B.pool.erase u } k2
        refine ⟨l', d :: ds, ?_, k4⟩
        rw [SM.bind_of_ok k1]
        rcases ho : (Book.spend rollup us { B with pool := B.pool.erase u }).2 with _ | e | _ <;>
          rw [ho] at k3
        · rw [SM.bind_of_ok k3]; rfl
        · rw [SM.bind_of_err k3]; rfl
        · rw [SM.bind_of_panic k3]; rfl
      · rw [if_neg hp]
        refine ⟨l, [], ?_, h⟩
        rw [SM.bind_of_err (h.missing hu hp)]; rfl
    · rw [if_neg hu]
      obtain ⟨l', ds, k3, k4⟩ := ih l B h
      refine ⟨l', noUpdate cv hs :: ds, ?_, k4⟩
      rw [SM.bind_of_ok (deleteOne_skip (by simpa using hu) l)]
      rcases ho : (Book.spend rollup us B).2 with _ | e | _ <;> rw [ho] at k3
      · rw [SM.bind_of_ok k3]; rfl
      · rw [SM.bind_of_err k3]; rfl
      · rw [SM.bind_of_panic k3]; rfl

theorem addOne_skip_any {pk : G} {u : UTXO Nat G} (hu : u.onLedger rollup = false) {w : Nat} (hw : w < U64)
    (s : State p q G) :
    (b = .debug ∧ U64 ≤ w + paidOne rollup u ∧ (addOne b cv hs rollup pk u w s).2 = .panic) ∨
    (¬ (b = .debug ∧ U64 ≤ w + paidOne rollup u) ∧ addOne b cv hs rollup pk u w s =
        ({ s with deposits := s.deposits ++ depositRec rollup pk u },
          .ok (noUpdate cv hs, (w + paidOne rollup u) % U64))) := by
  by_cases hd : u.isDummy = true
  · right
    have h0 : paidOne rollup u = 0 := by simp [paidOne, hd]
    rw [h0, Nat.add_zero]
    refine ⟨fun h => by omega, ?_⟩
    unfold addOne
    rw [if_pos hd]
    simp [SM.pure, depositRec, hd, Nat.mod_eq_of_lt hw]
  · have hd' : u.isDummy = false := by simpa using hd
    have hpk : u.pk = rollup := by
      by_contra hne
      rw [onLedger_iff.2 ⟨hd', hne⟩] at hu
      cases hu
    have hone : paidOne rollup u = u.amount := by simp [paidOne, hd', hpk]
    rw [hone]
    have hunf : addOne b cv hs rollup pk u w s =
        SM.bind (addWithdrawal b w u.amount) (fun w' => SM.pure (noUpdate cv hs, w'))
          { s with deposits := s.deposits ++ depositRec rollup pk u } := by
      unfold addOne
      rw [if_neg hd, SM.bind_of_ok (recordDeposit_eq hd' s), if_neg (by simp [hpk])]
    rw [hunf]
    by_cases hlt : w + u.amount < U64
    · right
      refine ⟨fun h => by omega, ?_⟩
      rw [SM.bind_of_ok (a := w + u.amount) (by unfold addWithdrawal addU64; rw [if_pos hlt])]
      simp [SM.pure, Nat.mod_eq_of_lt hlt]
    · cases b with
      | debug =>
        left
        refine ⟨rfl, by omega, ?_⟩
        rw [SM.bind_of_panic_snd (by unfold addWithdrawal addU64; rw [if_neg hlt])]
      | release =>
        right
        refine ⟨fun h => Build.noConfusion h.1, ?_⟩
        rw [SM.bind_of_ok (a := (w + u.amount) % U64) (by unfold addWithdrawal addU64; rw [if_neg hlt])]
        rfl

theorem U64_pos : 0 < U64 := by unfold U64; omega

theorem addOutputs_any {pk : G} (us : List (UTXO Nat G)) (w : Nat) (s : State p q G)
    (pool : Multiset (UTXO Nat G)) (ever : List (UTXO Nat G)) (h : Tracks cv hs s.ledger pool ever)
    (hw : w < U64) :
    (b = .debug ∧ U64 ≤ w + paidBack rollup us ∧ (addOutputs b cv hs rollup pk us w s).2 = .panic) ∨
    (¬ (b = .debug ∧ U64 ≤ w + paidBack rollup us) ∧ ∃ l' ds,
      addOutputs b cv hs rollup pk us w s =
        ({ s with ledger := l', deposits := s.deposits ++ depositRecs rollup pk us },
          .ok (ds, (w + paidBack rollup us) % U64)) ∧
      Tracks cv hs l' (pool + ((led rollup us : List (UTXO Nat G)) : Multiset (UTXO Nat G)))
        (ever ++ led rollup us) ∧
      ((led rollup us = [] ∧ l' = s.ledger) ∨ ∃ us' u π, led rollup us = us' ++ [u] ∧
        π.length = (utxoTreeCfg cv hs).height - 1 ∧
        l'.tree.root = some (climb hs.h2 π (utxoCRH cv hs.crh u) (l'.next - 1)))) := by
  induction us generalizing w s pool ever with
  | nil =>
    right
    refine ⟨?_, s.ledger, [], ?_, ?_, Or.inl ⟨rfl, rfl⟩⟩
    · rintro ⟨_, h2⟩; simp [paidBack, totalOf] at h2; omega
    · simp [addOutputs, SM.pure, depositRecs, paidBack, totalOf, Nat.mod_eq_of_lt hw]
    · simpa [led] using h
  | cons u us ih =>
    unfold addOutputs
    rw [paidBack_cons', depositRecs_cons']
    by_cases hu : u.onLedger rollup = true
    · obtain ⟨hd, hk⟩ := onLedger_iff.1 hu
      obtain ⟨l1, π, k1, k3, k4, k2⟩ := h.insert hd
      have h0 : paidOne rollup u = 0 := by simp [paidOne, hk]
      have hone : addOne b cv hs rollup pk u w s =
          ({ s with ledger := l1, deposits := s.deposits ++ depositRec rollup pk u },
            .ok (((s.ledger.next : ZMod p), π), w)) := by
        unfold addOne
        rw [if_neg (by simp [hd]), SM.bind_of_ok (recordDeposit_eq hd s), if_pos hk,
          SM.bind_of_ok (s' := { s with ledger := l1, deposits := s.deposits ++ depositRec rollup pk u })
            (a := ((s.ledger.next : ZMod p), π)) (by unfold onLedger; simp only [k1])]
        rfl
      rw [SM.bind_of_ok hone, h0, Nat.zero_add, led_cons_pos hu]
      rcases ih w { s with ledger := l1, deposits := s.deposits ++ depositRec rollup pk u } _ _ k2 hw with
        ⟨e1, e2, e3⟩ | ⟨e1, l', ds, e2, e3, e4⟩
      · left
        exact ⟨e1, e2, by rw [SM.bind_of_panic_snd e3]⟩
      · right
        refine ⟨e1, l', (((s.ledger.next : ZMod p), π)) :: ds, ?_, ?_, Or.inr ?_⟩
        · rw [SM.bind_of_ok e2]; simp [SM.pure]
        · have a1 : pool + ((u :: led rollup us : List (UTXO Nat G)) : Multiset (UTXO Nat G)) =
              (u ::ₘ pool) + ((led rollup us : List (UTXO Nat G)) : Multiset (UTXO Nat G)) := by
            rw [← Multiset.cons_coe, Multiset.add_cons, Multiset.cons_add]
          rw [a1, List.append_cons]; exact e3
        · rcases e4 with ⟨e4, e5⟩ | ⟨us', v, π', e4, e5, e6⟩
          · refine ⟨[], u, π, by rw [e4]; rfl, k3, ?_⟩
            rw [e5]
            have : l1.next - 1 = s.ledger.next := by
              rw [k2.next, List.length_append, h.next]; simp
            simp only
            rw [this]; exact k4
          · exact ⟨u :: us', v, π', by rw [e4]; rfl, e5, e6⟩
    · rw [led_cons_neg hu]
      rcases addOne_skip_any (b := b) (cv := cv) (hs := hs) (pk := pk) (rollup := rollup) (u := u)
        (by simpa using hu) hw s with ⟨e1, e2, e3⟩ | ⟨e1, e2⟩
      · left
        exact ⟨e1, by omega, by rw [SM.bind_of_panic_snd e3]⟩
      · rw [SM.bind_of_ok e2]
        have hlt : b = .debug → w + paidOne rollup u < U64 := fun hb => by
          by_contra hh; exact e1 ⟨hb, by omega⟩
        have hmod : ((w + paidOne rollup u) % U64 + paidBack rollup us) % U64 =
            (w + (paidOne rollup u + paidBack rollup us)) % U64 := by
          rw [Nat.mod_add_mod, Nat.add_assoc]
        have hsum : b = .debug → (w + paidOne rollup u) % U64 + paidBack rollup us =
            w + (paidOne rollup u + paidBack rollup us) := fun hb => by
          rw [Nat.mod_eq_of_lt (hlt hb), Nat.add_assoc]
        rcases ih ((w + paidOne rollup u) % U64)
          { s with deposits := s.deposits ++ depositRec rollup pk u } pool ever h
          (Nat.mod_lt _ U64_pos) with ⟨f1, f2, f3⟩ | ⟨f1, l', ds, f2, f3, f4⟩
        · left
          exact ⟨f1, by rw [← hsum f1]; exact f2, by rw [SM.bind_of_panic_snd f3]⟩
        · right
          refine ⟨fun hh => f1 ⟨hh.1, by rw [hsum hh.1]; exact hh.2⟩, l', noUpdate cv hs :: ds, ?_, f3, f4⟩
          rw [SM.bind_of_ok f2, hmod]
          simp [SM.pure]

/-! ## Calls -/

structure Full (cv : Curve p q G) (hs : Hashes p) (s : State p q G) (B : Book G) : Prop where
  led : Tracks cv hs s.ledger B.pool B.ever
  transactions : s.transactions = B.transactions
  signers : s.signers = B.signers
  deposits : s.deposits = B.deposits
  withdrawals : s.withdrawals = B.withdrawals
  recorded : s.ivcInputs.map (fun y => (y.tx, y.senderPk)) = B.recorded
  txEs : s.txTree.emptyHashes = genEmptyHashes (txTreeCfg cv hs) (txTreeCfg cv hs).height
  txRoot : ∃ r, s.txTree.root = some r
  proofsLen : s.txProofs.length = s.transactions.length
  txTree : s.transactions.length ≤ TX_CAP →
    Rep (txTreeCfg cv hs) s.txTree (listC Tx.default s.transactions)
  sgEs : s.signerTree.emptyHashes = genEmptyHashes (signerTreeCfg cv hs) (signerTreeCfg cv hs).height

theorem Full.shows {s : State p q G} {B : Book G} (h : Full cv hs s B) : Shows s B :=
  ⟨h.led.pool, h.led.known, h.led.slot, h.led.nodup, h.led.next, h.transactions, h.signers, h.deposits,
    h.withdrawals, h.recorded⟩

theorem full_new : Full cv hs (new q cv hs) (Book.empty : Book G) := by
  refine ⟨⟨rfl, fun u => by simp [posIn, new, HMap.get, Book.empty], fun u => by simp [new, HMap.get, Book.empty],
    fun u i hi => by simp [posIn, new, HMap.get] at hi, fun u => by simp [posIn, new, HMap.get], rfl,
    fun u hu => by simp [Book.empty] at hu, fun _ => ?_⟩, rfl, rfl, rfl, rfl, rfl, rfl, ?_, rfl, fun _ => ?_, rfl⟩
  · exact (holds_blank cv hs).tree
  · exact ⟨_, (blankTree_rep (txTreeCfg cv hs)).root⟩
  · exact (inv_new cv hs).tx

theorem Full.newEpoch {s : State p q G} {B : Book G} (h : Full cv hs s B) :
    Full cv hs (reset cv hs s) B.newEpoch := by
  refine ⟨h.led, rfl, rfl, rfl, rfl, rfl, rfl, ?_, rfl, fun _ => ?_, h.sgEs⟩
  · exact ⟨_, (blankTree_rep (txTreeCfg cv hs)).root⟩
  · exact (inv_new (q := q) cv hs).tx

theorem Full.submit {s : State p q G} {B : Book G} (h : Full cv hs s B) (l : List (G × Tx Nat G)) :
    (processTransactions b cv hs l s).2 = (B.submit b l).2 ∧
    Full cv hs (processTransactions b cv hs l s).1 (B.submit b l).1 := by
  induction l generalizing s B with
  | nil => exact ⟨rfl, h⟩
  | cons x l ih =>
    unfold processTransactions Book.submit
    rcases hv : x.2.isValid b (some x.1) with u | e | _
    · obtain ⟨t', π, h1, h2, h3, h4⟩ := updateAndProve_any h.txEs s.transactions.length x.2
      have hone : processTx b cv hs x.1 x.2 s =
          ({ s with txTree := t', txProofs := s.txProofs ++ [π], transactions := s.transactions ++ [x.2] },
            .ok ()) := by
        unfold processTx
        rw [hv]
        simp only
        rw [onOk_of_ok h1]
      rw [SM.bind_of_ok hone]
      refine ih (B := { B with transactions := B.transactions ++ [x.2] })
        ⟨h.led, by simp only; rw [h.transactions], h.signers, h.deposits, h.withdrawals, h.recorded, h2,
          ⟨_, h4⟩, by simp [h.proofsLen], fun hc => ?_, h.sgEs⟩
      simp only [List.length_append, List.length_cons, List.length_nil, Nat.zero_add] at hc
      obtain ⟨t2, k1, k2⟩ := updateAndProve_sibs (h.txTree (by omega)) (ε := Unit) s.transactions.length x.2
        (by rw [tx_cap]; omega)
      rw [h1] at k1
      have e : t' = t2 := congrArg Prod.fst (Outcome.ok.inj k1)
      subst e
      simp only
      rw [listC_append]; exact k2
    · rw [SM.bind_of_err (s' := s) (e := e) (by unfold processTx; rw [hv])]
      exact ⟨rfl, h⟩
    · rw [SM.bind_of_panic (s' := s) (by unfold processTx; rw [hv])]
      exact ⟨rfl, h⟩

theorem Book.execute_ok {tx : Tx Nat G} {pk : G} {B : Book G}
    (h : ¬ (b = .debug ∧ 2 ^ 64 ≤ tx.withdrawn rollup)) :
    B.execute b rollup tx pk =
    ({ B with
        pool := B.pool + tx.creates rollup
        ever := B.ever ++ tx.creates rollup
        deposits := B.deposits ++ tx.depositsOf rollup pk
        withdrawals := B.withdrawals ++
          (if tx.withdrawn rollup % 2 ^ 64 = 0 then [] else [(pk, tx.withdrawn rollup % 2 ^ 64)])
        recorded := B.recorded ++ [(tx, pk)] }, .ok ()) := if_neg h

theorem Full.answer {s : State p q G} {B : Book G} (h : Full cv hs s B) {r : ZMod p}
    (hr : s.txTree.root = some r) (i : Nat) (x : Pair q G) :
    (processOne b cv hs rollup i x.1 x.2 s).2 = (B.answer b rollup (Approves cv hs rollup r) i x).2 ∧
    ((B.answer b rollup (Approves cv hs rollup r) i x).2 ≠ .panic →
      Full cv hs (processOne b cv hs rollup i x.1 x.2 s).1
        (B.answer b rollup (Approves cv hs rollup r) i x).1 ∧
      (processOne b cv hs rollup i x.1 x.2 s).1.txTree = s.txTree ∧
      (processOne b cv hs rollup i x.1 x.2 s).1.transactions = s.transactions) ∧
    ((processOne b cv hs rollup i x.1 x.2 s).2 = .ok () → ∀ tx us u, s.transactions[i]? = some tx →
      Approves cv hs rollup r tx x = true → tx.creates rollup = us ++ [u] → ∃ π : List (ZMod p),
        π.length = (utxoTreeCfg cv hs).height - 1 ∧
        (processOne b cv hs rollup i x.1 x.2 s).1.ledger.tree.root =
          some (climb hs.h2 π (utxoCRH cv hs.crh u)
            ((processOne b cv hs rollup i x.1 x.2 s).1.ledger.next - 1))) := by
  unfold processOne Book.answer
  rw [hr]
  rcases ht : s.transactions[i]? with _ | tx
  · have ht' : B.transactions[i]? = none := by rw [← h.transactions]; exact ht
    rw [ht']
    exact ⟨rfl, fun hh => absurd rfl hh, fun hh => by cases hh⟩
  have ht' : B.transactions[i]? = some tx := by rw [← h.transactions]; exact ht
  rw [ht']
  simp only
  have hlt : i < s.txProofs.length := by
    rw [h.proofsLen]; exact (List.getElem?_eq_some_iff.1 ht).1
  have hp : s.txProofs[i]? = some s.txProofs[i] := List.getElem?_eq_getElem hlt
  rw [accepted_eq]
  by_cases ha : Approves cv hs rollup r tx x = true
  · rw [if_pos ha, if_pos ha]
    obtain ⟨t', π, h1, h2, _, _⟩ := updateAndProve_any h.sgEs s.signers.length x.1
    have hone : addSigner cv hs x.1 s =
        ({ s with signerTree := t', signers := s.signers ++ [some x.1] }, .ok π) := by
      unfold addSigner
      rw [onOk_of_ok h1]
    unfold applyAccepted
    rw [SM.bind_of_ok hone]
    obtain ⟨l', ds, k1, k2⟩ := deleteInputs_any (rollup := rollup) tx.inputs.toList s.ledger
      { B with signers := B.signers ++ [some x.1] } h.led
    obtain ⟨g1, g2⟩ := Book.spend_frame (rollup := rollup) tx.inputs.toList
      { B with signers := B.signers ++ [some x.1] }
    rcases hsp : Book.spend rollup tx.inputs.toList { B with signers := B.signers ++ [some x.1] }
      with ⟨B', o⟩
    rw [hsp] at g1 g2 k1 k2
    simp only at g1 g2 k1 k2
    have hdel : onLedger (deleteInputs cv hs rollup tx.inputs.toList)
          { s with signerTree := t', signers := s.signers ++ [some x.1] } =
          ({ s with ledger := l', signerTree := t', signers := s.signers ++ [some x.1] }, outcomeAs o ds) := by
        unfold onLedger; simp only [k1]
    have hB : B'.ever = B.ever ∧ B'.transactions = B.transactions ∧ B'.signers = B.signers ++ [some x.1] ∧
        B'.deposits = B.deposits ∧ B'.withdrawals = B.withdrawals ∧ B'.recorded = B.recorded := by
      rw [g1]; exact ⟨rfl, rfl, rfl, rfl, rfl, rfl⟩
    obtain ⟨b1, b2, b3, b4, b5, b6⟩ := hB
    rw [← b1] at k2
    rcases o with a | e | _
    · cases a
      rw [SM.bind_of_ok hdel]
      simp only
      have hw : U64 = 2 ^ 64 := rfl
      rcases addOutputs_any (b := b) (rollup := rollup) (pk := x.1) tx.outputs.toList 0
        { s with ledger := l', signerTree := t', signers := s.signers ++ [some x.1] } B'.pool B'.ever k2
        U64_pos with ⟨f1, f2, f3⟩ | ⟨f1, l2, as, f2, f3, f4⟩
      · have hex : B'.execute b rollup tx x.1 = (B', .panic) := by
          unfold Book.execute
          exact if_pos ⟨f1, by rw [← hw]; simpa [paidBack, Tx.withdrawn] using f2⟩
        rw [hex]
        exact ⟨by rw [SM.bind_of_panic_snd f3], fun hh => absurd rfl hh, fun hh => by
          rw [SM.bind_of_panic_snd f3] at hh; cases hh⟩
      · have hex : ¬ (b = .debug ∧ 2 ^ 64 ≤ tx.withdrawn rollup) := by
          rw [← hw]; simpa [paidBack, Tx.withdrawn] using f1
        rw [Book.execute_ok hex]
        rw [SM.bind_of_ok f2]
        simp only [Nat.zero_add]
        rw [SM.bind_of_ok (recordWithdrawal_eq x.1 _ _), pushInputs_ok (by simp only; exact hp)]
        refine ⟨rfl, fun _ => ⟨⟨f3, ?_, ?_, ?_, ?_, ?_, h.txEs, h.txRoot, h.proofsLen, h.txTree, h2⟩, rfl, rfl⟩, ?_⟩
        rotate_right 1
        · intro _ tx2 us u htx hap hcr
          rw [← Option.some.inj htx] at hcr
          rcases f4 with ⟨f4, _⟩ | ⟨us', v, π', f4, f5, f6⟩
          · have : tx.creates rollup = [] := f4
            rw [this] at hcr; simp at hcr
          · have e : us' ++ [v] = us ++ [u] := f4.symm.trans hcr
            have e2 : v = u := by simpa using (List.append_inj' e rfl).2
            subst e2
            exact ⟨π', f5, f6⟩
        · simp only; rw [b2]; exact h.transactions
        · simp only; rw [b3, h.signers]
        · simp only; rw [b4, h.deposits]; rfl
        · simp only; rw [b5, h.withdrawals]
          have : paidBack rollup tx.outputs.toList = tx.withdrawn rollup := rfl
          rw [this, hw]
          by_cases hz : tx.withdrawn rollup % 2 ^ 64 = 0
          · rw [if_pos hz, if_neg (by omega)]
          · rw [if_neg hz, if_pos (by omega)]
        · simp only [List.map_append, List.map_cons, List.map_nil]; rw [b6, h.recorded]
    · rw [SM.bind_of_err hdel]
      refine ⟨rfl, fun _ => ⟨⟨k2, ?_, ?_, ?_, ?_, ?_, h.txEs, h.txRoot, h.proofsLen, h.txTree, h2⟩, rfl, rfl⟩, fun hh => by cases hh⟩
      · simp only; rw [b2]; exact h.transactions
      · simp only; rw [b3, h.signers]
      · simp only; rw [b4]; exact h.deposits
      · simp only; rw [b5]; exact h.withdrawals
      · simp only; rw [b6]; exact h.recorded
    · exact absurd rfl g2
  · rw [if_neg ha, if_neg ha]
    unfold applyRejected
    rw [pushInputs_ok (s := { s with signers := s.signers ++ [none] }) hp]
    refine ⟨rfl, fun _ => ⟨⟨h.led, h.transactions, ?_, h.deposits, h.withdrawals, ?_, h.txEs, h.txRoot,
      h.proofsLen, h.txTree, h.sgEs⟩, rfl, rfl⟩, fun _ tx2 us u htx hap _ => ?_⟩
    rotate_right 1
    · rw [← Option.some.inj htx] at hap; exact absurd hap ha
    · simp only; rw [h.signers]
    · simp only [List.map_append, List.map_cons, List.map_nil]; rw [h.recorded]

theorem Full.answers {s : State p q G} {B : Book G} (h : Full cv hs s B) {r : ZMod p}
    (hr : s.txTree.root = some r) (l : List (Pair q G)) (i : Nat) :
    (processFrom b cv hs rollup i l s).2 = (B.answers b rollup (Approves cv hs rollup r) i l).2 ∧
    ((B.answers b rollup (Approves cv hs rollup r) i l).2 ≠ .panic →
      Full cv hs (processFrom b cv hs rollup i l s).1
        (B.answers b rollup (Approves cv hs rollup r) i l).1 ∧
      (processFrom b cv hs rollup i l s).1.txTree = s.txTree ∧
      (processFrom b cv hs rollup i l s).1.transactions = s.transactions) := by
  induction l generalizing s B i with
  | nil => exact ⟨rfl, fun _ => ⟨h, rfl, rfl⟩⟩
  | cons x l ih =>
    rw [processFrom_cons]
    unfold Book.answers
    obtain ⟨k1, k2, _⟩ := h.answer (b := b) (rollup := rollup) hr i x
    rcases hB : B.answer b rollup (Approves cv hs rollup r) i x with ⟨B', o⟩
    rcases hs' : processOne b cv hs rollup i x.1 x.2 s with ⟨s', o'⟩
    rw [hB, hs'] at k1 k2
    simp only at k1 k2
    subst k1
    rcases o' with _ | e | _
    · rw [SM.bind_of_ok hs']
      obtain ⟨k3, k4, k5⟩ := k2 (by simp)
      obtain ⟨g1, g2⟩ := ih k3 (by rw [k4]; exact hr) (i + 1)
      refine ⟨g1, fun hh => ?_⟩
      obtain ⟨g3, g4, g5⟩ := g2 hh
      exact ⟨g3, by rw [g4, k4], by rw [g5, k5]⟩
    · rw [SM.bind_of_err hs']
      exact ⟨rfl, fun _ => k2 (by simp)⟩
    · rw [SM.bind_of_panic hs']
      exact ⟨rfl, fun hh => absurd rfl hh⟩

theorem histories_full {s : State p q G} {B : Book G} (h : Histories b cv hs s B) : Full cv hs s B := by
  induction h with
  | new => exact full_new
  | newEpoch _ ih => exact ih.newEpoch
  | transactions _ l _ ih => exact (ih.submit l).2
  | signatures _ rollup l root hroot hr ih =>
    obtain ⟨r, hr'⟩ := ih.txRoot
    have : r = root := by
      unfold STree.rootHash at hroot
      rw [hr'] at hroot
      exact Outcome.ok.inj hroot
    subst this
    have := ih.answers (b := b) (rollup := rollup) hr' l 0
    unfold processSignatures at hr ⊢
    exact (this.2 (by rw [← this.1]; exact hr)).1

end PF.Agg
