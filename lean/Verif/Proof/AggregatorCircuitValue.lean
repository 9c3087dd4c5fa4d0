import Mathlib.Tactic.LinearCombination
import Verif.Proof.AggregatorCircuitRun
import Verif.Proof.AggregatorRun

/-!
# Value and copies along circuit runs
-/
set_option linter.unusedSectionVars false

namespace PF.AggC
open PF PF.Spec PF.MT PF.Circuit PF.Contract
variable {p q : Nat} {G : Type} [AddCommGroup G] [Module (ZMod q) G] [DecidableEq G]

/-- Value of a slot. -/
def sval (u : UTXO (ZMod p) G) : Nat := if u.isDummy then 0 else u.amount.val

theorem valueOf_succ (c : Nat → UTXO (ZMod p) G) (n : Nat) : valueOf c (n + 1) = valueOf c n + sval (c n) := by
  simp [valueOf, totalVal, List.range_succ, sval]

theorem valueOf_congr {c c' : Nat → UTXO (ZMod p) G} {n : Nat} (h : ∀ i, i < n → c i = c' i) :
    valueOf c n = valueOf c' n := by
  induction n with
  | zero => rfl
  | succ n ih => rw [valueOf_succ, valueOf_succ, ih (fun i hi => h i (by omega)), h n (by omega)]

theorem valueOf_write (c : Nat → UTXO (ZMod p) G) (n i : Nat) (v : UTXO (ZMod p) G) (hi : i < n) :
    valueOf (write c i v) n + sval (c i) = valueOf c n + sval v := by
  induction n with
  | zero => omega
  | succ n ih =>
    rw [valueOf_succ, valueOf_succ]
    by_cases e : i = n
    · subst e
      have : valueOf (write c i v) i = valueOf c i := valueOf_congr (fun j hj => by
        simp [write]; intro e; omega)
      rw [this]
      have : write c i v i = v := by simp [write]
      rw [this]; omega
    · have h1 := ih (by omega)
      have : write c i v n = c n := by simp [write]; intro e'; omega
      rw [this]; omega

theorem totalVal_eq (us : List (UTXO (ZMod p) G)) : totalVal us = (us.map sval).sum := rfl

/-- Legal updates: the value changes by what is written minus what is replaced. -/
theorem valueOf_applied (us : List (Upd (UTXO (ZMod p) G) (ZMod p))) (n : Nat) (hi : ∀ u ∈ us, u.idx < n)
    {c : Nat → UTXO (ZMod p) G} (hl : Legal c us) :
    valueOf (applied c us) n + (us.map fun u => sval u.old).sum =
      valueOf c n + (us.map fun u => sval u.new).sum := by
  induction us generalizing c with
  | nil => simp [applied]
  | cons u us ih =>
    obtain ⟨h1, h2⟩ := (legal_cons c u us).1 hl
    have e1 := ih (fun v hv => hi v (by simp [hv])) h2
    have e2 := valueOf_write c n u.idx u.new (hi u (by simp))
    rw [h1] at e2
    rw [applied_cons]
    simp only [List.map_cons, List.sum_cons]
    omega

/-- Legal updates: copies. -/
theorem copies_applied (us : List (Upd (UTXO (ZMod p) G) (ZMod p))) (n : Nat) (hi : ∀ u ∈ us, u.idx < n)
    {c : Nat → UTXO (ZMod p) G} (hl : Legal c us) (v : UTXO (ZMod p) G) :
    copies (applied c us) n v + (us.map fun u => u.old).count v =
      copies c n v + (us.map fun u => u.new).count v := by
  induction us generalizing c with
  | nil => simp [applied]
  | cons u us ih =>
    obtain ⟨h1, h2⟩ := (legal_cons c u us).1 hl
    have e1 := ih (fun v hv => hi v (by simp [hv])) h2
    have e2 := Agg.copies_write c n u.idx u.new v (hi u (by simp))
    rw [h1] at e2
    rw [applied_cons]
    simp only [List.map_cons, List.count_cons, beq_iff_eq]
    split at e2 <;> split at e2 <;> simp_all only [if_true, if_false] <;> omega

theorem zip_filter_fst {α β : Type} (us : List α) (ds : List β) (h : us.length = ds.length)
    (sel : α → Bool) : ((us.zip ds).filter fun x => sel x.1).map (·.1) = us.filter sel := by
  induction us generalizing ds with
  | nil => simp
  | cons u us ih =>
    cases ds with
    | nil => simp at h
    | cons d ds =>
      rw [List.zip_cons_cons, List.filter_cons, List.filter_cons]
      have := ih ds (by simpa using h)
      cases sel u <;> simp [this]

theorem updsOf_map {β : Type} (us : List (UTXO (ZMod p) G)) (ds : List (ZMod p × List (ZMod p)))
    (h : us.length = ds.length) (sel : UTXO (ZMod p) G → Bool) (o n : UTXO (ZMod p) G → UTXO (ZMod p) G)
    (f : UTXO (ZMod p) G → UTXO (ZMod p) G → β) :
    (updsOf us ds sel o n).map (fun u => f u.old u.new) = (us.filter sel).map fun u => f (o u) (n u) := by
  unfold updsOf
  rw [List.map_map, ← zip_filter_fst us ds h sel, List.map_map]
  rfl

theorem mem_updsOf {us : List (UTXO (ZMod p) G)} {ds : List (ZMod p × List (ZMod p))}
    {sel : UTXO (ZMod p) G → Bool} {o n : UTXO (ZMod p) G → UTXO (ZMod p) G}
    {x : Upd (UTXO (ZMod p) G) (ZMod p)} (hx : x ∈ updsOf us ds sel o n) :
    x.idx < UTXO_CAP ∧ ∃ u ∈ us, sel u = true ∧ x.old = o u ∧ x.new = n u := by
  unfold updsOf at hx
  obtain ⟨y, hy, rfl⟩ := List.mem_map.1 hx
  obtain ⟨h1, h2⟩ := List.mem_filter.1 hy
  exact ⟨Nat.mod_lt _ (by decide), y.1, (List.of_mem_zip h1).1, h2, rfl, rfl⟩

theorem ledgerUpds_idx {P : Params p G} {cv : Curve p q G} {root : ZMod p} {is : List (CInputs p G)}
    {x : Upd (UTXO (ZMod p) G) (ZMod p)} (hx : x ∈ ledgerUpds P cv root is) : x.idx < UTXO_CAP := by
  unfold ledgerUpds at hx
  obtain ⟨i, _, h⟩ := List.mem_flatMap.1 hx
  rcases List.mem_append.1 h with h | h
  · exact (mem_updsOf (erases_eq cv P.hs root i ▸ h)).1
  · exact (mem_updsOf (inserts_eq P cv root i ▸ h)).1

/-- Every ledger update erases a real input of a signed transaction or inserts a real output of an
authorised one into an empty slot. -/
theorem mem_ledgerUpds {P : Params p G} {cv : Curve p q G} {root : ZMod p} {is : List (CInputs p G)}
    {x : Upd (UTXO (ZMod p) G) (ZMod p)} (hx : x ∈ ledgerUpds P cv root is) :
    (∃ i ∈ is, i.signed cv P.hs root = true ∧ x.old ∈ i.tx.inputs.toList ∧ x.old.isDummy = false ∧
      x.new = UTXO.dummy) ∨
    (∃ i ∈ is, i.authorised P cv root = true ∧ x.new ∈ i.tx.outputs.toList ∧
      x.new.onLedger P.contract = true ∧ x.old = UTXO.dummy) := by
  unfold ledgerUpds at hx
  obtain ⟨i, hi, h⟩ := List.mem_flatMap.1 hx
  rcases List.mem_append.1 h with h | h
  · left
    obtain ⟨_, u, hu, hs, ho, hn⟩ := mem_updsOf (erases_eq cv P.hs root i ▸ h)
    simp only [Bool.and_eq_true, Bool.not_eq_true'] at hs
    exact ⟨i, hi, hs.1, by rw [ho]; exact hu, by rw [ho]; exact hs.2, hn⟩
  · right
    obtain ⟨_, u, hu, hs, ho, hn⟩ := mem_updsOf (inserts_eq P cv root i ▸ h)
    simp only [Bool.and_eq_true] at hs
    exact ⟨i, hi, hs.1, by rw [hn]; exact hu, by rw [hn]; exact hs.2, ho⟩

theorem applied_other {L D : Type} (us : List (Upd L D)) (c : Nat → L) (j : Nat)
    (h : ∀ u ∈ us, u.idx ≠ j) : applied c us j = c j := by
  induction us generalizing c with
  | nil => rfl
  | cons u us ih =>
    rw [applied_cons, ih _ (fun v hv => h v (by simp [hv]))]
    simp [write]; intro e; exact absurd e.symm (h u (by simp))

/-- A changed slot: the first update at it. -/
theorem first_change {L D : Type} (us : List (Upd L D)) (c : Nat → L) (hl : Legal c us) (j : Nat)
    (h : applied c us j ≠ c j) : ∃ u ∈ us, u.idx = j ∧ u.old = c j := by
  induction us generalizing c with
  | nil => exact absurd rfl h
  | cons u us ih =>
    obtain ⟨h1, h2⟩ := (legal_cons c u us).1 hl
    by_cases e : u.idx = j
    · exact ⟨u, by simp, e, by rw [← h1, e]⟩
    · have hw : write c u.idx u.new j = c j := by
        simp [write]; intro e'; exact absurd e'.symm e
      rw [applied_cons] at h
      obtain ⟨v, hv, hj, ho⟩ := ih _ h2 (by rw [hw]; exact h)
      exact ⟨v, by simp [hv], hj, by rw [ho, hw]⟩

/-- The last update at a slot. -/
theorem last_write {L D : Type} (us : List (Upd L D)) (c : Nat → L) (j : Nat) :
    applied c us j = c j ∨ ∃ u ∈ us, u.idx = j ∧ applied c us j = u.new := by
  induction us generalizing c with
  | nil => exact Or.inl rfl
  | cons u us ih =>
    rw [applied_cons]
    rcases ih (write c u.idx u.new) with h | ⟨v, hv, hj, h⟩
    · by_cases e : u.idx = j
      · right; exact ⟨u, by simp, e, by rw [h, e]; simp [write]⟩
      · left; rw [h]; simp [write]; intro e'; exact absurd e'.symm e
    · right; exact ⟨v, by simp [hv], hj, h⟩

theorem sum_filter_sval (us : List (UTXO (ZMod p) G)) :
    ((us.filter fun u => !u.isDummy).map sval).sum = totalVal us := by
  rw [totalVal_eq]
  induction us with
  | nil => rfl
  | cons u us ih =>
    rw [List.filter_cons]
    cases hd : u.isDummy <;> simp [ih, sval, hd]

theorem sum_onLedger (contract : G) (us : List (UTXO (ZMod p) G)) :
    ((us.filter fun u => u.onLedger contract).map sval).sum +
      totalVal (us.filter fun u => u.pk = contract) = totalVal us := by
  simp only [totalVal_eq]
  induction us with
  | nil => rfl
  | cons u us ih =>
    rw [List.filter_cons, List.filter_cons]
    unfold UTXO.onLedger at *
    by_cases hk : u.pk = contract <;> cases hd : u.isDummy <;>
      simp [hk, hd, sval] at ih ⊢ <;> omega

theorem erases_sum {cv : Curve p q G} {hs : Hashes p} {root : ZMod p} {i : CInputs p G}
    (hl : i.tx.inputs.toList.length = i.dels.length) :
    ((i.erases cv hs root).map fun u => sval u.old).sum =
        (if i.signed cv hs root then totalVal i.tx.inputs.toList else 0) ∧
      ((i.erases cv hs root).map fun u => sval u.new).sum = 0 := by
  rw [erases_eq]
  constructor
  · rw [updsOf_map _ _ hl _ _ _ (fun o _ => sval o)]
    cases i.signed cv hs root with
    | false => simp
    | true => simpa using sum_filter_sval i.tx.inputs.toList
  · rw [updsOf_map _ _ hl _ _ _ (fun _ n => sval n)]
    simp [sval, UTXO.dummy]

theorem inserts_sum {P : Params p G} {cv : Curve p q G} {root : ZMod p} {i : CInputs p G}
    (hl : i.tx.outputs.toList.length = i.adds.length) :
    ((i.inserts P cv root).map fun u => sval u.old).sum = 0 ∧
      ((i.inserts P cv root).map fun u => sval u.new).sum +
        (if i.authorised P cv root then i.withdrawn P else 0) =
        (if i.authorised P cv root then totalVal i.tx.outputs.toList else 0) := by
  rw [inserts_eq]
  constructor
  · rw [updsOf_map _ _ hl _ _ _ (fun o _ => sval o)]
    simp [sval, UTXO.dummy]
  · rw [updsOf_map _ _ hl _ _ _ (fun _ n => sval n)]
    cases i.authorised P cv root with
    | false => simp
    | true => simpa [CInputs.withdrawn] using sum_onLedger P.contract i.tx.outputs.toList

/-- Value equation of one step, for any amounts. -/
theorem step_value {P : Params p G} {cv : Curve p q G} {root : ZMod p} {i : CInputs p G}
    (hsh : Shape q i) {c : Nat → UTXO (ZMod p) G}
    (hl : Legal c (i.erases cv P.hs root ++ i.inserts P cv root)) :
    valueOf (applied c (i.erases cv P.hs root ++ i.inserts P cv root)) UTXO_CAP +
        (if i.signed cv P.hs root then totalVal i.tx.inputs.toList else 0) +
        (if i.authorised P cv root then i.withdrawn P else 0) =
      valueOf c UTXO_CAP + (if i.authorised P cv root then totalVal i.tx.outputs.toList else 0) := by
  have hidx : ∀ u ∈ i.erases cv P.hs root ++ i.inserts P cv root, u.idx < UTXO_CAP := by
    intro u hu
    exact ledgerUpds_idx (P := P) (cv := cv) (root := root) (is := [i]) (by rw [ledgerUpds_one]; exact hu)
  have e1 := valueOf_applied _ UTXO_CAP hidx hl
  rw [List.map_append, List.map_append, List.sum_append, List.sum_append] at e1
  obtain ⟨a1, a2⟩ := erases_sum (cv := cv) (hs := P.hs) (root := root) hsh.dels.1
  obtain ⟨b1, b2⟩ := inserts_sum (P := P) (cv := cv) (root := root) hsh.adds.1
  omega

theorem totalVal_bound (us : List (UTXO (ZMod p) G)) (hlen : us.length ≤ 4)
    (hu : ∀ u ∈ us, u.isDummy = false → u.amount.val < 2 ^ 64) : totalVal us < 2 ^ 67 := by
  by_cases hne : us = []
  · subst hne; simp [totalVal]
  · have := totalVal_lt us (2 ^ 64) (by decide) hne hu
    refine lt_of_lt_of_le this ?_
    calc _ ≤ 4 * 2 ^ 64 := Nat.mul_le_mul_right _ hlen
      _ ≤ 2 ^ 67 := by decide

/-- All old leaves of a legal list of updates, none of which is created by an earlier one, are in the
initial contents. -/
theorem legal_erases {cv : Curve p q G} {hs : Hashes p} {root : ZMod p} {i : CInputs p G}
    {c : Nat → UTXO (ZMod p) G} (hl : Legal c (i.erases cv hs root)) :
    ∀ u ∈ i.erases cv hs root, ∃ j, c j = u.old := by
  have key : ∀ (us : List (Upd (UTXO (ZMod p) G) (ZMod p))) (c : Nat → UTXO (ZMod p) G), Legal c us →
      (∀ u ∈ us, u.new = UTXO.dummy ∧ u.old.isDummy = false) → ∀ u ∈ us, ∃ j, c j = u.old := by
    intro us
    induction us with
    | nil => simp
    | cons v us ih =>
      intro c hl hd u hu
      obtain ⟨h1, h2⟩ := (legal_cons c v us).1 hl
      rcases List.mem_cons.1 hu with rfl | hu
      · exact ⟨_, h1⟩
      · obtain ⟨j, hj⟩ := ih _ h2 (fun w hw => hd w (by simp [hw])) u hu
        have hnd := (hd u (by simp [hu])).2
        simp only [write] at hj
        split at hj
        · rw [(hd v (by simp)).1] at hj
          rw [← hj] at hnd; simp [UTXO.dummy] at hnd
        · exact ⟨j, hj⟩
  refine key _ c hl ?_
  intro u hu
  obtain ⟨_, v, _, hs', ho, hn⟩ := mem_updsOf (erases_eq cv hs root i ▸ hu)
  simp only [Bool.and_eq_true, Bool.not_eq_true'] at hs'
  exact ⟨hn, by rw [ho]; exact hs'.2⟩

/-- Real inputs of a signed transaction are erased, so they were in the ledger. -/
theorem input_in_ledger {cv : Curve p q G} {hs : Hashes p} {root : ZMod p} {i : CInputs p G}
    (hsh : Shape q i) (hsig : i.signed cv hs root = true) {c : Nat → UTXO (ZMod p) G}
    (hl : Legal c (i.erases cv hs root)) {u : UTXO (ZMod p) G} (hu : u ∈ i.tx.inputs.toList)
    (hd : u.isDummy = false) : ∃ j, c j = u := by
  have hm : u ∈ (i.erases cv hs root).map (fun x => x.old) := by
    rw [erases_eq, updsOf_map _ _ hsh.dels.1 _ _ _ (fun o _ => o)]
    simp [hu, hsig, hd]
  obtain ⟨x, hx, rfl⟩ := List.mem_map.1 hm
  exact legal_erases hl x hx

theorem healthy_applied {P : Params p G} {cv : Curve p q G} {root : ZMod p} {is : List (CInputs p G)}
    (hu : ∀ i ∈ is, ∀ u ∈ i.tx.outputs.toList, u.amount.val < 2 ^ 64) {c : Nat → UTXO (ZMod p) G}
    (hc : Healthy P.contract c) : Healthy P.contract (applied c (ledgerUpds P cv root is)) := by
  intro j hj
  rcases last_write (ledgerUpds P cv root is) c j with h | ⟨x, hx, _, h⟩
  · rw [h] at hj ⊢; exact hc j hj
  · rw [h] at hj ⊢
    rcases mem_ledgerUpds hx with ⟨i, hi, _, _, _, hn⟩ | ⟨i, hi, _, hm, ho, _⟩
    · rw [hn] at hj; simp [UTXO.dummy] at hj
    · refine ⟨hu i hi _ hm, ?_⟩
      simp only [UTXO.onLedger, Bool.and_eq_true, decide_eq_true_eq] at ho
      exact ho.2

theorem depositTotal_cons (P : Params p G) (i : CInputs p G) (is : List (CInputs p G)) :
    depositTotal P (i :: is) = (if i.senderPk = P.contract then totalVal i.tx.outputs.toList else 0) +
      depositTotal P is := by
  unfold depositTotal
  rw [depositList_cons, List.map_append, List.sum_append]
  congr 1
  simp only [depositList, List.flatMap_cons, List.flatMap_nil, List.append_nil]
  split
  · rw [List.map_map, ← sum_filter_sval]
    congr 1
    apply List.map_congr_left
    intro u hu
    have := (List.mem_filter.1 hu).2
    simp only [Bool.not_eq_true'] at this
    simp [sval, this]
  · rfl

theorem authorisedWithdrawals_cons (P : Params p G) (cv : Curve p q G) (root : ZMod p) (i : CInputs p G)
    (is : List (CInputs p G)) :
    authorisedWithdrawals P cv root (i :: is) =
      (if i.authorised P cv root then i.withdrawn P else 0) + authorisedWithdrawals P cv root is := by
  unfold authorisedWithdrawals
  rw [List.filter_cons]
  cases i.authorised P cv root <;> simp

theorem cast_eq_of_lt {a b : Nat} (h : Sizes p q) (ha : a < 2 ^ 67) (hb : b < 2 ^ 67)
    (e : (a : ZMod p) = b) : a = b :=
  natCast_inj_of_lt (lt_of_lt_of_le ha h.large) (lt_of_lt_of_le hb h.large) e

/-- Conservation of value along a legal full-mode run. -/
theorem run_value (h : Sizes p q) {P : Params p G} {cv : Curve p q G} {root : ZMod p}
    (is : List (CInputs p G)) (hsh : ∀ i ∈ is, Shape q i)
    (hown : ∀ i ∈ is, OwnedBy i.senderPk i.tx.inputs.toList)
    (hsum : ∀ i ∈ is, ((totalVal i.tx.inputs.toList : Nat) : ZMod p) = (totalVal i.tx.outputs.toList : Nat))
    (hu : ∀ i ∈ is, ∀ u ∈ i.tx.outputs.toList, u.amount.val < 2 ^ 64) {c : Nat → UTXO (ZMod p) G}
    (hc : Healthy P.contract c) (hl : Legal c (ledgerUpds P cv root is)) :
    valueOf (applied c (ledgerUpds P cv root is)) UTXO_CAP + authorisedWithdrawals P cv root is =
      valueOf c UTXO_CAP + depositTotal P is := by
  induction is generalizing c with
  | nil => simp [ledgerUpds, applied, authorisedWithdrawals, depositTotal, depositList]
  | cons i is ih =>
    rw [ledgerUpds_cons, legal_append] at hl
    rw [ledgerUpds_cons, applied_append, authorisedWithdrawals_cons, depositTotal_cons]
    have hc1 : Healthy P.contract (applied c (i.erases cv P.hs root ++ i.inserts P cv root)) := by
      have := healthy_applied (cv := cv) (root := root) (is := [i])
        (fun j hj => hu j (by simp at hj; simp [hj])) hc
      rwa [ledgerUpds_one] at this
    have e1 := ih (fun j hj => hsh j (by simp [hj])) (fun j hj => hown j (by simp [hj]))
      (fun j hj => hsum j (by simp [hj])) (fun j hj => hu j (by simp [hj])) hc1 hl.2
    have e2 := step_value (hsh i (by simp)) hl.1
    have ho : totalVal i.tx.outputs.toList < 2 ^ 67 :=
      totalVal_bound _ (by simp) (fun u hu' _ => hu i (by simp) u hu')
    by_cases hs : i.signed cv P.hs root = true
    · have hauth : i.authorised P cv root = true := by simp [CInputs.authorised, hs]
      have hin : ∀ u ∈ i.tx.inputs.toList, u.isDummy = false → u.amount.val < 2 ^ 64 ∧ u.pk ≠ P.contract := by
        intro u hu' hd
        obtain ⟨j, rfl⟩ := input_in_ledger (hsh i (by simp)) hs ((legal_append _ _ _).1 hl.1).1 hu' hd
        exact hc j hd
      have hi : totalVal i.tx.inputs.toList < 2 ^ 67 :=
        totalVal_bound _ (by simp) (fun u hu' hd => (hin u hu' hd).1)
      have heq := cast_eq_of_lt h hi ho (hsum i (by simp))
      by_cases hcon : i.senderPk = P.contract
      · have hz : totalVal i.tx.inputs.toList = 0 := by
          rw [totalVal_eq]
          apply List.sum_eq_zero
          intro x hx
          obtain ⟨u, hu', rfl⟩ := List.mem_map.1 hx
          unfold sval
          cases hd : u.isDummy with
          | true => rfl
          | false =>
            exact absurd ((hown i (by simp) u hu' hd).trans hcon) (hin u hu' hd).2
        simp only [hs, hauth, if_true, hcon] at e2 ⊢
        omega
      · simp only [hs, hauth, if_true, hcon, if_false] at e2 ⊢
        omega
    · by_cases hcon : i.senderPk = P.contract
      · have hauth : i.authorised P cv root = true := by simp [CInputs.authorised, hcon]
        simp only [hs, hauth, if_true, hcon, if_false, Bool.false_eq_true] at e2 ⊢
        omega
      · have hauth : i.authorised P cv root = false := by simp [CInputs.authorised, hcon, hs]
        simp only [hs, hauth, hcon, if_false] at e2 ⊢
        simp at e2 ⊢
        omega


/-- Conservation in the field along any legal run, in any mode. -/
theorem run_value_field {P : Params p G} {cv : Curve p q G} {root : ZMod p}
    (is : List (CInputs p G)) (hsh : ∀ i ∈ is, Shape q i)
    (hsum : ∀ i ∈ is, ((totalVal i.tx.inputs.toList : Nat) : ZMod p) = (totalVal i.tx.outputs.toList : Nat))
    {c : Nat → UTXO (ZMod p) G} (hl : Legal c (ledgerUpds P cv root is)) :
    ((valueOf (applied c (ledgerUpds P cv root is)) UTXO_CAP + authorisedWithdrawals P cv root is : Nat) :
        ZMod p) = (valueOf c UTXO_CAP + unsignedMint P cv root is : Nat) := by
  induction is generalizing c with
  | nil => rfl
  | cons i is ih =>
    rw [ledgerUpds_cons] at hl ⊢
    obtain ⟨l1, l2⟩ := (legal_append _ _ _).1 hl
    have h1 := step_value (hsh i (by simp)) l1
    have h2 := ih (fun j hj => hsh j (by simp [hj])) (fun j hj => hsum j (by simp [hj])) l2
    have h3 := hsum i (by simp)
    rw [applied_append, authorisedWithdrawals_cons]
    have hm : unsignedMint P cv root (i :: is) =
        (if decide (i.senderPk = P.contract) && !i.signed cv P.hs root then totalVal i.tx.outputs.toList
          else 0) + unsignedMint P cv root is := by
      unfold unsignedMint
      rw [List.filter_cons]
      split <;> simp
    rw [hm]
    have h1' := congrArg (fun n : Nat => (n : ZMod p)) h1
    have ha : i.authorised P cv root = (i.signed cv P.hs root || decide (i.senderPk = P.contract)) := rfl
    push_cast at h1' h2 ⊢
    rw [ha] at h1' ⊢
    rcases hs : i.signed cv P.hs root <;> rcases hk : decide (i.senderPk = P.contract) <;>
      simp only [hs, hk, Bool.or_false, Bool.or_true, Bool.and_true, Bool.and_false, Bool.not_true,
        Bool.not_false, Bool.false_eq_true, if_true, if_false, Nat.cast_zero, add_zero, zero_add] at h1' ⊢
    · linear_combination h2 + h1'
    · linear_combination h2 + h1'
    · linear_combination h2 + h1' - h3
    · linear_combination h2 + h1' - h3

/-- Copies of a UTXO along a legal run. -/
theorem run_copies {P : Params p G} {cv : Curve p q G} {root : ZMod p}
    (is : List (CInputs p G)) (hsh : ∀ i ∈ is, Shape q i)
    {c : Nat → UTXO (ZMod p) G} (hl : Legal c (ledgerUpds P cv root is)) (v : UTXO (ZMod p) G)
    (hv : v ≠ UTXO.dummy) :
    copies (applied c (ledgerUpds P cv root is)) UTXO_CAP v + (spentList P cv root is).count v =
      copies c UTXO_CAP v + (createdList P cv root is).count v := by
  have key := copies_applied (ledgerUpds P cv root is) UTXO_CAP (fun _ m => ledgerUpds_idx m) hl v
  have e1 : ((ledgerUpds P cv root is).map fun u => u.old).count v = (spentList P cv root is).count v := by
    clear hl key
    induction is with
    | nil => rfl
    | cons i is ih =>
      rw [ledgerUpds_cons, List.map_append, List.count_append, List.map_append, List.count_append,
        ih (fun j hj => hsh j (by simp [hj]))]
      have hd := updsOf_map i.tx.inputs.toList i.dels (hsh i (by simp)).dels.1
        (fun u => i.signed cv P.hs root && !u.isDummy) id (fun _ => UTXO.dummy) (fun o _ => o)
      have ha := updsOf_map i.tx.outputs.toList i.adds (hsh i (by simp)).adds.1
        (fun u => i.authorised P cv root && u.onLedger P.contract) (fun _ => UTXO.dummy) id (fun o _ => o)
      rw [erases_eq, hd, inserts_eq, ha]
      have hz : ∀ l : List (UTXO (ZMod p) G),
          (l.map fun _ => (UTXO.dummy : UTXO (ZMod p) G)).count v = 0 := by
        intro l; rw [List.count_eq_zero]; intro hm
        obtain ⟨_, _, e⟩ := List.mem_map.1 hm
        exact hv e.symm
      rw [hz, add_zero]
      simp only [spentList, List.flatMap_cons, List.count_append]
      congr 1
      cases i.signed cv P.hs root <;> simp
  have e2 : ((ledgerUpds P cv root is).map fun u => u.new).count v = (createdList P cv root is).count v := by
    clear hl key e1
    induction is with
    | nil => rfl
    | cons i is ih =>
      rw [ledgerUpds_cons, List.map_append, List.count_append, List.map_append, List.count_append,
        ih (fun j hj => hsh j (by simp [hj]))]
      have hd := updsOf_map i.tx.inputs.toList i.dels (hsh i (by simp)).dels.1
        (fun u => i.signed cv P.hs root && !u.isDummy) id (fun _ => UTXO.dummy) (fun _ n => n)
      have ha := updsOf_map i.tx.outputs.toList i.adds (hsh i (by simp)).adds.1
        (fun u => i.authorised P cv root && u.onLedger P.contract) (fun _ => UTXO.dummy) id (fun _ n => n)
      rw [erases_eq, hd, inserts_eq, ha]
      have hz : ∀ l : List (UTXO (ZMod p) G),
          (l.map fun _ => (UTXO.dummy : UTXO (ZMod p) G)).count v = 0 := by
        intro l; rw [List.count_eq_zero]; intro hm
        obtain ⟨_, _, e⟩ := List.mem_map.1 hm
        exact hv e.symm
      rw [hz, zero_add]
      simp only [createdList, List.flatMap_cons, List.count_append]
      congr 1
      cases i.authorised P cv root <;> simp
  rw [e1, e2] at key
  exact key

end PF.AggC
