import Verif.Proof.Aggregator

/-!
# Runs of the aggregator
-/

set_option linter.unusedSectionVars false

namespace PF.Agg
open PF PF.MT PF.Spec
variable {p q : Nat} {G : Type} [AddCommGroup G] [Module (ZMod q) G] [DecidableEq G]

/-! ## Counting slots -/

theorem copies_succ {A : Type} [DecidableEq A] (c : Nat → UTXO A G) (n : Nat) (u : UTXO A G) :
    copies c (n + 1) u = copies c n u + (if c n = u then 1 else 0) := by
  simp [copies, List.range_succ, List.countP_append, List.countP_cons]

theorem copies_congr {A : Type} [DecidableEq A] {c c' : Nat → UTXO A G} {n : Nat} (u : UTXO A G)
    (h : ∀ i, i < n → c i = c' i) : copies c n u = copies c' n u := by
  induction n with
  | zero => rfl
  | succ n ih => rw [copies_succ, copies_succ, ih (fun i hi => h i (by omega)), h n (by omega)]

theorem copies_write {A : Type} [DecidableEq A] (c : Nat → UTXO A G) (n i : Nat) (v u : UTXO A G)
    (hi : i < n) :
    copies (write c i v) n u + (if c i = u then 1 else 0) = copies c n u + (if v = u then 1 else 0) := by
  induction n with
  | zero => omega
  | succ n ih =>
    rw [copies_succ, copies_succ]
    by_cases e : i = n
    · subst e
      have : write c i v i = v := by simp [write]
      rw [copies_congr (c := write c i v) (c' := c) u (fun j hj => by simp [write, Nat.ne_of_lt hj]), this]
      omega
    · have h1 := ih (by omega)
      have h2 : write c i v n = c n := by simp [write, Ne.symm e]
      rw [h2]; omega

/-- Amount held by one slot. -/
def slotValue (u : UTXO Nat G) : Nat := if u.isDummy then 0 else u.amount

theorem ledgerValue_succ (c : Nat → UTXO Nat G) (n : Nat) :
    ledgerValue c (n + 1) = ledgerValue c n + slotValue (c n) := by
  simp [ledgerValue, totalOf, List.range_succ, slotValue]

theorem ledgerValue_congr {c c' : Nat → UTXO Nat G} {n : Nat} (h : ∀ i, i < n → c i = c' i) :
    ledgerValue c n = ledgerValue c' n := by
  induction n with
  | zero => rfl
  | succ n ih => rw [ledgerValue_succ, ledgerValue_succ, ih (fun i hi => h i (by omega)), h n (by omega)]

theorem ledgerValue_write (c : Nat → UTXO Nat G) (n i : Nat) (v : UTXO Nat G) (hi : i < n) :
    ledgerValue (write c i v) n + slotValue (c i) = ledgerValue c n + slotValue v := by
  induction n with
  | zero => omega
  | succ n ih =>
    rw [ledgerValue_succ, ledgerValue_succ]
    by_cases e : i = n
    · subst e
      rw [ledgerValue_congr (c := write c i v) (c' := c)
        (fun j hj => by simp [write, Nat.ne_of_lt hj])]
      simp only [write, if_true]; omega
    · have := ih (by omega)
      have h2 : write c i v n = c n := by simp [write, Ne.symm e]
      rw [h2]; omega

/-- Real UTXOs of the ledger in a list. -/
def led (rollup : G) (us : List (UTXO Nat G)) : List (UTXO Nat G) := us.filter (·.onLedger rollup)

theorem led_cons_pos {rollup : G} {u : UTXO Nat G} {us : List (UTXO Nat G)} (h : u.onLedger rollup = true) :
    led rollup (u :: us) = u :: led rollup us := by simp [led, h]

theorem led_cons_neg {rollup : G} {u : UTXO Nat G} {us : List (UTXO Nat G)}
    (h : ¬ u.onLedger rollup = true) : led rollup (u :: us) = led rollup us := by simp [led, h]

theorem slotValue_onLedger {rollup : G} {u : UTXO Nat G} (h : u.onLedger rollup = true) :
    slotValue u = u.amount := by
  simp [slotValue, (onLedger_iff.1 h).1]

theorem totalOf_cons_led {rollup : G} {u : UTXO Nat G} (us : List (UTXO Nat G)) (h : u.onLedger rollup = true) :
    totalOf (u :: us) = u.amount + totalOf us := by
  simp [totalOf, (onLedger_iff.1 h).1]

theorem Deleted.copies {cv : Curve p q G} {hs : Hashes p} {rollup : G} {us : List (UTXO Nat G)}
    {ds : List (ZMod p × List (ZMod p))} {c c' : Nat → UTXO Nat G} (h : Deleted cv hs rollup us ds c c')
    (u : UTXO Nat G) (hu : u.isDummy = false) :
    copies c' UTXO_CAP u + (led rollup us).count u = copies c UTXO_CAP u := by
  induction us generalizing ds c with
  | nil => obtain ⟨_, rfl⟩ := h; simp [led]
  | cons v us ih =>
    unfold Deleted at h
    by_cases hv : v.onLedger rollup = true
    · rw [if_pos hv] at h
      obtain ⟨idx, ds', h1, h2, _, h4⟩ := h
      have := ih h4
      have hw := copies_write c UTXO_CAP idx UTXO.dummy u h1
      rw [h2, if_neg (show ¬ UTXO.dummy = u by rintro rfl; simp [UTXO.dummy] at hu)] at hw
      rw [led_cons_pos hv, List.count_cons]
      simp only [beq_iff_eq]
      omega
    · rw [if_neg hv] at h
      obtain ⟨ds', _, h4⟩ := h
      rw [led_cons_neg hv]; exact ih h4

theorem Deleted.value {cv : Curve p q G} {hs : Hashes p} {rollup : G} {us : List (UTXO Nat G)}
    {ds : List (ZMod p × List (ZMod p))} {c c' : Nat → UTXO Nat G} (h : Deleted cv hs rollup us ds c c') :
    ledgerValue c' UTXO_CAP + totalOf (led rollup us) = ledgerValue c UTXO_CAP := by
  induction us generalizing ds c with
  | nil => obtain ⟨_, rfl⟩ := h; simp [led, totalOf]
  | cons v us ih =>
    unfold Deleted at h
    by_cases hv : v.onLedger rollup = true
    · rw [if_pos hv] at h
      obtain ⟨idx, ds', h1, h2, _, h4⟩ := h
      have := ih h4
      have hw := ledgerValue_write c UTXO_CAP idx UTXO.dummy h1
      rw [h2, slotValue_onLedger hv] at hw
      have hd : slotValue (UTXO.dummy : UTXO Nat G) = 0 := rfl
      rw [led_cons_pos hv, totalOf_cons_led _ hv]
      omega
    · rw [if_neg hv] at h
      obtain ⟨ds', _, h4⟩ := h
      rw [led_cons_neg hv]; exact ih h4

theorem Added.copies {cv : Curve p q G} {hs : Hashes p} {rollup : G} {us : List (UTXO Nat G)}
    {ds : List (ZMod p × List (ZMod p))} {n : Nat} {c c' : Nat → UTXO Nat G}
    (h : Added cv hs rollup us ds n c c') (u : UTXO Nat G) (hu : u.isDummy = false) :
    copies c' UTXO_CAP u = copies c UTXO_CAP u + (led rollup us).count u := by
  induction us generalizing ds c n with
  | nil => obtain ⟨_, rfl⟩ := h; simp [led]
  | cons v us ih =>
    unfold Added at h
    by_cases hv : v.onLedger rollup = true
    · rw [if_pos hv] at h
      obtain ⟨ds', h1, _, h2, h4⟩ := h
      have := ih h4
      have hw := copies_write c UTXO_CAP n v u h1
      rw [h2, if_neg (by rintro rfl; simp [UTXO.dummy] at hu)] at hw
      rw [led_cons_pos hv, List.count_cons]
      simp only [beq_iff_eq]
      omega
    · rw [if_neg hv] at h
      obtain ⟨ds', _, h4⟩ := h
      rw [led_cons_neg hv]; exact ih h4

theorem Added.value {cv : Curve p q G} {hs : Hashes p} {rollup : G} {us : List (UTXO Nat G)}
    {ds : List (ZMod p × List (ZMod p))} {n : Nat} {c c' : Nat → UTXO Nat G}
    (h : Added cv hs rollup us ds n c c') :
    ledgerValue c' UTXO_CAP = ledgerValue c UTXO_CAP + totalOf (led rollup us) := by
  induction us generalizing ds c n with
  | nil => obtain ⟨_, rfl⟩ := h; simp [led, totalOf]
  | cons v us ih =>
    unfold Added at h
    by_cases hv : v.onLedger rollup = true
    · rw [if_pos hv] at h
      obtain ⟨ds', h1, _, h2, h4⟩ := h
      have := ih h4
      have hw := ledgerValue_write c UTXO_CAP n v h1
      have hd : slotValue (UTXO.dummy : UTXO Nat G) = 0 := rfl
      rw [h2, slotValue_onLedger hv, hd] at hw
      rw [led_cons_pos hv, totalOf_cons_led _ hv]
      omega
    · rw [if_neg hv] at h
      obtain ⟨ds', _, h4⟩ := h
      rw [led_cons_neg hv]; exact ih h4

/-! ## The invariant -/

/-- Leaves holding a list from position 0 on, `d` beyond. -/
def listC {α : Type} (d : α) (l : List α) : Nat → α := fun i => l[i]?.getD d

theorem listC_append {α : Type} (d : α) (l : List α) (v : α) :
    listC d (l ++ [v]) = write (listC d l) l.length v := by
  funext i
  simp only [listC, write]
  rcases Nat.lt_trichotomy i l.length with h | h | h
  · rw [List.getElem?_append_left h, if_neg (by omega)]
  · subst h; simp
  · rw [if_neg (by omega), List.getElem?_eq_none (by simp; omega), List.getElem?_eq_none (by omega)]

theorem listC_nil {α : Type} (d : α) : listC d ([] : List α) = fun _ => d := by
  funext i; simp [listC]

structure Inv (cv : Curve p q G) (hs : Hashes p) (s : State p q G) (c : Nat → UTXO Nat G) (sc : Nat → G) :
    Prop where
  holds : Holds cv hs s.ledger c
  nextCap : s.ledger.next ≤ UTXO_CAP
  tx : Rep (txTreeCfg cv hs) s.txTree (listC Tx.default s.transactions)
  txCap : s.transactions.length ≤ TX_CAP
  proofsLen : s.txProofs.length = s.transactions.length
  proofs : ∀ i, i < s.transactions.length →
    s.txProofs[i]? = some (sibsOf (txTreeCfg cv hs) (listC Tx.default (s.transactions.take i)) i)
  signer : Rep (signerTreeCfg cv hs) s.signerTree sc
  signerCap : s.signers.length ≤ TX_CAP

theorem holds_blank (cv : Curve p q G) (hs : Hashes p) :
    Holds cv hs ⟨[], blankTree (utxoTreeCfg cv hs), 0⟩ (fun _ => UTXO.dummy) := by
  refine ⟨blankTree_rep _, fun _ _ => rfl, ?_, fun u => ?_, fun u _ => rfl, fun _ _ => rfl⟩
  · intro u hu i
    simp only [HMap.get, Option.getD_none, List.not_mem_nil, false_iff]
    rintro rfl; simp [UTXO.dummy] at hu
  · simp [HMap.get]

theorem inv_new (cv : Curve p q G) (hs : Hashes p) :
    Inv cv hs (new q cv hs) (fun _ => UTXO.dummy) (fun _ => 0) := by
  refine ⟨holds_blank cv hs, Nat.zero_le _, ?_, Nat.zero_le _, rfl, fun i hi => ?_, blankTree_rep _,
    Nat.zero_le _⟩
  · rw [show (new q cv hs).transactions = [] from rfl, listC_nil]; exact blankTree_rep _
  · exact absurd hi (Nat.not_lt_zero _)

theorem inv_reset {cv : Curve p q G} {hs : Hashes p} {s : State p q G} {c : Nat → UTXO Nat G}
    {sc : Nat → G} (h : Inv cv hs s c sc) : Inv cv hs (reset cv hs s) c sc := by
  refine ⟨h.holds, h.nextCap, ?_, Nat.zero_le _, rfl, fun i hi => ?_, h.signer, Nat.zero_le _⟩
  · rw [show (reset cv hs s).transactions = [] from rfl, listC_nil]; exact blankTree_rep _
  · exact absurd hi (Nat.not_lt_zero _)

/-! ## process_transactions -/

/-- State after appending one accepted transaction. -/
theorem processTx_ok {b : Build} {cv : Curve p q G} {hs : Hashes p} {s : State p q G}
    {c : Nat → UTXO Nat G} {sc : Nat → G} (h : Inv cv hs s c sc) (sender : G) (tx : Tx Nat G)
    (hcap : s.transactions.length < TX_CAP) (hv : tx.isValid b (some sender) = .ok ()) :
    ∃ t pr, processTx b cv hs sender tx s =
        ({ s with txTree := t, txProofs := s.txProofs ++ [pr],
                  transactions := s.transactions ++ [tx] }, .ok ()) ∧
      Inv cv hs { s with txTree := t, txProofs := s.txProofs ++ [pr],
                         transactions := s.transactions ++ [tx] } c sc := by
  obtain ⟨t, ht1, ht2⟩ := updateAndProve_sibs h.tx (ε := Unit) s.transactions.length tx
    (by rw [tx_cap]; omega)
  refine ⟨t, sibsOf (txTreeCfg cv hs) (listC Tx.default s.transactions) s.transactions.length, ?_, ?_⟩
  · unfold processTx
    rw [hv]
    simp only
    rw [onOk_of_ok ht1]
  · refine ⟨h.holds, h.nextCap, ?_, by simp; omega, by simp [h.proofsLen], ?_, h.signer, h.signerCap⟩
    · simp only; rw [listC_append]; exact ht2
    · intro i hi
      simp only [List.length_append, List.length_cons, List.length_nil, Nat.zero_add] at hi
      by_cases e : i = s.transactions.length
      · subst e
        simp only [List.take_left']
        rw [List.getElem?_append_right (by rw [h.proofsLen]), h.proofsLen, Nat.sub_self]
        simp
      · have hi' : i < s.transactions.length := by omega
        simp only
        rw [List.getElem?_append_left (by rw [h.proofsLen]; exact hi'), h.proofs i hi',
          List.take_append_of_le_length (by omega)]

/-- Complete description of `process_transactions`. -/
theorem processTransactions_spec {b : Build} {cv : Curve p q G} {hs : Hashes p}
    (l : List (G × Tx Nat G)) (s : State p q G) {c : Nat → UTXO Nat G} {sc : Nat → G}
    (h : Inv cv hs s c sc) (hcap : s.transactions.length + l.length ≤ TX_CAP) :
    ∃ done rest t prs,
      l = done ++ rest ∧ (∀ x ∈ done, x.2.isValid b (some x.1) = .ok ()) ∧
      Inv cv hs { s with txTree := t, txProofs := s.txProofs ++ prs,
                         transactions := s.transactions ++ done.map (·.2) } c sc ∧
      ∃ o, processTransactions b cv hs l s =
        ({ s with txTree := t, txProofs := s.txProofs ++ prs,
                  transactions := s.transactions ++ done.map (·.2) }, o) ∧
      ((rest = [] ∧ o = .ok ()) ∨
        ∃ x rest', rest = x :: rest' ∧ x.2.isValid b (some x.1) ≠ .ok () ∧
          o = x.2.isValid b (some x.1)) := by
  induction l generalizing s with
  | nil =>
    refine ⟨[], [], s.txTree, [], rfl, by simp, by simpa using h, .ok (), ?_, Or.inl ⟨rfl, rfl⟩⟩
    simp [processTransactions, SM.pure]
  | cons x l ih =>
    simp only [List.length_cons] at hcap
    unfold processTransactions
    rcases hv : x.2.isValid b (some x.1) with u | e | _
    · obtain ⟨t, pr, h1, h2⟩ := processTx_ok h x.1 x.2 (by omega) hv
      obtain ⟨done, rest, t', prs, e1, e2, e3, o, e4, e5⟩ := ih _ h2 (by simp; omega)
      simp only [List.append_assoc, List.cons_append, List.nil_append] at e3 e4
      refine ⟨x :: done, rest, t', pr :: prs, by rw [e1]; rfl, ?_, e3, o, ?_, e5⟩
      · intro y hy
        rcases List.mem_cons.1 hy with rfl | hy
        · exact hv
        · exact e2 y hy
      · rw [SM.bind_of_ok h1, e4]; rfl
    · refine ⟨[], x :: l, s.txTree, [], rfl, by simp, by simpa using h, .err e, ?_,
        Or.inr ⟨x, l, rfl, by rw [hv]; simp, hv.symm⟩⟩
      rw [SM.bind_of_err (s' := s) (e := e) (by unfold processTx; rw [hv])]
      simp
    · refine ⟨[], x :: l, s.txTree, [], rfl, by simp, by simpa using h, .panic, ?_,
        Or.inr ⟨x, l, rfl, by rw [hv]; simp, hv.symm⟩⟩
      rw [SM.bind_of_panic (s' := s) (by unfold processTx; rw [hv])]
      simp

/-! ## process_signatures -/

theorem addSigner_spec {cv : Curve p q G} {hs : Hashes p} {s : State p q G} {sc : Nat → G}
    (h : Rep (signerTreeCfg cv hs) s.signerTree sc) (pk : G) (hcap : s.signers.length < TX_CAP) :
    ∃ st, addSigner cv hs pk s =
        ({ s with signerTree := st, signers := s.signers ++ [some pk] },
          .ok (sibsOf (signerTreeCfg cv hs) sc s.signers.length)) ∧
      Rep (signerTreeCfg cv hs) st (write sc s.signers.length pk) := by
  obtain ⟨st, h1, h2⟩ := updateAndProve_sibs h (ε := Unit) s.signers.length pk
    (by rw [signer_cap]; omega)
  refine ⟨st, ?_, h2⟩
  unfold addSigner
  rw [onOk_of_ok h1]

/-- Circuit inputs recorded for a rejected pair. -/
def rejInputs (cv : Curve p q G) (hs : Hashes p) (tx : Tx Nat G) (tp : List (ZMod p)) (pk : G)
    (sig : Option (ZMod q × ZMod q)) : Inputs p q G :=
  { tx := tx, txProof := tp, dels := List.replicate TX_IO_SIZE (noUpdate cv hs),
    adds := List.replicate TX_IO_SIZE (noUpdate cv hs),
    signerProof := defaultTwoPaths 0 (signerTreeCfg cv hs), senderPk := pk, signature := sig.getD (0, 0) }

/-- Circuit inputs recorded for an accepted pair. -/
def accInputs (cv : Curve p q G) (hs : Hashes p) (tx : Tx Nat G) (tp : List (ZMod p)) (pk : G)
    (sig : Option (ZMod q × ZMod q)) (dels adds : List (ZMod p × List (ZMod p))) (sc : Nat → G) (n : Nat) :
    Inputs p q G :=
  { tx := tx, txProof := tp, dels := dels, adds := adds,
    signerProof := sibsOf (signerTreeCfg cv hs) sc n, senderPk := pk, signature := sig.getD (0, 0) }

/-- One successful iteration of `process_signatures` on pair `x` at transaction `i`. -/
inductive Step (b : Build) (cv : Curve p q G) (hs : Hashes p) (rollup : G) (r : ZMod p) (i : Nat)
    (x : G × Option (ZMod q × ZMod q)) (s : State p q G) (c : Nat → UTXO Nat G) (sc : Nat → G) :
    State p q G → (Nat → UTXO Nat G) → (Nat → G) → Prop
  | rej (tx : Tx Nat G) (tp : List (ZMod p)) (ht : s.transactions[i]? = some tx)
      (hp : s.txProofs[i]? = some tp)
      (ha : accepted cv hs rollup r tx x.1 (x.2.getD (0, 0)) = false) :
      Step b cv hs rollup r i x s c sc
        { s with signers := s.signers ++ [none],
                 ivcInputs := s.ivcInputs ++ [rejInputs cv hs tx tp x.1 x.2] } c sc
  | acc (tx : Tx Nat G) (tp : List (ZMod p)) (dels adds : List (ZMod p × List (ZMod p)))
      (l' : Ledger p G) (st : STree (ZMod p)) (c1 c2 : Nat → UTXO Nat G) (w : Nat)
      (ht : s.transactions[i]? = some tx) (hp : s.txProofs[i]? = some tp)
      (ha : accepted cv hs rollup r tx x.1 (x.2.getD (0, 0)) = true)
      (hd : Deleted cv hs rollup tx.inputs.toList dels c c1)
      (hadd : Added cv hs rollup tx.outputs.toList adds s.ledger.next c1 c2)
      (hn : l'.next = s.ledger.next + (tx.creates rollup).length)
      (hw1 : w = tx.withdrawn rollup % U64)
      (hw2 : b = .debug → w = tx.withdrawn rollup) :
      Step b cv hs rollup r i x s c sc
        { s with ledger := l', signerTree := st, signers := s.signers ++ [some x.1],
                 deposits := s.deposits ++ tx.depositsOf rollup x.1,
                 withdrawals := s.withdrawals ++ (if w > 0 then [(x.1, w)] else []),
                 ivcInputs := s.ivcInputs ++ [accInputs cv hs tx tp x.1 x.2 dels adds sc s.signers.length] }
        c2 (write sc s.signers.length x.1)

/-- A failing iteration: the pair is accepted but one of the inputs is not in the ledger. -/
def Fails (cv : Curve p q G) (hs : Hashes p) (rollup : G) (r : ZMod p) (i : Nat)
    (x : G × Option (ZMod q × ZMod q)) (s : State p q G) (c : Nat → UTXO Nat G) (sc : Nat → G)
    (e : AggError) (s' : State p q G) (c' : Nat → UTXO Nat G) (sc' : Nat → G) : Prop :=
  ∃ tx done u rest dels l' st, s.transactions[i]? = some tx ∧
    accepted cv hs rollup r tx x.1 (x.2.getD (0, 0)) = true ∧
    tx.inputs.toList = done ++ u :: rest ∧ Deleted cv hs rollup done dels c c' ∧
    u.onLedger rollup = true ∧ (∀ j, c' j ≠ u) ∧ (e = .utxoNonExisting ∨ e = .utxoError) ∧
    l'.next = s.ledger.next ∧ sc' = write sc s.signers.length x.1 ∧
    s' = { s with ledger := l', signerTree := st, signers := s.signers ++ [some x.1] }

/-- A panicking iteration on an existing transaction: the withdrawal sum overflows (debug build). -/
def Overflows (b : Build) (cv : Curve p q G) (hs : Hashes p) (rollup : G) (r : ZMod p) (i : Nat)
    (x : G × Option (ZMod q × ZMod q)) (s : State p q G) (c : Nat → UTXO Nat G) : Prop :=
  b = .debug ∧ ∃ tx ds c1, s.transactions[i]? = some tx ∧
    accepted cv hs rollup r tx x.1 (x.2.getD (0, 0)) = true ∧
    Deleted cv hs rollup tx.inputs.toList ds c c1 ∧ ¬ tx.withdrawn rollup < U64

theorem recordWithdrawal_eq (pk : G) (w : Nat) (s : State p q G) :
    recordWithdrawal pk w s =
      ({ s with withdrawals := s.withdrawals ++ (if w > 0 then [(pk, w)] else []) }, .ok ()) := by
  unfold recordWithdrawal
  split <;> simp

theorem pushInputs_ok {i : Nat} {s : State p q G} {tp : List (ZMod p)} (h : s.txProofs[i]? = some tp)
    (tx : Tx Nat G) (dels adds : List (ZMod p × List (ZMod p))) (sp : List (ZMod p)) (pk : G)
    (sig : ZMod q × ZMod q) :
    pushInputs i tx dels adds sp pk sig s = ({ s with ivcInputs := s.ivcInputs ++
        [{ tx := tx, txProof := tp, dels := dels, adds := adds, signerProof := sp,
           senderPk := pk, signature := sig }] }, .ok ()) := by
  unfold pushInputs; rw [h]

/-- Complete description of one iteration of `process_signatures`. -/
theorem processOne_spec {b : Build} {cv : Curve p q G} {hs : Hashes p} {rollup : G} {i : Nat}
    {x : G × Option (ZMod q × ZMod q)} {s : State p q G} {c : Nat → UTXO Nat G} {sc : Nat → G}
    (h : Inv cv hs s c sc) {r : ZMod p} (hr : s.txTree.root = some r) (hi : i < s.transactions.length)
    (hsig : s.signers.length < TX_CAP) (hcap : s.ledger.next + TX_IO_SIZE ≤ UTXO_CAP) :
    (∃ s' c' sc', processOne b cv hs rollup i x.1 x.2 s = (s', .ok ()) ∧
      Step b cv hs rollup r i x s c sc s' c' sc' ∧ Inv cv hs s' c' sc') ∨
    (∃ s' c' sc' e, processOne b cv hs rollup i x.1 x.2 s = (s', .err e) ∧
      Fails cv hs rollup r i x s c sc e s' c' sc' ∧ Inv cv hs s' c' sc') ∨
    ((processOne b cv hs rollup i x.1 x.2 s).2 = .panic ∧ Overflows b cv hs rollup r i x s c) := by
  have ht : s.transactions[i]? = some s.transactions[i] := List.getElem?_eq_getElem hi
  have hp := h.proofs i hi
  generalize s.transactions[i] = tx at ht
  generalize sibsOf (txTreeCfg cv hs) (listC Tx.default (s.transactions.take i)) i = tp at hp
  have hunf : processOne b cv hs rollup i x.1 x.2 s =
      if accepted cv hs rollup r tx x.1 (x.2.getD (0, 0)) then
        applyAccepted b cv hs rollup i tx x.1 (x.2.getD (0, 0)) s
      else applyRejected cv hs i tx x.1 (x.2.getD (0, 0)) s := by
    unfold processOne
    rw [ht, hr]
  rw [hunf]
  by_cases ha : accepted cv hs rollup r tx x.1 (x.2.getD (0, 0)) = true
  · rw [if_pos ha]
    obtain ⟨st, k1, k2⟩ := addSigner_spec h.signer x.1 hsig
    unfold applyAccepted
    rw [SM.bind_of_ok k1]
    obtain ⟨l1, c1, done, rest, ds, e1, e2, e3, e4, e5⟩ :=
      deleteInputs_spec (rollup := rollup) tx.inputs.toList s.ledger c h.holds h.nextCap
    rcases e5 with ⟨r1, r2⟩ | ⟨u, us', e, r1, r2, r3, r4, r5⟩
    · have hdel : onLedger (deleteInputs cv hs rollup tx.inputs.toList)
          { s with signerTree := st, signers := s.signers ++ [some x.1] } =
          ({ s with ledger := l1, signerTree := st, signers := s.signers ++ [some x.1] }, .ok ds) := by
        unfold onLedger; simp only [r2]
      rw [SM.bind_of_ok hdel]
      have hlen : (tx.outputs.toList.filter (·.onLedger rollup)).length ≤ TX_IO_SIZE := by
        calc _ ≤ tx.outputs.toList.length := List.length_filter_le _ _
          _ = TX_IO_SIZE := by simp
      rcases addOutputs_spec (b := b) (rollup := rollup) (pk := x.1) tx.outputs.toList 0
          { s with ledger := l1, signerTree := st, signers := s.signers ++ [some x.1] } c1 e1
          (by simp only; omega) with
        ⟨l2, c2, as, w, f1, f2, f3, f4, f5, f6, f7⟩ | ⟨f1, f2, f3⟩
      · left
        rw [SM.bind_of_ok f1]
        simp only
        rw [SM.bind_of_ok (recordWithdrawal_eq x.1 w _)]
        simp only [Nat.zero_add] at f5 f6 f7
        refine ⟨_, c2, write sc s.signers.length x.1, ?_, Step.acc tx tp ds as l2 st c1 c2 w ht hp ha
          ?_ ?_ ?_ ?_ ?_, ?_⟩
        · rw [pushInputs_ok (tp := tp) (by simp only; exact hp)]; rfl
        · rw [r1, List.append_nil] at e3; rw [e3]; exact e4
        · simp only at f4; rw [e2] at f4; exact f4
        · simp only at f2; rw [f2, e2]; rfl
        · exact f7 (by unfold U64; omega)
        · exact f6
        · refine ⟨f3, ?_, h.tx, h.txCap, h.proofsLen, h.proofs, k2, by simp; omega⟩
          simp only at f2 ⊢; rw [f2, e2]; omega
      · right; right
        refine ⟨by rw [SM.bind_of_panic_snd f1], f2, tx, ds, c1, ht, ha, ?_, ?_⟩
        · rw [r1, List.append_nil] at e3; rw [e3]; exact e4
        · simpa [paidBack, Tx.withdrawn] using f3
    · right; left
      have hdel : onLedger (deleteInputs cv hs rollup tx.inputs.toList)
          { s with signerTree := st, signers := s.signers ++ [some x.1] } =
          ({ s with ledger := l1, signerTree := st, signers := s.signers ++ [some x.1] }, .err e) := by
        unfold onLedger; simp only [r4]
      rw [SM.bind_of_err hdel]
      refine ⟨_, c1, write sc s.signers.length x.1, e, rfl,
        ⟨tx, done, u, us', ds, l1, st, ht, ha, by rw [e3, r1], e4, r2, r3, r5, e2, rfl, rfl⟩, ?_⟩
      exact ⟨e1, by simp only; rw [e2]; exact h.nextCap, h.tx, h.txCap, h.proofsLen, h.proofs, k2,
        by simp; omega⟩
  · left
    rw [if_neg ha]
    refine ⟨_, c, sc, ?_, Step.rej tx tp ht hp (by simpa using ha), ?_⟩
    · unfold applyRejected
      rw [pushInputs_ok (s := { s with signers := s.signers ++ [none] }) hp]
      rfl
    · exact ⟨h.holds, h.nextCap, h.tx, h.txCap, h.proofsLen, h.proofs, h.signer, by simp; omega⟩

/-- Successful iterations of `process_signatures` from transaction `i` on. -/
inductive Runs (b : Build) (cv : Curve p q G) (hs : Hashes p) (rollup : G) (r : ZMod p) :
    Nat → List (G × Option (ZMod q × ZMod q)) → State p q G → (Nat → UTXO Nat G) → (Nat → G) →
      State p q G → (Nat → UTXO Nat G) → (Nat → G) → Prop
  | nil (i : Nat) (s : State p q G) (c : Nat → UTXO Nat G) (sc : Nat → G) :
      Runs b cv hs rollup r i [] s c sc s c sc
  | cons (i : Nat) (x : G × Option (ZMod q × ZMod q)) (l : List (G × Option (ZMod q × ZMod q)))
      (s s1 s2 : State p q G) (c c1 c2 : Nat → UTXO Nat G) (sc sc1 sc2 : Nat → G)
      (h1 : Step b cv hs rollup r i x s c sc s1 c1 sc1)
      (h2 : Runs b cv hs rollup r (i + 1) l s1 c1 sc1 s2 c2 sc2) :
      Runs b cv hs rollup r i (x :: l) s c sc s2 c2 sc2

theorem Step.frame {b : Build} {cv : Curve p q G} {hs : Hashes p} {rollup : G} {r : ZMod p} {i : Nat}
    {x : G × Option (ZMod q × ZMod q)} {s s' : State p q G} {c c' : Nat → UTXO Nat G} {sc sc' : Nat → G}
    (h : Step b cv hs rollup r i x s c sc s' c' sc') :
    s'.transactions = s.transactions ∧ s'.txTree = s.txTree ∧ s'.txProofs = s.txProofs ∧
    s'.height = s.height ∧ s'.signers.length = s.signers.length + 1 ∧
    s.ledger.next ≤ s'.ledger.next ∧ s'.ledger.next ≤ s.ledger.next + TX_IO_SIZE := by
  cases h with
  | rej => exact ⟨rfl, rfl, rfl, rfl, by simp, by simp, by simp⟩
  | acc tx tp dels adds l' st c1 c2 w ht hp ha hd hadd hn hw1 hw2 =>
    refine ⟨rfl, rfl, rfl, rfl, by simp, by simp [hn], ?_⟩
    simp only [hn]
    have : (tx.creates rollup).length ≤ TX_IO_SIZE := by
      calc _ ≤ tx.outputs.toList.length := List.length_filter_le _ _
        _ = TX_IO_SIZE := by simp
    omega

theorem processFrom_cons (b : Build) (cv : Curve p q G) (hs : Hashes p) (rollup : G) (i : Nat)
    (x : G × Option (ZMod q × ZMod q)) (l : List (G × Option (ZMod q × ZMod q))) :
    processFrom b cv hs rollup i (x :: l) = SM.bind (processOne b cv hs rollup i x.1 x.2)
      fun _ => processFrom b cv hs rollup (i + 1) l := rfl

/-- Complete description of `process_signatures`. -/
theorem processFrom_spec {b : Build} {cv : Curve p q G} {hs : Hashes p} {rollup : G} {r : ZMod p}
    (l : List (G × Option (ZMod q × ZMod q))) (i : Nat) (s : State p q G) {c : Nat → UTXO Nat G}
    {sc : Nat → G} (h : Inv cv hs s c sc) (hr : s.txTree.root = some r)
    (hsig : s.signers.length + l.length ≤ TX_CAP)
    (hcap : s.ledger.next + TX_IO_SIZE * l.length ≤ UTXO_CAP) :
    (∃ s' c' sc', processFrom b cv hs rollup i l s = (s', .ok ()) ∧
      i + l.length ≤ max i s.transactions.length ∧
      Runs b cv hs rollup r i l s c sc s' c' sc' ∧ Inv cv hs s' c' sc') ∨
    (∃ s' c' sc' e, processFrom b cv hs rollup i l s = (s', .err e) ∧
      (∃ done x rest s1 c1 sc1, l = done ++ x :: rest ∧ i + done.length < s.transactions.length ∧
        processFrom b cv hs rollup i done s = (s1, .ok ()) ∧ Inv cv hs s1 c1 sc1 ∧
        Runs b cv hs rollup r i done s c sc s1 c1 sc1 ∧
        Fails cv hs rollup r (i + done.length) x s1 c1 sc1 e s' c' sc') ∧ Inv cv hs s' c' sc') ∨
    ((processFrom b cv hs rollup i l s).2 = .panic ∧
      ∃ done x rest s1 c1 sc1, l = done ++ x :: rest ∧ processFrom b cv hs rollup i done s = (s1, .ok ()) ∧
        Runs b cv hs rollup r i done s c sc s1 c1 sc1 ∧
        Inv cv hs s1 c1 sc1 ∧ (s.transactions.length ≤ i + done.length ∨
          Overflows b cv hs rollup r (i + done.length) x s1 c1)) := by
  induction l generalizing i s c sc with
  | nil => exact Or.inl ⟨s, c, sc, rfl, by simp, Runs.nil i s c sc, h⟩
  | cons x l ih =>
    simp only [List.length_cons] at hsig hcap
    have h4 : TX_IO_SIZE = 4 := rfl
    rw [processFrom_cons]
    by_cases hi : i < s.transactions.length
    · rcases processOne_spec (b := b) (rollup := rollup) (x := x) h hr hi (by omega)
        (by rw [h4] at hcap ⊢; omega) with
        ⟨s1, c1, sc1, k1, k2, k3⟩ | ⟨s1, c1, sc1, e, k1, k2, k3⟩ | ⟨k1, k2⟩
      · rw [SM.bind_of_ok k1]
        obtain ⟨f1, f2, f3, f4, f5, f6, f7⟩ := k2.frame
        rcases ih (i + 1) s1 k3 (by rw [f2]; exact hr) (by omega) (by rw [h4] at hcap f7 ⊢; omega) with
          ⟨s', c', sc', e1, e2, e3, e4⟩ | ⟨s', c', sc', e, e1, ⟨dn, y, rs, s2, c2, sc2, e2, e3, e3a, e3b, e4, e5⟩, e6⟩
          | ⟨e1, dn, y, rs, s2, c2, sc2, e2, e0, e3, e4, e5⟩
        · left
          refine ⟨s', c', sc', e1, ?_, Runs.cons _ _ _ _ _ _ _ _ _ _ _ _ k2 e3, e4⟩
          simp only [List.length_cons]
          rw [f1] at e2
          omega
        · right; left
          refine ⟨s', c', sc', e, e1, ⟨x :: dn, y, rs, s2, c2, sc2, by rw [e2]; rfl, ?_, ?_, e3b,
            Runs.cons _ _ _ _ _ _ _ _ _ _ _ _ k2 e4, ?_⟩, e6⟩
          · rw [f1] at e3; simp only [List.length_cons]; omega
          · rw [processFrom_cons, SM.bind_of_ok k1]; exact e3a
          · simp only [List.length_cons]
            rw [show i + (dn.length + 1) = i + 1 + dn.length by omega]; exact e5
        · right; right
          refine ⟨e1, x :: dn, y, rs, s2, c2, sc2, by rw [e2]; rfl, ?_,
            Runs.cons _ _ _ _ _ _ _ _ _ _ _ _ k2 e3, e4, ?_⟩
          · rw [processFrom_cons, SM.bind_of_ok k1]; exact e0
          simp only [List.length_cons]
          rw [show i + (dn.length + 1) = i + 1 + dn.length by omega]
          rw [f1] at e5; exact e5
      · right; left
        exact ⟨s1, c1, sc1, e, by rw [SM.bind_of_err k1], ⟨[], x, l, s, c, sc, rfl, by simpa using hi,
          rfl, h, Runs.nil _ _ _ _, by simpa using k2⟩, k3⟩
      · right; right
        exact ⟨by rw [SM.bind_of_panic_snd k1], [], x, l, s, c, sc, rfl, rfl, Runs.nil _ _ _ _, h,
          Or.inr (by simpa using k2)⟩
    · right; right
      have hn : s.transactions[i]? = none := List.getElem?_eq_none (by omega)
      refine ⟨?_, [], x, l, s, c, sc, rfl, rfl, Runs.nil _ _ _ _, h, Or.inl (by simp; omega)⟩
      have : (processOne b cv hs rollup i x.1 x.2 s).2 = .panic := by
        unfold processOne; rw [hn]
      rw [SM.bind_of_panic_snd this]

end PF.Agg
