import Verif.Proof.AggregatorDemo

/-!
# Conservation of value by the aggregator
-/

set_option linter.unusedSectionVars false

namespace PF.Agg
open PF PF.MT PF.Spec
variable {p q : Nat} {G : Type} [AddCommGroup G] [Module (ZMod q) G] [DecidableEq G]
variable {b : Build} {cv : Curve p q G} {hs : Hashes p} {rollup : G}

theorem totalOf_split (rollup : G) (us : List (UTXO Nat G)) :
    totalOf us = totalOf (us.filter (·.onLedger rollup)) + totalOf (us.filter (fun u => u.pk = rollup)) := by
  induction us with
  | nil => rfl
  | cons u us ih =>
    rw [totalOf_cons, ih]
    by_cases hd : u.isDummy = true
    · by_cases hr : u.pk = rollup
      · simp [UTXO.onLedger, hd, hr, totalOf_cons]
      · simp [UTXO.onLedger, hd, hr]
    · by_cases hr : u.pk = rollup
      · simp [UTXO.onLedger, hd, hr, totalOf_cons]; omega
      · simp [UTXO.onLedger, hd, hr, totalOf_cons]; omega

theorem totalAmount_real (us : List (UTXO Nat G)) :
    totalAmount ((us.filter (fun u => !u.isDummy)).map (fun u => (u.pk, u.amount))) = totalOf us := by
  induction us with
  | nil => rfl
  | cons u us ih =>
    rw [totalOf_cons, ← ih]
    by_cases hd : u.isDummy = true
    · simp [hd]
    · simp [hd, totalAmount]

theorem filter_owned_other {pk rollup : G} (h : pk ≠ rollup) {us : List (UTXO Nat G)} (ho : OwnedBy pk us) :
    totalOf (us.filter (fun u => u.pk = rollup)) = 0 := by
  induction us with
  | nil => rfl
  | cons u us ih =>
    have h1 := ih (fun v hv => ho v (by simp [hv]))
    by_cases hr : u.pk = rollup
    · rw [List.filter_cons_of_pos (by simpa using hr), totalOf_cons, h1]
      by_cases hd : u.isDummy = true
      · simp [hd]
      · exfalso; apply h; rw [← hr]; exact (ho u (by simp) (by simpa using hd)).symm
    · rw [List.filter_cons_of_neg (by simpa using hr), h1]

theorem filter_owned_rollup {rollup : G} {us : List (UTXO Nat G)} (ho : OwnedBy rollup us) :
    us.filter (·.onLedger rollup) = [] := by
  rw [List.filter_eq_nil_iff]
  intro u hu h
  obtain ⟨h1, h2⟩ := onLedger_iff.1 h
  exact h2 (ho u hu h1)

/-- One authorised transaction: created plus withdrawn equals spent plus deposited. -/
theorem tx_balance {tx : Tx Nat G} {pk : G} (ho : OwnedBy pk tx.inputs.toList)
    (hb : totalOf tx.inputs.toList = totalOf tx.outputs.toList) :
    totalOf (tx.creates rollup) + tx.withdrawn rollup =
      totalOf (tx.spends rollup) + totalAmount (tx.depositsOf rollup pk) := by
  have h1 := totalOf_split rollup tx.inputs.toList
  have h2 := totalOf_split rollup tx.outputs.toList
  unfold Tx.creates Tx.spends Tx.withdrawn Tx.depositsOf
  by_cases hr : pk = rollup
  · subst hr
    rw [if_pos rfl, totalAmount_real, filter_owned_rollup ho, ← h2]
    simp [totalOf]
  · rw [if_neg hr]
    have h3 := filter_owned_other hr ho
    simp only [totalAmount, List.map_nil, List.sum_nil]
    omega

theorem totalAmount_append (l l' : List (G × Nat)) :
    totalAmount (l ++ l') = totalAmount l + totalAmount l' := by simp [totalAmount]

theorem totalOf_append (l l' : List (UTXO Nat G)) : totalOf (l ++ l') = totalOf l + totalOf l' := by
  simp [totalOf]

theorem totalAmount_withdrawalsOf (tx : Tx Nat G) (pk : G) :
    totalAmount (tx.withdrawalsOf rollup pk) = tx.withdrawn rollup := by
  unfold Tx.withdrawalsOf
  split
  · next h => simp [totalAmount, h]
  · simp [totalAmount]

theorem approved_balance (A : List (Tx Nat G × G))
    (h : ∀ a ∈ A, OwnedBy a.2 a.1.inputs.toList ∧
      totalOf a.1.inputs.toList = totalOf a.1.outputs.toList) :
    totalOf (createdBy rollup A) + totalAmount (withdrawalsBy rollup A) =
      totalOf (spentBy rollup A) + totalAmount (depositsBy rollup A) := by
  induction A with
  | nil => rfl
  | cons a A ih =>
    have h1 := ih (fun x hx => h x (by simp [hx]))
    have h2 := tx_balance (rollup := rollup) (h a (by simp)).1 (h a (by simp)).2
    simp only [createdBy, withdrawalsBy, spentBy, depositsBy, List.flatMap_cons, totalOf_append,
      totalAmount_append, totalAmount_withdrawalsOf] at h1 h2 ⊢
    omega

/-- Totals of the transaction agree and fit in `u64`. -/
def Balanced (tx : Tx Nat G) : Prop :=
  totalOf tx.inputs.toList = totalOf tx.outputs.toList ∧ totalOf tx.outputs.toList < U64

theorem valid_balanced {tx : Tx Nat G} {sender : G} (h : tx.isValid b (some sender) = .ok ())
    (hb : b = .debug ∨ totalOf tx.inputs.toList < U64 ∧ totalOf tx.outputs.toList < U64) : Balanced tx := by
  refine ⟨(Props.C21_conservation b tx (some sender) h).2 hb, ?_⟩
  rcases hb with rfl | hb
  · rw [Props.C20_is_valid_decision] at h
    split_ifs at h with h1 h2 h3
    · exact h2.2
  · exact hb.2

theorem withdrawn_le (tx : Tx Nat G) : tx.withdrawn rollup ≤ totalOf tx.outputs.toList := by
  have := totalOf_split rollup tx.outputs.toList
  unfold Tx.withdrawn
  omega

theorem mem_approvedTxs {r : ZMod p} {txs : List (Tx Nat G)} {l : List (Pair q G)} {a : Tx Nat G × G}
    (h : a ∈ approvedTxs cv hs rollup r txs l) :
    ∃ x, (a.1, x) ∈ txs.zip l ∧ x.1 = a.2 ∧ Approves cv hs rollup r a.1 x = true := by
  unfold approvedTxs at h
  rw [List.mem_map] at h
  obtain ⟨y, hy, rfl⟩ := h
  rw [List.mem_filter] at hy
  exact ⟨y.2, hy.1, rfl, hy.2⟩

theorem mem_zip_append {α β : Type} {l : List α} {a c : List β} {y : α × β} (h : y ∈ l.zip a) :
    y ∈ l.zip (a ++ c) := by
  induction l generalizing a with
  | nil => simp at h
  | cons x l ih =>
    cases a with
    | nil => simp at h
    | cons z a =>
      simp only [List.zip_cons_cons, List.mem_cons, List.cons_append] at h ⊢
      rcases h with h | h
      · exact Or.inl h
      · exact Or.inr (ih h)

theorem books_spec {s : State p q G} {k : Bool} {d w : Nat} (h : Books b cv hs rollup s k d w) :
    (∃ c sc, Inv cv hs s c sc ∧ ledgerValue c UTXO_CAP + w ≤ d ∧
      (k = true → ledgerValue c UTXO_CAP + w = d)) ∧ ∀ tx ∈ s.transactions, Balanced tx := by
  induction h with
  | new =>
    refine ⟨⟨_, _, inv_new cv hs, ?_, ?_⟩, ?_⟩
    · have : ∀ n, ledgerValue (fun _ => (UTXO.dummy : UTXO Nat G)) n = 0 := by
        intro n
        induction n with
        | zero => rfl
        | succ n ih => rw [ledgerValue_succ, ih]; rfl
      rw [this]
    · intro _
      have : ∀ n, ledgerValue (fun _ => (UTXO.dummy : UTXO Nat G)) n = 0 := by
        intro n
        induction n with
        | zero => rfl
        | succ n ih => rw [ledgerValue_succ, ih]; rfl
      rw [this]
    · intro tx ht
      exact absurd ht (by simp [new])
  | newEpoch h ih =>
    obtain ⟨⟨c, sc, h1, h2, h3⟩, h4⟩ := ih
    exact ⟨⟨c, sc, inv_reset h1, h2, h3⟩, by intro tx ht; exact absurd ht (by simp [reset])⟩
  | @transactions s k d w l h hf hr hb ih =>
    obtain ⟨⟨c, sc, h1, h2, h3⟩, h4⟩ := ih
    obtain ⟨done, rest, t, prs, e1, e2, e3, o, e4, e5⟩ := processTransactions_spec (b := b) l s h1 hf
    rw [e4]
    refine ⟨⟨c, sc, e3, h2, h3⟩, ?_⟩
    intro tx ht
    simp only [List.mem_append, List.mem_map] at ht
    rcases ht with ht | ⟨x, hx, rfl⟩
    · exact h4 tx ht
    · refine valid_balanced (e2 x hx) ?_
      rcases hb with hb | hb
      · exact Or.inl hb
      · exact Or.inr (hb x (by rw [e1]; simp [hx]))
  | @signatures s s' k d w o l nd nw h hf hown hr hnp hd hw ih =>
    obtain ⟨⟨c, sc, h1, h2, h3⟩, h4⟩ := ih
    have hb : b = .debug ∨ ∀ tx ∈ s.transactions, tx.withdrawn rollup < U64 :=
      Or.inr fun tx ht => lt_of_le_of_lt (withdrawn_le tx) (h4 tx ht).2
    rcases o with u | e | _
    · obtain ⟨c', sc', k1, k2, k3⟩ := sig_ok h1 hf hr
      have v := k1.value
      have hdep := k1.deposits
      have hwit := k1.withdrawals hb
      rw [List.drop_zero] at v hdep hwit
      rw [hd] at hdep
      rw [hw] at hwit
      have e1 := List.append_cancel_left hdep
      have e2 := List.append_cancel_left hwit
      have bal := approved_balance (rollup := rollup)
        (approvedTxs cv hs rollup (txRoot cv hs s) s.transactions l) (by
          intro a ha
          obtain ⟨x, hx, hx2, _⟩ := mem_approvedTxs ha
          exact ⟨hx2 ▸ hown _ hx, (h4 _ (List.of_mem_zip hx).1).1⟩)
      rw [← e1, ← e2] at bal
      refine ⟨⟨c', sc', k2, by omega, fun hk => ?_⟩, by rw [k1.frame.1]; exact h4⟩
      have := h3 (by simp at hk; exact hk)
      omega
    · obtain ⟨dn, x, rs, s1, c1, sc1, c', sc', e1, e2, e3, e4, e5, e6, e7⟩ := sig_err h1 hf hr
      have v := e5.value
      have hdep := e5.deposits
      have hwit := e5.withdrawals hb
      rw [List.drop_zero] at v hdep hwit
      obtain ⟨tx, us, u, vs, dels, l', st, g1, g2, g3, g4, g5, g6, g7, g8, g9, g10⟩ := e6
      have hd' : s'.deposits = s1.deposits := by rw [g10]
      have hw' : s'.withdrawals = s1.withdrawals := by rw [g10]
      have ht' : s'.transactions = s.transactions := by rw [g10]; exact e5.frame.1
      rw [hd] at hd'
      rw [hw] at hw'
      rw [← hd'] at hdep
      rw [← hw'] at hwit
      have f1 := List.append_cancel_left hdep
      have f2 := List.append_cancel_left hwit
      have hzip : ∀ y ∈ s.transactions.zip dn, y ∈ s.transactions.zip l := by
        intro y hy
        rw [e1]; exact mem_zip_append hy
      have bal := approved_balance (rollup := rollup)
        (approvedTxs cv hs rollup (txRoot cv hs s) s.transactions dn) (by
          intro a ha
          obtain ⟨x, hx, hx2, _⟩ := mem_approvedTxs ha
          exact ⟨hx2 ▸ hown _ (hzip _ hx), (h4 _ (List.of_mem_zip hx).1).1⟩)
      have v2 := g4.value
      rw [← f1, ← f2] at bal
      refine ⟨⟨c', sc', e7, by omega, fun hk => ?_⟩, by rw [ht']; exact h4⟩
      simp at hk
    · exact absurd rfl hnp

end PF.Agg
