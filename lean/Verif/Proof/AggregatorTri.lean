import Verif.Props.AggregatorCalls

/-!
# An epoch with a deposit, a transfer and a withdrawal (for examples)
-/
set_option linter.unusedSectionVars false

namespace PF.Agg
open PF PF.Spec PF.MT PF.Props
variable {p q : Nat} {G : Type} [AddCommGroup G] [Module (ZMod q) G] [DecidableEq G]

/-- Hash whose challenge is always 1. -/
def oneHs (p : Nat) : Hashes p := ⟨fun _ => 1, fun a b => a + 2 * b + 1⟩

theorem oneHs_verify (hp : 1 < p) (hq : 1 < q) (cv : Curve p q G) (k : G) (m : List (ZMod p)) (s : ZMod q) :
    Schnorr.verify cv (oneHs p).crh k m (s, 1) = true ∧ Schnorr.verify cv (oneHs p).crh k m (s, 0) = false := by
  have h1 : (1 : ZMod p).val = 1 := by
    have : Fact (1 < p) := ⟨hp⟩
    exact ZMod.val_one p
  have h2 : 1 % 2 ^ Circuit.modBits q = 1 := by
    apply Nat.mod_eq_of_lt
    have : 1 < Circuit.modBits q := Nat.lt_size.2 hq
    calc 1 < 2 ^ 1 := by decide
      _ ≤ _ := Nat.pow_le_pow_right (by decide) (by omega)
  have h3 : (1 : ZMod q) ≠ 0 := by
    have : Fact (1 < q) := ⟨hq⟩
    exact one_ne_zero
  constructor
  · simp [Schnorr.verify, oneHs, h1, h2, Schnorr.fromBigint, hq]
  · simp [Schnorr.verify, oneHs, h1, h2, Schnorr.fromBigint, hq, h3]

/-- The contract deposits for `a`, `a` pays `b`, `b` withdraws. -/
def triTxs (rollup a b : G) (m : Nat) : List (G × Tx Nat G) :=
  [(rollup, depositTx rollup a m), (a, payTx a b m), (b, payTx b rollup m)]

/-- Answers: none from the contract, signatures from the users. -/
def triSigs (q : Nat) (rollup a b : G) : List (Pair q G) :=
  [(rollup, none), (a, some (0, 1)), (b, some (5, 1))]

theorem tri_epoch (bd : Build) (hp : 1 < p) (hq : 1 < q) (cv : Curve p q G) {rollup a b : G} (ha : a ≠ rollup)
    (hb : b ≠ rollup) {m : Nat} (hm : m < U64) (hm0 : m ≠ 0) :
    ∃ s1 s2, processTransactions bd cv (oneHs p) (triTxs rollup a b m) (new q cv (oneHs p)) = (s1, .ok ()) ∧
      processSignatures bd cv (oneHs p) rollup (triSigs q rollup a b) s1 = (s2, .ok ()) ∧
      Reach bd cv (oneHs p) s1 ∧ Reach bd cv (oneHs p) s2 ∧
      s1.transactions = (triTxs rollup a b m).map (·.2) ∧
      s2.deposits = [(a, m)] ∧ s2.withdrawals = [(b, m)] ∧
      s2.signers = [some rollup, some a, some b] ∧
      (∀ y ∈ (triTxs rollup a b m).map (·.2) |>.zip (triSigs q rollup a b),
        Approves cv (oneHs p) rollup (txRoot cv (oneHs p) s1) y.1 y.2 = true) := by
  have hv1 := fun k m s => (oneHs_verify hp hq cv k m s).1
  obtain ⟨t, πs, e⟩ := C44_longest_valid_prefix bd cv (oneHs p) _ Reach.new (triTxs rollup a b m)
    (by simp [Agg.new, triTxs])
  have hall : ∀ x ∈ triTxs rollup a b m, decide (x.2.isValid bd (some x.1) = .ok ()) = true := by
    intro x hx
    simp only [triTxs, List.mem_cons, List.not_mem_nil, or_false] at hx
    rcases hx with rfl | rfl | rfl
    · simp [depositTx_valid bd rollup a m hm]
    · simp [payTx_valid bd a b m hm]
    · simp [payTx_valid bd b rollup m hm]
  have hd : (triTxs rollup a b m).dropWhile (fun x => decide (x.2.isValid bd (some x.1) = .ok ())) = [] :=
    List.dropWhile_eq_nil_iff.2 hall
  have ht : (triTxs rollup a b m).takeWhile (fun x => decide (x.2.isValid bd (some x.1) = .ok ())) =
      triTxs rollup a b m := List.takeWhile_eq_self_iff.2 hall
  rw [hd, ht] at e
  simp only [List.head?_nil] at e
  generalize hs1 : ({ Agg.new q cv (oneHs p) with
      transactions := (Agg.new q cv (oneHs p)).transactions ++ (triTxs rollup a b m).map (·.2),
      txTree := t, txProofs := (Agg.new q cv (oneHs p)).txProofs ++ πs } : State p q G) = s1 at e
  have r1 : Reach bd cv (oneHs p) s1 :=
    reach_transactions Reach.new _ (by simp [Op.Fits, triTxs, Agg.new, TX_CAP]) e (by simp)
  have t1 : s1.transactions = (triTxs rollup a b m).map (·.2) := by rw [← hs1]; rfl
  have n1 : s1.ledger.next = 0 := by rw [← hs1]; rfl
  have g1 : s1.signers = [] := by rw [← hs1]; rfl
  have d1 : s1.deposits = [] := by rw [← hs1]; rfl
  have w1 : s1.withdrawals = [] := by rw [← hs1]; rfl
  have l1 : ∀ u, live s1 u = 0 := by intro u; rw [← hs1]; rfl
  have hfit : ∀ l : List (Pair q G), l.length ≤ 3 → (Op.signatures rollup l).Fits s1 := by
    intro l hl
    constructor
    · rw [g1]; show 0 + _ ≤ 4096; omega
    · rw [n1, show TX_IO_SIZE = 4 from rfl, show UTXO_CAP = 2147483648 from rfl]; omega
  have ap0 : ∀ r tx, Approves cv (oneHs p) rollup r tx (rollup, none) = true := by
    intro r tx; simp [Approves]
  have ap1 : ∀ r tx k (s : ZMod q), Approves cv (oneHs p) rollup r tx (k, some (s, 1)) = true := by
    intro r tx k s
    unfold Approves
    rw [Option.getD_some, hv1]; rfl
  have wd0 : ∀ x y : G, (payTx x y m).withdrawn rollup < 2 ^ 64 := by
    intro x y
    refine lt_of_le_of_lt ?_ (show m < 2 ^ 64 from hm)
    unfold Tx.withdrawn
    simp only [payTx]
    by_cases hy : y = rollup <;> by_cases h0 : (0 : G) = rollup <;>
      simp [List.filter_cons, totalOf, UTXO.new, UTXO.dummy, hy, h0]
  have cnt : ∀ (x y : G) (u : UTXO Nat G), x ≠ rollup →
      ((payTx x y m).spends rollup).count u = if u = UTXO.new x m then 1 else 0 := by
    intro x y u hx
    have e : (payTx x y m).spends rollup = [UTXO.new x m] := by
      simp [payTx, Tx.spends, UTXO.onLedger, UTXO.dummy, UTXO.new, hx]
    rw [e, List.count_singleton]
    by_cases hu : u = UTXO.new x m
    · rw [if_pos hu, hu]; simp
    · rw [if_neg hu, if_neg]; simp; exact fun h => hu h.symm
  have cov : ∀ (s : State p q G) (x y : G), x ≠ rollup → 1 ≤ live s (UTXO.new x m) →
      Covers rollup s (payTx x y m).inputs.toList := by
    intro s x y hx hl v
    have := cnt x y v hx
    unfold Tx.spends at this
    rw [this]
    split
    · rename_i h; rw [h]; exact hl
    · omega
  -- first pair
  have o1 := ((C43_outcome bd cv (oneHs p) s1 s1 r1 rollup [] (rollup, none) (hfit _ (by simp)) rfl).2
    (depositTx rollup a m) (by rw [t1]; rfl)).1.2 (fun _ => ⟨covers_of_spends_nil (depositTx_spends _ _ _),
      fun _ => by rw [depositTx_withdrawn ha]; decide⟩)
  rcases h1 : processSignatures bd cv (oneHs p) rollup ([] ++ [(rollup, none)]) s1 with ⟨sa, oa⟩
  rw [h1] at o1
  simp only at o1
  subst o1
  have acc1 := C39_accounting bd cv (oneHs p) s1 sa r1 rollup _ (hfit _ (by simp)) h1
  have lv1 : 1 ≤ live sa (UTXO.new a m) := by
    have := acc1 (UTXO.new a m) rfl
    rw [t1, l1] at this
    simp only [triTxs, List.map_cons, List.map_nil, approvedTxs, List.nil_append, List.zip_cons_cons,
      List.zip_nil_right, ap0, List.filter_cons, if_true, List.filter_nil, spentBy, createdBy, List.flatMap_cons,
      List.flatMap_nil, List.append_nil, depositTx_spends, depositTx_creates ha] at this
    simp at this
    omega
  -- second pair
  have o2 := ((C43_outcome bd cv (oneHs p) s1 sa r1 rollup _ (a, some (0, 1)) (hfit _ (by simp)) h1).2
    (payTx a b m) (by rw [t1]; rfl)).1.2 (fun _ => ⟨cov sa a b ha lv1, fun _ => wd0 a b⟩)
  rcases h2 : processSignatures bd cv (oneHs p) rollup (([] ++ [(rollup, none)]) ++ [(a, some (0, 1))]) s1
    with ⟨sb, ob⟩
  rw [h2] at o2
  simp only at o2
  subst o2
  have acc2 := C39_accounting bd cv (oneHs p) s1 sb r1 rollup _ (hfit _ (by simp)) h2
  have pcr : (payTx a b m).creates rollup = [UTXO.new b m] := by
    simp [payTx, Tx.creates, UTXO.onLedger, UTXO.dummy, UTXO.new, hb]
  have psp : (payTx a b m).spends rollup = [UTXO.new a m] := by
    simp [payTx, Tx.spends, UTXO.onLedger, UTXO.dummy, UTXO.new, ha]
  have lv2 : 1 ≤ live sb (UTXO.new b m) := by
    have := acc2 (UTXO.new b m) rfl
    rw [t1, l1] at this
    simp only [triTxs, List.map_cons, List.map_nil, approvedTxs, List.nil_append, List.cons_append,
      List.zip_cons_cons,
      List.zip_nil_right, ap0, ap1, List.filter_cons, if_true, List.filter_nil, spentBy, createdBy,
      List.flatMap_cons,
      List.flatMap_nil, List.append_nil, depositTx_spends, depositTx_creates ha, pcr, psp] at this
    by_cases hab : (UTXO.new a m : UTXO Nat G) = UTXO.new b m
    · rw [hab] at this; simp at this; omega
    · simp [List.count_cons, hab] at this; omega
  -- third pair
  have o3 := ((C43_outcome bd cv (oneHs p) s1 sb r1 rollup _ (b, some (5, 1)) (hfit _ (by simp)) h2).2
    (payTx b rollup m) (by rw [t1]; rfl)).1.2 (fun _ => ⟨cov sb b rollup hb lv2, fun _ => wd0 b rollup⟩)
  rcases h3 : processSignatures bd cv (oneHs p) rollup
    (([] ++ [(rollup, none)]) ++ [(a, some (0, 1))] ++ [(b, some (5, 1))]) s1 with ⟨sc, oc⟩
  rw [h3] at o3
  simp only at o3
  subst o3
  have hl3 : ([] ++ [(rollup, none)]) ++ [(a, some (0, 1))] ++ [(b, some (5, 1))] = triSigs q rollup a b := rfl
  rw [hl3] at h3
  have hfit3 := hfit (triSigs q rollup a b) (by simp [triSigs])
  have hap : ∀ y ∈ (triTxs rollup a b m).map (·.2) |>.zip (triSigs q rollup a b),
      Approves cv (oneHs p) rollup (txRoot cv (oneHs p) s1) y.1 y.2 = true := by
    intro y hy
    simp only [triTxs, triSigs, List.map_cons, List.map_nil, List.zip_cons_cons, List.zip_nil_right,
      List.mem_cons, List.not_mem_nil, or_false] at hy
    rcases hy with rfl | rfl | rfl
    · exact ap0 _ _
    · exact ap1 _ _ _ _
    · exact ap1 _ _ _ _
  obtain ⟨rec1, rec2⟩ := C42_records bd cv (oneHs p) s1 sc r1 rollup _ hfit3 h3
  have rec3 := (C43_appends bd cv (oneHs p) s1 sc r1 rollup _ hfit3 h3).2.1
  have happ : approvedTxs cv (oneHs p) rollup (txRoot cv (oneHs p) s1) s1.transactions (triSigs q rollup a b) =
      [(depositTx rollup a m, rollup), (payTx a b m, a), (payTx b rollup m, b)] := by
    unfold approvedTxs
    rw [t1, List.filter_eq_self.2 hap]; rfl
  refine ⟨s1, sc, e, h3, r1, reach_signatures r1 _ hfit3 h3 (by simp), t1, ?_, ?_, ?_, hap⟩
  · rw [rec1, happ, d1]
    simp [depositsBy, Tx.depositsOf, ha, hb, depositTx, UTXO.new, UTXO.dummy]
  · rw [rec2 (Or.inr (by
      intro tx htx
      rw [t1] at htx
      simp only [triTxs, List.map_cons, List.map_nil, List.mem_cons, List.not_mem_nil, or_false] at htx
      rcases htx with rfl | rfl | rfl
      · exact wd0 _ _
      · exact wd0 _ _
      · exact wd0 _ _)), happ, w1]
    have z1 : (depositTx rollup a m).withdrawn rollup = 0 := depositTx_withdrawn ha m
    have z2 : (payTx a b m).withdrawn rollup = 0 := depositTx_withdrawn (rollup := rollup) hb m
    have z3 : (payTx b rollup m).withdrawn rollup = m := by
      unfold Tx.withdrawn
      simp only [payTx]
      by_cases h0 : (0 : G) = rollup <;>
        simp [List.filter_cons, totalOf, UTXO.new, UTXO.dummy, h0]
    simp [withdrawalsBy, Tx.withdrawalsOf, z1, z2, z3, hm0]
  · rw [rec3, g1, t1, List.nil_append]
    rw [List.map_congr_left (g := fun y : Tx Nat G × Pair q G => some y.2.1)]
    · rfl
    · intro y hy; rw [hap y hy]; rfl

end PF.Agg
