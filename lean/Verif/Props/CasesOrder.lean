import Verif.Props.Withheld
import Verif.Proof.AggregatorTri

/-!
# Concrete cases for C112 and C113
-/
set_option linter.unusedSectionVars false

namespace PF.Props
open PF PF.MT PF.Agg PF.Spec PF.AggC PF.Contract
variable {p q : Nat} {G : Type} [AddCommGroup G] [Module (ZMod q) G] [DecidableEq G]

/-- Submitting valid transactions to a new aggregator. -/
theorem listed (b : Build) (cv : Curve p q G) (hs : Hashes p) (txs : List (G × Tx Nat G))
    (hcap : txs.length ≤ TX_CAP) (hv : ∀ x ∈ txs, x.2.isValid b (some x.1) = .ok ()) :
    ∃ s1, processTransactions b cv hs txs (Agg.new q cv hs) = (s1, .ok ()) ∧ Reach b cv hs s1 ∧
      s1.transactions = txs.map (·.2) ∧ s1.ledger = (Agg.new q cv hs).ledger ∧ s1.signers = [] ∧
      (∀ u, live s1 u = 0) ∧ (s1.deposits = [] ∧ s1.withdrawals = []) ∧
      ∀ (rollup : G) (l : List (Pair q G)), l.length ≤ txs.length → (Op.signatures rollup l).Fits s1 := by
  have hf1 : (Op.transactions txs : Op q G).Fits (Agg.new q cv hs) := by
    show (Agg.new q cv hs).transactions.length + txs.length ≤ TX_CAP
    simpa [Agg.new] using hcap
  obtain ⟨c, sc, hi⟩ := reach_inv (Reach.new (b := b) (cv := cv) (hs := hs) (q := q))
  obtain ⟨done, rest, t, prs, e1, e2, _, o, e4, e5⟩ := processTransactions_spec (b := b) txs _ hi hf1
  rcases e5 with ⟨rfl, rfl⟩ | ⟨x, rest', rfl, hx, rfl⟩
  · rw [List.append_nil] at e1
    subst e1
    refine ⟨_, e4, reach_transactions Reach.new _ hf1 e4 (by simp), by simp [Agg.new], rfl, rfl, fun u => ?_,
      ⟨rfl, rfl⟩, fun rollup l hl => ⟨?_, ?_⟩⟩
    · simp [live, positions, Agg.new, HMap.get]
    · simp only [Agg.new, List.length_nil]; omega
    · have h0 : (Agg.new q cv hs).ledger.next = 0 := rfl
      simp only [h0]
      rw [show TX_IO_SIZE = 4 from rfl]
      rw [show UTXO_CAP = 2147483648 from rfl]
      rw [show TX_CAP = 4096 from rfl] at hcap
      omega
  · exact absurd (hv x (by rw [e1]; simp)) hx

/-- **C112** (finding, the order matters otherwise): a deposit for a user and the user's signed payment of it,
listed in this order in one epoch, both execute; listed in the other order, the call returns an error, however
the user signs. -/
theorem C112_order_matters [Fact q.Prime] (b : Build) (cv : Curve p q G) (hs : Hashes p) (hp : 0 < p)
    (hpq : p ≤ q) (rollup receiver : G) (sk : ZMod q) (h1 : sk • cv.gen ≠ rollup) :
    ∃ s1 s2 sig sig',
      processTransactions b cv hs [(rollup, depositTx rollup (sk • cv.gen) 5),
        (sk • cv.gen, payTx (sk • cv.gen) receiver 5)] (Agg.new q cv hs) = (s1, .ok ()) ∧
      (processSignatures b cv hs rollup [(rollup, none), (sk • cv.gen, some sig)] s1).2 = .ok () ∧
      processTransactions b cv hs [(sk • cv.gen, payTx (sk • cv.gen) receiver 5),
        (rollup, depositTx rollup (sk • cv.gen) 5)] (Agg.new q cv hs) = (s2, .ok ()) ∧
      (∀ x, Approves cv hs rollup (txRoot cv hs s2) (payTx (sk • cv.gen) receiver 5) (sk • cv.gen, x) = true →
        (processSignatures b cv hs rollup [(sk • cv.gen, x), (rollup, none)] s2).2 ≠ .ok ()) ∧
      Approves cv hs rollup (txRoot cv hs s2) (payTx (sk • cv.gen) receiver 5) (sk • cv.gen, some sig') = true := by
  have v1 := depositTx_valid b rollup (sk • cv.gen) 5 (by decide)
  have v2 := payTx_valid b (sk • cv.gen) receiver 5 (by decide)
  obtain ⟨s1, a1, a2, a3, a4, a5, a6, ad, a7⟩ := listed (q := q) b cv hs
    [(rollup, depositTx rollup (sk • cv.gen) 5), (sk • cv.gen, payTx (sk • cv.gen) receiver 5)]
    (by simp [TX_CAP]) (by intro x hx; simp at hx; rcases hx with rfl | rfl; exacts [v1, v2])
  obtain ⟨s2, c1, c2, c3, c4, c5, c6, cd, c7⟩ := listed (q := q) b cv hs
    [(sk • cv.gen, payTx (sk • cv.gen) receiver 5), (rollup, depositTx rollup (sk • cv.gen) 5)]
    (by simp [TX_CAP]) (by intro x hx; simp at hx; rcases hx with rfl | rfl; exacts [v2, v1])
  obtain ⟨sig, hsig⟩ := exists_sig cv hp hpq hs.crh sk
    (txEnc cv (payTx (sk • cv.gen) receiver 5) ++ [txRoot cv hs s1])
  obtain ⟨sig', hsig'⟩ := exists_sig cv hp hpq hs.crh sk
    (txEnc cv (payTx (sk • cv.gen) receiver 5) ++ [txRoot cv hs s2])
  have hpay : (payTx (sk • cv.gen) receiver 5).spends rollup = [UTXO.new (sk • cv.gen) 5] := by
    simp [payTx, Tx.spends, UTXO.onLedger, UTXO.dummy, UTXO.new, h1]
  have hsp := depositTx_spends rollup (sk • cv.gen) 5
  have hcr := depositTx_creates h1 5
  have d0 : ∀ r t x, Approves cv hs rollup r t ((rollup, x) : Pair q G) = true := by
    intro r t x; simp [Approves]
  refine ⟨s1, s2, sig, sig', a1, ?_, c1, fun x hx hok => ?_, by simp [Approves, hsig']⟩
  · rw [C112_executes_iff b cv hs s1 a2 rollup _ (a7 rollup _ (by simp)), a3]
    have e : approvedTxs cv hs rollup (txRoot cv hs s1)
        [depositTx rollup (sk • cv.gen) 5, payTx (sk • cv.gen) receiver 5]
        [(rollup, none), (sk • cv.gen, some sig)] =
        [(depositTx rollup (sk • cv.gen) 5, rollup), (payTx (sk • cv.gen) receiver 5, sk • cv.gen)] := by
      rw [approvedTxs_cons_pos (d0 _ _ _), approvedTxs_cons_pos (by simp [Approves, hsig]), approvedTxs_nil]
    simp only [List.map_cons, List.map_nil, e]
    refine ⟨by simp, ?_, fun _ a ha => ?_⟩
    · rw [affordable_cons, affordable_cons]
      refine ⟨fun u => by rw [hsp]; simp, fun u => ?_, affordable_nil _ _⟩
      rw [hsp, hcr, hpay]; simp
    · simp only [List.mem_cons, List.not_mem_nil, or_false] at ha
      rcases ha with rfl | rfl
      · rw [depositTx_withdrawn h1]; simp
      · refine lt_of_le_of_lt (withdrawn_le _) ?_
        simp [payTx, totalOf, UTXO.dummy, UTXO.new]
  · have := ((C112_executes_iff b cv hs s2 c2 rollup _ (c7 rollup _ (by simp))).1 hok).2.1
    rw [c3] at this
    simp only [List.map_cons, List.map_nil] at this
    rw [approvedTxs_cons_pos hx, List.map_cons, affordable_cons] at this
    have := this.1 (UTXO.new (sk • cv.gen) 5)
    rw [hpay, c6] at this
    simp at this

/-- Case for `C112_executes_iff`: the two orders of `C112_order_matters` on a toy curve; the theorem decides
both. -/
example := @C112_order_matters 5 7 (ZMod 7) _ _ _ ⟨by decide⟩ .debug toyCurve2 (oneHs 5) (by decide) (by decide) 1 2 1
  (by decide)

/-- Two deposits, listed in either order and executed. -/
theorem two_orders (b : Build) (cv : Curve p q G) (hs : Hashes p) (rollup a c : G) (ha : a ≠ rollup)
    (hc : c ≠ rollup) :
    ∃ s s' : Agg.State p q G, Reach b cv hs s ∧ Reach b cv hs s' ∧ (∀ u, live s u = live s' u) ∧
      (Op.signatures rollup [(rollup, none), (rollup, none)] : Op q G).Fits s ∧
      (Op.signatures rollup [(rollup, none), (rollup, none)] : Op q G).Fits s' ∧
      s.transactions = [depositTx rollup a 5, depositTx rollup c 7] ∧
      s'.transactions = [depositTx rollup c 7, depositTx rollup a 5] ∧
      (approvedTxs cv hs rollup (txRoot cv hs s) s.transactions
        ([(rollup, none), (rollup, none)] : List (Pair q G))).map (·.1) =
          [depositTx rollup a 5, depositTx rollup c 7] ∧
      (approvedTxs cv hs rollup (txRoot cv hs s') s'.transactions
        ([(rollup, none), (rollup, none)] : List (Pair q G))).map (·.1) =
          [depositTx rollup c 7, depositTx rollup a 5] ∧
      (processSignatures b cv hs rollup [(rollup, none), (rollup, none)] s).2 = .ok () ∧
      Spec.Executed b cv hs rollup s [] ∧ Spec.Executed b cv hs rollup s' [] := by
  have v1 := depositTx_valid b rollup a 5 (by decide)
  have v2 := depositTx_valid b rollup c 7 (by decide)
  obtain ⟨s, a1, a2, a3, a4, a5, a6, ad, a7⟩ := listed (q := q) b cv hs
    [(rollup, depositTx rollup a 5), (rollup, depositTx rollup c 7)]
    (by simp [TX_CAP]) (by intro x hx; simp at hx; rcases hx with rfl | rfl; exacts [v1, v2])
  obtain ⟨s', c1, c2, c3, c4, c5, c6, cd, c7⟩ := listed (q := q) b cv hs
    [(rollup, depositTx rollup c 7), (rollup, depositTx rollup a 5)]
    (by simp [TX_CAP]) (by intro x hx; simp at hx; rcases hx with rfl | rfl; exacts [v2, v1])
  have d0 : ∀ r t x, Approves cv hs rollup r t ((rollup, x) : Pair q G) = true := by
    intro r t x; simp [Approves]
  have e1 : (approvedTxs cv hs rollup (txRoot cv hs s) s.transactions
      ([(rollup, none), (rollup, none)] : List (Pair q G))).map (·.1) =
        [depositTx rollup a 5, depositTx rollup c 7] := by
    rw [a3]; simp only [List.map_cons, List.map_nil]
    rw [approvedTxs_cons_pos (d0 _ _ _), approvedTxs_cons_pos (d0 _ _ _), approvedTxs_nil]; rfl
  have e2 : (approvedTxs cv hs rollup (txRoot cv hs s') s'.transactions
      ([(rollup, none), (rollup, none)] : List (Pair q G))).map (·.1) =
        [depositTx rollup c 7, depositTx rollup a 5] := by
    rw [c3]; simp only [List.map_cons, List.map_nil]
    rw [approvedTxs_cons_pos (d0 _ _ _), approvedTxs_cons_pos (d0 _ _ _), approvedTxs_nil]; rfl
  refine ⟨s, s', a2, c2, fun u => by rw [a6, c6], a7 rollup _ (by simp), c7 rollup _ (by simp), a3, c3, e1, e2, ?_,
    ?_, ?_⟩
  · rw [C112_executes_iff b cv hs s a2 rollup _ (a7 rollup _ (by simp)), e1]
    refine ⟨by rw [a3]; simp, affordable_no_spends ?_, fun _ x hx => ?_⟩
    · intro t ht
      simp at ht
      rcases ht with rfl | rfl <;> exact depositTx_spends _ _ _
    · have : x.1 ∈ [depositTx rollup a 5, depositTx rollup c 7] := e1 ▸ List.mem_map_of_mem hx
      simp at this
      rcases this with e | e <;> rw [e, depositTx_withdrawn (by assumption)] <;> simp
  · have := Spec.Executed.transactions (h := Spec.Executed.new (b := b) (cv := cv) (hs := hs) (rollup := rollup))
      (l := [(rollup, depositTx rollup a 5), (rollup, depositTx rollup c 7)])
      (hf := by show _ ≤ _; simp [Agg.new, TX_CAP]) (hr := by rw [a1]; simp)
    rw [a1] at this; exact this
  · have := Spec.Executed.transactions (h := Spec.Executed.new (b := b) (cv := cv) (hs := hs) (rollup := rollup))
      (l := [(rollup, depositTx rollup c 7), (rollup, depositTx rollup a 5)])
      (hf := by show _ ≤ _; simp [Agg.new, TX_CAP]) (hr := by rw [c1]; simp)
    rw [c1] at this; exact this

/-- Cases for `C112_any_order`, `C112_swap` and `C112_same_contents`: two deposits in either order. Both orders
execute, and the holdings agree: a copy of the UTXO of 7 for `c` exists after either. -/
example (b : Build) (cv : Curve p q G) (hs : Hashes p) (rollup a c : G) (ha : a ≠ rollup) (hc : c ≠ rollup) :
    ∃ s s' : Agg.State p q G, ∃ l : List (Pair q G),
      s.transactions = [depositTx rollup a 5, depositTx rollup c 7] ∧
      s'.transactions = [depositTx rollup c 7, depositTx rollup a 5] ∧
      (processSignatures b cv hs rollup l s).2 = .ok () ∧ (processSignatures b cv hs rollup l s').2 = .ok () ∧
      ∀ u, live (processSignatures b cv hs rollup l s).1 u = live (processSignatures b cv hs rollup l s').1 u := by
  obtain ⟨s, s', r, r', hl, f, f', t, t', e, e', ok, x, x'⟩ := two_orders (q := q) b cv hs rollup a c ha hc
  have hi : Independent rollup [depositTx rollup a 5, depositTx rollup c 7] := by
    intro u hu
    simp [spentUTXOs, depositTx_spends] at hu
  have h1 := C112_any_order b cv hs hs rollup s s' r r' hl _ _ f f' (by rw [t]; simp) (by rw [t']; simp)
    (by rw [e, e']; exact List.Perm.swap _ _ _) (by rw [e]; exact hi)
  have ok' := C112_swap b cv hs hs rollup s s' r r' hl _ _ f f' (by rw [t']; simp) [] [] _ _ e e'
    (by rw [depositTx_spends]; simp) ok
  refine ⟨s, s', _, t, t', ok, ok', fun u => ?_⟩
  have g1 := Spec.Executed.signatures _ x f (Prod.ext rfl ok)
  have g2 := Spec.Executed.signatures _ x' f' (Prod.ext rfl ok')
  rw [e] at g1
  rw [e'] at g2
  exact C112_same_contents b b cv hs hs rollup _ _ _ _ g1 g2 (List.Perm.swap _ _ _) u

/-- Case for `C112_submission_order`: two valid deposits are accepted in one order, hence in the other. -/
example (b : Build) (cv : Curve p q G) (hs : Hashes p) (rollup a c : G) :
    (processTransactions b cv hs [(rollup, depositTx rollup c 7), (rollup, depositTx rollup a 5)]
      (Agg.new q cv hs)).2 = .ok () := by
  have v1 := depositTx_valid b rollup a 5 (by decide)
  have v2 := depositTx_valid b rollup c 7 (by decide)
  obtain ⟨s, a1, _⟩ := listed (q := q) b cv hs
    [(rollup, depositTx rollup a 5), (rollup, depositTx rollup c 7)]
    (by simp [TX_CAP]) (by intro x hx; simp at hx; rcases hx with rfl | rfl; exacts [v1, v2])
  exact (C112_submission_order b cv hs _ Reach.new _ _ (List.Perm.swap _ _ _)
    (by show _ ≤ _; simp [Agg.new, TX_CAP])).1 (by rw [a1])

/-- Case for `C113_still_provable` and `C113_withheld`: a deposit for `a` and the signed payment of it to `c`. The
epoch executes and can be proved, the payment included. With the signature left out it executes and can be
proved as well: `a` still holds its UTXO, `c` nothing. -/
example (h : Sizes p q) (hpq : p ≤ q) (b : Build) (cv : Curve p q G) (P : Params p G) (hP : P.hs = oneHs p)
    (hfull : P.transferOnly = false) (a c : G) (ha : a ≠ P.contract) (hc : c ≠ P.contract) (hac : a ≠ c) :
    ∃ (s1 s2 s2' : Agg.State p q G) (l l' : List (Pair q G)) (st : Contract.State G) (block' : Block (ZMod p)),
      l = [(P.contract, none), (a, some (0, 1))] ∧ l' = [(P.contract, none), (a, none)] ∧
      s1.transactions = [depositTx P.contract a 5, payTx a c 5] ∧
      processSignatures b cv P.hs P.contract l s1 = (s2, .ok ()) ∧ s2.signers = [some P.contract, some a] ∧
      live s2 (UTXO.new a 5) = 0 ∧ live s2 (UTXO.new c 5) = 1 ∧
      processSignatures b cv P.hs P.contract l' s1 = (s2', .ok ()) ∧
      s2'.signers[1]? = some none ∧ live s2' (UTXO.new a 5) = 1 ∧ live s2' (UTXO.new c 5) = 0 ∧
      ∃ z, StartState cv P.hs (Agg.new q cv P.hs) (txRoot cv P.hs s1) z ∧
        Proves P cv st block' z [s2'.ivcInputs.map CInputs.alloc] := by
  have hp1 : 1 < p := lt_of_lt_of_le (by decide) h.large
  have hq1 : 1 < q := lt_of_lt_of_le hp1 hpq
  have v1 := depositTx_valid b P.contract a 5 (by decide)
  have v2 := payTx_valid b a c 5 (by decide)
  obtain ⟨s1, a1, a2, a3, a4, a5, a6, ad, a7⟩ := listed (q := q) b cv P.hs
    [(P.contract, depositTx P.contract a 5), (a, payTx a c 5)]
    (by simp [TX_CAP]) (by intro x hx; simp at hx; rcases hx with rfl | rfl; exacts [v1, v2])
  have hv1 : ∀ k m s, Schnorr.verify cv P.hs.crh k m (s, 1) = true := fun k m s => by
    rw [hP]; exact (oneHs_verify hp1 hq1 cv k m s).1
  have hv0 : ∀ k m s, Schnorr.verify cv P.hs.crh k m (s, 0) = false := fun k m s => by
    rw [hP]; exact (oneHs_verify hp1 hq1 cv k m s).2
  have d0 : ∀ r t x, Approves cv P.hs P.contract r t ((P.contract, x) : Pair q G) = true := by
    intro r t x; simp [Approves]
  have da : ∀ r t, Approves cv P.hs P.contract r t ((a, some (0, 1)) : Pair q G) = true := by
    intro r t; simp [Approves, hv1]
  have dn : ∀ r t, Approves cv P.hs P.contract r t ((a, none) : Pair q G) = false := by
    intro r t; simp [Approves, hv0, ha]
  have hpay : (payTx a c 5).spends P.contract = [UTXO.new a 5] := by
    simp [payTx, Tx.spends, UTXO.onLedger, UTXO.dummy, UTXO.new, ha]
  have hpcr : (payTx a c 5).creates P.contract = [UTXO.new c 5] := by
    simp [payTx, Tx.creates, UTXO.onLedger, UTXO.dummy, UTXO.new, hc]
  have hpw : (payTx a c 5).withdrawn P.contract = 0 := by
    simp [payTx, Tx.withdrawn, totalOf, UTXO.dummy, UTXO.new, hc, List.filter_cons]
    split <;> simp
  have hsp := depositTx_spends P.contract a 5
  have hcr := depositTx_creates ha 5
  have hdw := depositTx_withdrawn ha 5
  have e : ∀ r, approvedTxs cv P.hs P.contract r [depositTx P.contract a 5, payTx a c 5]
      ([(P.contract, none), (a, some (0, 1))] : List (Pair q G)) =
      [(depositTx P.contract a 5, P.contract), (payTx a c 5, a)] := fun r => by
    rw [approvedTxs_cons_pos (d0 _ _ _), approvedTxs_cons_pos (da _ _), approvedTxs_nil]
  have e' : ∀ r, approvedTxs cv P.hs P.contract r [depositTx P.contract a 5, payTx a c 5]
      ([(P.contract, none), (a, none)] : List (Pair q G)) = [(depositTx P.contract a 5, P.contract)] := fun r => by
    rw [approvedTxs_cons_pos (d0 _ _ _), approvedTxs_cons_neg (dn _ _), approvedTxs_nil]
  have hf := a7 P.contract ([(P.contract, none), (a, some (0, 1))] : List (Pair q G)) (by simp)
  have hok : (processSignatures b cv P.hs P.contract [(P.contract, none), (a, some (0, 1))] s1).2 = .ok () := by
    rw [C112_executes_iff b cv P.hs s1 a2 P.contract _ hf, a3]
    simp only [List.map_cons, List.map_nil, e]
    refine ⟨by simp, ?_, fun _ x hx => ?_⟩
    · rw [affordable_cons, affordable_cons]
      refine ⟨fun u => by rw [hsp]; simp, fun u => ?_, affordable_nil _ _⟩
      rw [hsp, hcr, hpay]; simp
    · simp only [List.mem_cons, List.not_mem_nil, or_false] at hx
      rcases hx with rfl | rfl
      · rw [hdw]; simp
      · rw [hpw]; simp
  obtain ⟨s2, h2⟩ : ∃ s2, processSignatures b cv P.hs P.contract [(P.contract, none), (a, some (0, 1))] s1 =
    (s2, .ok ()) := ⟨_, Prod.ext rfl hok⟩
  have hsg := (C43_appends b cv P.hs s1 s2 a2 P.contract _ hf h2).2.1
  rw [a5, a3] at hsg
  simp only [List.map_cons, List.map_nil, List.zip_cons_cons, List.zip_nil_left, List.nil_append, d0, da,
    if_true] at hsg
  have r2 := reach_signatures a2 _ hf h2 (by simp)
  obtain ⟨hde, hwi⟩ := C42_records b cv P.hs s1 s2 a2 P.contract _ hf h2
  have hwi := hwi (.inr (by
    rw [a3]; intro t ht
    simp at ht
    rcases ht with rfl | rfl
    · rw [hdw]; simp
    · rw [hpw]; simp))
  rw [a3, ad.1] at hde
  rw [a3, ad.2] at hwi
  simp only [List.map_cons, List.map_nil, e] at hde hwi
  obtain ⟨st, hst, hpk, i1, i2, i3⟩ : ∃ st, Contract.run b (Contract.new P.contract)
      [.join 0 a, .join 0 c] = .ok st ∧ st.pks = [P.contract, a, c] ∧ st.pkIndices.get P.contract = some 0 ∧
      st.pkIndices.get a = some 1 ∧ st.pkIndices.get c = some 2 := by
    refine ⟨_, rfl, rfl, ?_, ?_, ?_⟩ <;>
      simp [join, Contract.new, HMap.get_insert, ha, hc, hac, ha.symm, hc.symm, hac.symm]
  obtain ⟨ur, sr, _, _, hblock⟩ := (C48_produce_block b cv P.hs s2 r2 st).1 (by
    intro pk hpk
    have : pk = P.contract ∨ pk = a ∨ pk = c := by
      rw [hsg, hde, hwi] at hpk
      simp [depositsBy, withdrawalsBy, Tx.depositsOf, Tx.withdrawalsOf, hdw, hpw, depositTx, ha, hc, payTx,
        UTXO.new, UTXO.dummy, UTXO.onLedger] at hpk
      tauto
    unfold Registered
    rcases this with rfl | rfl | rfl
    · rw [i1]; rfl
    · rw [i2]; rfl
    · rw [i3]; rfl)
  have hu : ∀ x ∈ [(P.contract, depositTx P.contract a 5), (a, payTx a c 5)], x.2.U64Amounts := by
    intro x hx
    simp only [List.mem_cons, List.not_mem_nil, or_false] at hx
    rcases hx with rfl | rfl <;>
      simp [Tx.U64Amounts, Tx.ios, depositTx, payTx, UTXO.new, UTXO.dummy, U64]
  have hprov : ProvableEpoch P cv [depositTx P.contract a 5, payTx a c 5]
      ([(P.contract, none), (a, some (0, 1))] : List (Pair q G)) (txRoot cv P.hs s1) (fun _ => 0) := by
    refine honest_provable (b := b) (txs := [(P.contract, depositTx P.contract a 5), (a, payTx a c 5)])
      ⟨hu, .inr ?_, rfl, ?_, ?_⟩ ?_ (fun _ _ _ _ _ _ => rfl)
    · intro x hx
      simp only [List.mem_cons, List.not_mem_nil, or_false] at hx
      rcases hx with rfl | rfl <;> simp [depositTx, payTx, totalOf, UTXO.new, UTXO.dummy, U64]
    · intro y hy hk
      simp only [List.map_cons, List.map_nil, List.zip_cons_cons, List.zip_nil_left, List.mem_cons,
        List.not_mem_nil, or_false] at hy
      rcases hy with rfl | rfl
      · exact .inl (hv0 _ _ _)
      · exact absurd hk ha
    · intro y hy hr
      simp only [List.map_cons, List.map_nil, List.zip_cons_cons, List.zip_nil_left, List.mem_cons,
        List.not_mem_nil, or_false] at hy
      rcases hy with rfl | rfl
      · exact hdw
      · exact hpw
    · intro x hx
      simp only [List.mem_cons, List.not_mem_nil, or_false] at hx
      rcases hx with rfl | rfl
      · exact v1
      · exact v2
  have hwh : Withholds ([(P.contract, none), (a, some (0, 1))] : List (Pair q G)) [(P.contract, none), (a, none)] :=
    .cons (.inl rfl) (.cons (.inr rfl) .nil)
  obtain ⟨z, hz⟩ := startState_exists (b := b) (cv := cv) (hs := P.hs) Reach.new (txRoot cv P.hs s1)
  obtain ⟨s2', block', g1, g2, g3, _, g5, g6⟩ := C113_withheld h hpq b P hfull cv _ s1 s2 (fun _ => 0) SignerLeaves.new
    ⟨rfl, rfl, rfl, rfl, rfl, rfl⟩ _ _ (by show 2 ≤ 4096; omega)
    (by
      show 0 + 4 * 2 ≤ _
      have cap : 2147483648 = UTXO_CAP := rfl
      rw [← cap]; omega) (le_refl 2) hu a1 h2 b P.contract _ st hst (by rw [hpk]; show 3 ≤ 4294967296; omega) _ hblock hprov _ hwh
    (fun _ _ _ => hv0 _ _ _)
    (by
      intro y hy hr
      simp only [List.map_cons, List.map_nil, List.zip_cons_cons, List.zip_nil_left, List.mem_cons,
        List.not_mem_nil, or_false] at hy
      rcases hy with rfl | rfl
      · exact hdw
      · exact hpw) (.inr (by simp))
  have hne : UTXO.new a 5 ≠ UTXO.new c 5 := by simpa [UTXO.new] using hac
  have h0 : ∀ u : UTXO Nat G, live (Agg.new q cv P.hs) u = 0 := fun _ => rfl
  refine ⟨s1, s2, s2', _, _, st, block', rfl, rfl, a3, h2, hsg, ?_, ?_, g1, g3 1 a rfl ha, ?_, ?_, z, hz,
    g6 z _ hz (by simp)⟩
  · have := C39_accounting b cv P.hs s1 s2 a2 P.contract _ hf h2 (UTXO.new a 5) rfl
    rw [a3, a6] at this
    simp only [List.map_cons, List.map_nil, e] at this
    simpa [spentBy, createdBy, hsp, hcr, hpay, hpcr, hne] using this
  · have := C39_accounting b cv P.hs s1 s2 a2 P.contract _ hf h2 (UTXO.new c 5) rfl
    rw [a3, a6] at this
    simp only [List.map_cons, List.map_nil, e] at this
    simpa [spentBy, createdBy, hsp, hcr, hpay, hpcr, hne] using this
  · have := g5 (UTXO.new a 5) rfl
    rw [h0] at this
    simp only [List.map_cons, List.map_nil, e'] at this
    simpa [spentBy, createdBy, hsp, hcr] using this
  · have := g5 (UTXO.new c 5) rfl
    rw [h0] at this
    simp only [List.map_cons, List.map_nil, e'] at this
    simpa [spentBy, createdBy, hsp, hcr, hne] using this

end PF.Props
