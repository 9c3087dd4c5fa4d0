import Verif.Props.Griefing
import Verif.Props.CasesLiveness

/-!
# Concrete cases for C123
-/
set_option linter.unusedSectionVars false

namespace PF.Props
open PF PF.MT PF.Agg PF.Spec PF.AggC PF.Contract
variable {p q : Nat} {G : Type} [AddCommGroup G] [Module (ZMod q) G] [DecidableEq G]

/-- Case for `C123_one_user_stops_an_epoch`: a new aggregator, a deposit of 5 for `a` before and one after the
transaction of the user `c`. With `c`'s signature the call fails, without it (or with the one-challenge hash, the pair
`(0, 0)` that stands for none) it succeeds. -/
example [Fact q.Prime] (hp : 1 < p) (hpq : p ≤ q) (b : Build) (cv : Curve p q G) (rollup : G) (sk : ZMod q) (a : G)
    (ha : a ≠ rollup) (hc : sk • cv.gen ≠ rollup) :
    ∃ (t : Tx Nat G) (s1 : Agg.State p q G) (sig : ZMod q × ZMod q),
      processTransactions b cv (oneHs p) [(rollup, depositTx rollup a 5), (sk • cv.gen, t),
        (rollup, depositTx rollup a 5)] (Agg.new q cv (oneHs p)) = (s1, .ok ()) ∧
      (processSignatures b cv (oneHs p) rollup [(rollup, none), (sk • cv.gen, some sig), (rollup, none)] s1).2 ≠ .ok () ∧
      (processSignatures b cv (oneHs p) rollup [(rollup, none), (sk • cv.gen, none), (rollup, none)] s1).2 = .ok () := by
  have hq : 1 < q := lt_of_lt_of_le hp hpq
  obtain ⟨t, s1, h1, ⟨sig, h2⟩, h3, h4⟩ := C123_one_user_stops_an_epoch b cv (oneHs p) (by omega) hpq rollup sk hc
    (Agg.new q cv (oneHs p)) Reach.new ⟨rfl, rfl, rfl, rfl, rfl, rfl⟩ [(rollup, depositTx rollup a 5)]
    [(rollup, depositTx rollup a 5)] (fun x hx => by
      simp only [List.cons_append, List.nil_append, List.mem_cons, List.not_mem_nil, or_false, or_self] at hx
      subst hx; exact depositTx_valid b _ _ 5 (by decide)) (by show 2 < 4096; omega) (by
        show 0 + 4 * 3 ≤ UTXO_CAP
        rw [show UTXO_CAP = 2147483648 from rfl]; omega)
  refine ⟨t, s1, sig, h1, h3 _ _ (le_refl 3) rfl h2, (h4 _ (le_refl 3) fun x hx => ?_).2 ⟨?_, fun _ y hy => ?_⟩⟩
  · cases hx
    unfold Approves
    simp only [Option.getD_none]
    rw [(oneHs_verify hp hq cv _ _ 0).2]
    simpa using hc
  · refine affordable_no_spends fun y hy => ?_
    simp only [List.mem_map, approvedTxs] at hy
    obtain ⟨w, ⟨v, hv, rfl⟩, rfl⟩ := hy
    have := (List.of_mem_zip (List.mem_of_mem_filter hv)).1
    simp only [List.cons_append, List.nil_append, List.map_cons, List.map_nil, List.mem_cons, List.not_mem_nil,
      or_false, or_self] at this
    dsimp only
    rw [this]
    exact depositTx_spends _ _ _
  · simp only [List.mem_map, approvedTxs] at hy
    obtain ⟨v, hv, rfl⟩ := hy
    have := (List.of_mem_zip (List.mem_of_mem_filter hv)).1
    simp only [List.cons_append, List.nil_append, List.map_cons, List.map_nil, List.mem_cons, List.not_mem_nil,
      or_false, or_self] at this
    dsimp only
    rw [this, depositTx_withdrawn ha]
    decide

/-- Case for `C123_one_user_uses_everything_up` and `C123_then_nothing`: a new aggregator, the user `a` without funds.
4096 transactions, 16384 worthless UTXOs, and then nothing any more. -/
example [Fact q.Prime] (h : Sizes p q) (hpq : p ≤ q) (b : Build) (cv : Curve p q G) (P : Params p G)
    (hP : P.hs = oneHs p) (hfull : P.transferOnly = false) (sk : ZMod q) (a c : G) (hsk : a = sk • cv.gen)
    (ha : a ≠ P.contract) (hc : c ≠ P.contract) (hac : a ≠ c) (ha0 : a ≠ 0) :
    ∃ (d : Agg.Executed p q G) (sc : Nat → G), d.From b cv P.hs P.contract (Agg.new q cv P.hs) ∧
      (∀ x ∈ d.txs, x.1 = a) ∧
      d.executed cv P.hs P.contract = List.replicate 4096 (dustTx a, a) ∧
      live d.fin (UTXO.new a 0) = 16384 ∧ SignerLeaves b cv P.hs d.fin sc ∧ (∀ j < 4096, sc j ≠ 0) ∧
      Lifetime b cv P.hs P.contract d.fin [] d.fin := by
  have hp1 : 1 < p := lt_of_lt_of_le (by decide) h.large
  have hq1 : 1 < q := lt_of_lt_of_le hp1 hpq
  obtain ⟨st, hst, hpk, -, r1, -⟩ := registry_two b P.contract a c ha hc hac
  have hslots : (Agg.new q cv P.hs).ledger.next + TX_IO_SIZE * TX_CAP ≤ UTXO_CAP := by
    show 0 + 4 * 4096 ≤ UTXO_CAP
    rw [show UTXO_CAP = 2147483648 from rfl]; omega
  have hno : signedPositions (fun _ => (0 : G)) = 0 := by
    unfold signedPositions
    rw [List.countP_eq_zero]; simp
  rcases C123_one_user_uses_everything_up h hpq b P hfull cv _ _ SignerLeaves.new hslots b P.contract _ st hst hpk sk a
    hsk ha ha0 r1 with ⟨d, sc', d1, d2, d3, d4, -, d6, d7, -⟩ | ⟨txs, s1, -, -, hx⟩
  · have hl0 : live (Agg.new q cv P.hs) (UTXO.new a 0) = 0 := rfl
    refine ⟨d, sc', d1, d2, ?_, ?_, d6, d7, rfl⟩
    · rw [d3, hno, Nat.sub_zero]
    · rw [d4, hno, hl0]
  · rw [hP, (oneHs_verify hp1 hq1 cv _ _ 0).2] at hx
    cases hx

/-- Case for `C123_unregistered_signer`: the contract of a fresh deployment, and any other key. -/
example (cv : Curve p q G) (rollup : G) (sk : ZMod q) (h : sk • cv.gen ≠ rollup) :
    ¬ Registered (Contract.new rollup) (sk • cv.gen) := by
  simp [Registered, Contract.new, join, HMap.get_insert, HMap.get, h, h.symm]

end PF.Props
