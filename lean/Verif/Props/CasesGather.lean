import Verif.Props.CasesLiveness
import Verif.Props.Gather

/-!
# Concrete cases for C130
-/
set_option linter.unusedSectionVars false

namespace PF.Props
open PF PF.MT PF.Agg PF.Spec PF.AggC PF.Contract
variable {p q : Nat} {G : Type} [AddCommGroup G] [Module (ZMod q) G] [DecidableEq G]

/-- A new aggregator after an epoch with deposits of 3, 4, 5, 6 and 7 for one user. -/
theorem five_deposits [Fact q.Prime] (h : Sizes p q) (hpq : p ≤ q) (b : Build) (cv : Curve p q G) (P : Params p G)
    (hP : P.hs = oneHs p) (hfull : P.transferOnly = false) (a c : G) (ha : a ≠ P.contract) (hc : c ≠ P.contract)
    (hac : a ≠ c) (h0 : P.contract ≠ 0) (ha0 : a ≠ 0) :
    ∃ (s : Agg.State p q G) (sc : Nat → G) (st : Contract.State G), SignerLeaves b cv P.hs s sc ∧
      s.ledger.next + TX_IO_SIZE * TX_CAP ≤ UTXO_CAP ∧ signedPositions sc = 5 ∧
      Contract.run b (Contract.new P.contract) [.join 0 a, .join 0 c] = .ok st ∧ st.pks.length ≤ 2 ^ 32 ∧
      Registered st a ∧ Registered st c ∧ Registered st P.contract ∧
      (∀ u : UTXO Nat G, u.isDummy = false → live s u = (holdings a [3, 4, 5, 6, 7]).count u) := by
  have hp1 : 1 < p := lt_of_lt_of_le (by decide) h.large
  have hq1 : 1 < q := lt_of_lt_of_le hp1 hpq
  have hv0 : ∀ k m s, Schnorr.verify cv P.hs.crh k m (s, 0) = false := fun k m s => by
    rw [hP]; exact (oneHs_verify hp1 hq1 cv k m s).2
  obtain ⟨st, hst, hpk, r0, r1, r2⟩ := registry_two b P.contract a c ha hc hac
  have hslots : (Agg.new q cv P.hs).ledger.next + TX_IO_SIZE * TX_CAP ≤ UTXO_CAP := by
    show 0 + 4 * 4096 ≤ _
    have cap : 2147483648 = UTXO_CAP := rfl
    rw [← cap]; omega
  have hs0 : signedPositions (fun _ => (0 : G)) = 0 := by
    unfold signedPositions; rw [List.countP_eq_zero]; simp
  have hl0 : ∀ u : UTXO Nat G, live (Agg.new q cv P.hs) u = 0 := fun _ => rfl
  obtain ⟨ts, hts⟩ : ∃ ts, ts = ([3, 4, 5, 6, 7] : List Nat).map fun x => (P.contract, depositTx P.contract a x) := ⟨_, rfl⟩
  have hmem : ∀ x ∈ ts, ∃ n, n < 8 ∧ x = (P.contract, depositTx P.contract a n) := by
    intro x hx
    rw [hts] at hx
    obtain ⟨n, hn, rfl⟩ := List.mem_map.1 hx
    exact ⟨n, by simp at hn; omega, rfl⟩
  have h8 : ∀ n, n < 8 → n < U64 := fun n hn => lt_trans hn (by decide)
  have hreq : Requests (q := q) b P cv (Agg.new q cv P.hs) st ts := by
    refine ⟨fun x hx => ?_, fun x hx => ?_, fun x hx => ?_, fun x hx => ?_, fun x hx => ?_, ?_⟩
    · obtain ⟨n, hn, rfl⟩ := hmem x hx
      exact depositTx_valid b _ _ n (h8 n hn)
    · obtain ⟨n, hn, rfl⟩ := hmem x hx
      have := h8 n hn
      simpa [Tx.U64Amounts, Tx.ios, depositTx, UTXO.new, UTXO.dummy, U64] using this
    · obtain ⟨n, hn, rfl⟩ := hmem x hx
      have := h8 n hn
      simpa [depositTx, totalOf, UTXO.new, UTXO.dummy, U64] using this
    · obtain ⟨n, hn, rfl⟩ := hmem x hx
      exact .inl rfl
    · obtain ⟨n, hn, rfl⟩ := hmem x hx
      refine ⟨r0, fun u hu hd => ?_⟩
      simp [depositTx] at hu
      rcases hu with rfl | rfl
      · exact r1
      · simp [UTXO.dummy] at hd
    · refine affordable_no_spends fun t ht => ?_
      obtain ⟨x, hx, rfl⟩ := List.mem_map.1 ht
      obtain ⟨n, hn, rfl⟩ := hmem x hx
      exact depositTx_spends _ _ _
  rcases C114_can_execute h hpq b P hfull cv _ _ SignerLeaves.new hslots b P.contract _ st hst hpk a ha ts hreq
    (by rw [hs0, hts]; show 5 ≤ 4096; omega) with ⟨d, d1, d2, d3, d4, dk, d5, _, d6⟩ | ⟨txs, s1, x, x1, x2, x3, x4⟩
  swap
  · rw [hv0] at x4; cases x4
  obtain ⟨-, e1, e2⟩ := epoch_leaves d1 SignerLeaves.new
  have hkey : ∀ y ∈ d.answers, y.1 ≠ 0 := by
    intro y hy
    have : y.1 ∈ d.txs.map (·.1) := dk ▸ List.mem_map_of_mem hy
    obtain ⟨x, hx, e⟩ := List.mem_map.1 this
    rw [← e]
    rcases d4 x hx with hx | rfl
    · obtain ⟨n, hn, rfl⟩ := hmem x hx
      exact h0
    · exact ha0
  have hsp := signed_after e2 d1.txCap hkey (sc := fun _ => (0 : G)) (fun _ _ _ _ => rfl)
  rw [hs0, d3, hts] at hsp
  have hstart : EpochStart d.start := by rw [d1.reset]; exact reset_start cv P.hs _
  obtain ⟨c', c'', sc', -, -, -, r, -, -, -, -, -, -, t6⟩ :=
    epoch_setup (epoch_leaves d1 SignerLeaves.new).1 hstart d1.txCap d1.slots d1.answered d1.submit d1.sign
  have hnext : d.fin.ledger.next ≤ 4 * 4096 := by
    have n1 := r.next_le
    rw [t6, d1.reset] at n1
    have n2 : (Agg.reset cv P.hs (Agg.new q cv P.hs)).ledger.next = 0 := rfl
    have n3 := d1.answered
    have n4 := d1.txCap
    rw [n2, show TX_IO_SIZE = 4 from rfl] at n1
    rw [show TX_CAP = 4096 from rfl] at n4
    omega
  refine ⟨d.fin, _, st, e1, ?_, by rw [hsp]; rfl, hst, hpk, r1, r2, r0, fun u hu => ?_⟩
  · rw [show TX_IO_SIZE = 4 from rfl, show TX_CAP = 4096 from rfl]
    have cap : 2147483648 = UTXO_CAP := rfl
    rw [← cap]; omega
  · have hl1 := epoch_live SignerLeaves.new d1 u hu
    rw [d3, hl0, hts] at hl1
    simpa [spentBy, createdBy, Agg.depositTx_spends, Agg.depositTx_creates ha, holdings] using hl1

/-- Case for `C130_pay_any_amount` and `C130_no_fewer`: out of the UTXOs of 3, 4, 5, 6 and 7 the user pays 20 to somebody else in
two transactions, the change of 5 comes back; or pays all 25, for which two transactions are the least possible; or
withdraws 20. -/
example [Fact q.Prime] (h : Sizes p q) (hpq : p ≤ q) (b : Build) (cv : Curve p q G) (P : Params p G)
    (hP : P.hs = oneHs p) (hfull : P.transferOnly = false) (sk : ZMod q) (a c : G) (hsk : a = sk • cv.gen)
    (ha : a ≠ P.contract) (hc : c ≠ P.contract) (hac : a ≠ c) (h0 : P.contract ≠ 0) (ha0 : a ≠ 0) :
    ∃ (s : Agg.State p q G) (d1 d2 d3 : Agg.Executed p q G), d1.From b cv P.hs P.contract s ∧
      (d1.executed cv P.hs P.contract).length = 2 ∧ live d1.fin (UTXO.new c 20) = 1 ∧ live d1.fin (UTXO.new a 5) = 1 ∧
      live d1.fin (UTXO.new a 7) = 0 ∧
      d2.From b cv P.hs P.contract s ∧ (d2.executed cv P.hs P.contract).length = 2 ∧ live d2.fin (UTXO.new c 25) = 1 ∧
      ((b = .debug ∨ ∀ x ∈ d2.txs, totalOf x.2.inputs.toList < U64 ∧ totalOf x.2.outputs.toList < U64) →
        (∀ y ∈ d2.executed cv P.hs P.contract, y.1.withdrawn P.contract = 0) →
        2 ≤ ([d2].map fun d => (d.executed cv P.hs P.contract).length).sum) ∧
      d3.From b cv P.hs P.contract s ∧ d3.block.withdrawals.map (·.2) = [20] ∧ live d3.fin (UTXO.new a 5) = 1 := by
  have hp1 : 1 < p := lt_of_lt_of_le (by decide) h.large
  have hq1 : 1 < q := lt_of_lt_of_le hp1 hpq
  have hv0 : ∀ k m s, Schnorr.verify cv P.hs.crh k m (s, 0) = false := fun k m s => by
    rw [hP]; exact (oneHs_verify hp1 hq1 cv k m s).2
  obtain ⟨s, sc, st, k1, k2, k3, k4, k5, k6, k7, k8, k9⟩ := five_deposits h hpq b cv P hP hfull a c ha hc hac h0 ha0
  have hlive : ∀ x, ([3, 4, 5, 6, 7] : List Nat).count x ≤ live s (UTXO.new a x) := by
    intro x
    rw [k9 _ rfl, holdings_count]
  have key := fun (receiver : G) (hr : Registered st receiver) (m : Nat) (hm : m ≤ 25) =>
    C130_pay_any_amount h hpq b P hfull cv s sc k1 k2 b P.contract _ st k4 k5 sk a hsk ha k6 [3, 4, 5, 6, 7] hlive (by decide)
      receiver hr m hm (by rw [k3]; show 2 ≤ 4096 - 5; omega)
  have hcount : ∀ x, (holdings a [3, 4, 5, 6, 7]).count (UTXO.new c x) = 0 := by
    intro x
    rw [List.count_eq_zero]
    intro hm
    obtain ⟨y, _, e⟩ := List.mem_map.1 hm
    exact hac (congrArg UTXO.pk e)
  have hne : ∀ x y, (UTXO.new a x : UTXO Nat G) ≠ UTXO.new c y := fun x y e => hac (congrArg UTXO.pk e)
  rcases key c k7 20 (by omega) with ⟨d1, f1, f2, f3, f4, f5, f6⟩ | ⟨txs, s1, x1, x2, x3⟩
  swap
  · rw [hv0] at x3; cases x3
  rcases key c k7 25 (by omega) with ⟨d2, g1, g2, g3, g4, g5, g6⟩ | ⟨txs, s1, x1, x2, x3⟩
  swap
  · rw [hv0] at x3; cases x3
  rcases key P.contract k8 20 (by omega) with ⟨d3, m1, m2, m3, m4, m5, m6⟩ | ⟨txs, s1, x1, x2, x3⟩
  swap
  · rw [hv0] at x3; cases x3
  have hp : paidOut P.contract a c 20 (([3, 4, 5, 6, 7] : List Nat).sum - 20) = [UTXO.new c 20, UTXO.new a 5] := by
    simp [paidOut, hc]
  have hp2 : paidOut P.contract a c 25 (([3, 4, 5, 6, 7] : List Nat).sum - 25) = [UTXO.new c 25] := by
    simp [paidOut, hc]
  have hp3 : paidOut P.contract a P.contract 20 (([3, 4, 5, 6, 7] : List Nat).sum - 20) = [UTXO.new a 5] := by
    simp [paidOut]
  rw [hp] at f4
  rw [hp2] at g4
  rw [hp3] at m4
  refine ⟨s, d1, d2, d3, f1, f2, ?_, ?_, ?_, g1, g2, ?_, fun hs hw => ?_, m1, ?_, ?_⟩
  · have := f4 (UTXO.new c 20) rfl
    rw [k9 _ rfl, hcount] at this
    simpa [hne] using this
  · have := f4 (UTXO.new a 5) rfl
    rw [k9 _ rfl, holdings_count] at this
    simp [(hne _ _).symm] at this
    omega
  · have := f4 (UTXO.new a 7) rfl
    rw [k9 _ rfl, holdings_count] at this
    simpa [(hne _ _).symm, UTXO.new] using this
  · have := g4 (UTXO.new c 25) rfl
    rw [k9 _ rfl, hcount] at this
    simpa using this
  · exact C130_no_fewer b cv P.hs P.contract [d2] s d2.fin ⟨g1, rfl⟩ sc k1 (by simpa using hs) (by simpa using hw) a c
      [3, 4, 5, 6, 7] (by simp) (by simp) g4
  · rw [m5 rfl]; rfl
  · have := m4 (UTXO.new a 5) rfl
    rw [k9 _ rfl, holdings_count] at this
    simp at this
    omega

end PF.Props
