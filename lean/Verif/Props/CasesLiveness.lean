import Verif.Props.Liveness

/-!
# Concrete cases for C114
-/
set_option linter.unusedSectionVars false

namespace PF.Props
open PF PF.MT PF.Agg PF.Spec PF.AggC PF.Contract
variable {p q : Nat} {G : Type} [AddCommGroup G] [Module (ZMod q) G] [DecidableEq G]

/-- A registry with two users. -/
theorem registry_two (b : Build) (k a c : G) (ha : a ≠ k) (hc : c ≠ k) (hac : a ≠ c) :
    ∃ st, Contract.run b (Contract.new k) [.join 0 a, .join 0 c] = .ok st ∧ st.pks.length ≤ 2 ^ 32 ∧
      Registered st k ∧ Registered st a ∧ Registered st c := by
  refine ⟨_, rfl, by show 3 ≤ 4294967296; omega, ?_, ?_, ?_⟩ <;>
    simp [Registered, join, Contract.new, HMap.get_insert, ha, hc, hac, ha.symm, hc.symm, hac.symm]

/-- Case for `C114_capacity`, `C114_can_execute` and `C114_spend`: a new aggregator serves 4096 deposits of 5 in
one proved epoch (so that `C114_frozen` applies to it); another one serves a single deposit of 5 for `a`, and in
the next epoch, on another leaf, the payment of it to `c`; both epochs are proved. -/
example [Fact q.Prime] (h : Sizes p q) (hpq : p ≤ q) (b : Build) (cv : Curve p q G) (P : Params p G)
    (hP : P.hs = oneHs p) (hfull : P.transferOnly = false) (sk : ZMod q) (a c : G) (hsk : a = sk • cv.gen)
    (ha : a ≠ P.contract) (hc : c ≠ P.contract) (hac : a ≠ c) (h0 : P.contract ≠ 0) (ha0 : a ≠ 0) :
    (∃ (d : Agg.Executed p q G) (st : Contract.State G), d.From b cv P.hs P.contract (Agg.new q cv P.hs) ∧
      (d.executed cv P.hs P.contract).length = 4096 ∧ live d.fin (UTXO.new a 5) = 4096 ∧
      (∃ sc, SignerLeaves b cv P.hs d.fin sc ∧ ∀ j < 4096, sc j ≠ 0) ∧
      ∀ z bs, StartState cv P.hs d.start (txRoot cv P.hs d.mid) z →
        bs.flatten = d.fin.ivcInputs.map CInputs.alloc → Proves P cv st d.block z bs) ∧
    ∃ (d d' : Agg.Executed p q G) (st : Contract.State G), d.From b cv P.hs P.contract (Agg.new q cv P.hs) ∧
      d'.From b cv P.hs P.contract d.fin ∧
      d.executed cv P.hs P.contract = [(depositTx P.contract a 5, P.contract)] ∧
      d'.executed cv P.hs P.contract = [(payTx a c 5, a)] ∧
      live d.fin (UTXO.new a 5) = 1 ∧ live d'.fin (UTXO.new a 5) = 0 ∧ live d'.fin (UTXO.new c 5) = 1 ∧
      (∀ z bs, StartState cv P.hs d.start (txRoot cv P.hs d.mid) z →
        bs.flatten = d.fin.ivcInputs.map CInputs.alloc → Proves P cv st d.block z bs) ∧
      ∀ z bs, StartState cv P.hs d'.start (txRoot cv P.hs d'.mid) z →
        bs.flatten = d'.fin.ivcInputs.map CInputs.alloc → Proves P cv st d'.block z bs := by
  have hp1 : 1 < p := lt_of_lt_of_le (by decide) h.large
  have hq1 : 1 < q := lt_of_lt_of_le hp1 hpq
  have hv0 : ∀ k m s, Schnorr.verify cv P.hs.crh k m (s, 0) = false := fun k m s => by
    rw [hP]; exact (oneHs_verify hp1 hq1 cv k m s).2
  obtain ⟨st, hst, hpk, r0, r1, r2⟩ := registry_two b P.contract a c ha hc hac
  have hslots : (Agg.new q cv P.hs).ledger.next + TX_IO_SIZE * TX_CAP ≤ UTXO_CAP := by
    show 0 + 4 * 4096 ≤ _
    have cap : 2147483648 = UTXO_CAP := rfl
    rw [← cap]; omega
  have hs0 : signedPositions (fun _ => (0 : G)) = 0 := by
    unfold signedPositions; rw [List.countP_eq_zero]; simp
  have hl0 : ∀ u : UTXO Nat G, live (Agg.new q cv P.hs) u = 0 := fun _ => rfl
  constructor
  · obtain ⟨d, d1, d2, d3, d5, d4⟩ := C114_capacity h hpq b P hfull cv _ _ SignerLeaves.new hslots b _ st hst hpk a ha r1 5
      (by decide) (fun _ => hv0 _ _ _) (fun _ => hv0 _ _ _)
    exact ⟨d, st, d1, by rw [d2, hs0], by rw [d3, hl0, hs0], d5 h0 ha0, d4⟩
  · have hreq : Requests (q := q) b P cv (Agg.new q cv P.hs) st [(P.contract, depositTx P.contract a 5)] := by
      refine ⟨fun x hx => ?_, fun x hx => ?_, fun x hx => ?_, fun x hx => ?_, fun x hx => ?_, ?_⟩
      · rw [List.mem_singleton.1 hx]; exact depositTx_valid b _ _ 5 (by decide)
      · rw [List.mem_singleton.1 hx]
        simp [Tx.U64Amounts, Tx.ios, depositTx, UTXO.new, UTXO.dummy, U64]
      · rw [List.mem_singleton.1 hx]
        simp [depositTx, totalOf, UTXO.new, UTXO.dummy, U64]
      · rw [List.mem_singleton.1 hx]; exact .inl rfl
      · rw [List.mem_singleton.1 hx]
        refine ⟨r0, fun u hu hd => ?_⟩
        simp [depositTx] at hu
        rcases hu with rfl | rfl
        · exact r1
        · simp [UTXO.dummy] at hd
      · refine affordable_no_spends fun t ht => ?_
        rw [List.mem_singleton.1 ht]; exact depositTx_spends _ _ _
    rcases C114_can_execute h hpq b P hfull cv _ _ SignerLeaves.new hslots b P.contract _ st hst hpk a ha _ hreq
      (by rw [hs0]; show 1 ≤ 4096; omega) with ⟨d, d1, d2, d3, d4, dk, d5, _, d6⟩ | ⟨txs, s1, x, x1, x2, x3, x4⟩
    swap
    · rw [hv0] at x4; cases x4
    obtain ⟨-, e1, e2⟩ := epoch_leaves d1 SignerLeaves.new
    have hl1 := epoch_live SignerLeaves.new d1 (UTXO.new a 5) rfl
    rw [d3, hl0] at hl1
    have hl2 := epoch_live SignerLeaves.new d1 (UTXO.new c 5) rfl
    rw [d3, hl0] at hl2
    have hne : UTXO.new a 5 ≠ UTXO.new c 5 := by simpa [UTXO.new] using hac
    simp [spentBy, createdBy, depositTx_spends, depositTx_creates ha, hne] at hl1 hl2
    have hkey : ∀ y ∈ d.answers, y.1 ≠ 0 := by
      intro y hy
      have : y.1 ∈ d.txs.map (·.1) := dk ▸ List.mem_map_of_mem hy
      obtain ⟨x, hx, e⟩ := List.mem_map.1 this
      rw [← e]
      rcases d4 x hx with hx | rfl
      · rw [List.mem_singleton.1 hx]; exact h0
      · exact ha0
    have hsp := signed_after e2 d1.txCap hkey (sc := fun _ => (0 : G)) (fun _ _ _ _ => rfl)
    rw [hs0, d3] at hsp
    have hfree := free_count (overlay (fun _ => (0 : G)) d.fin.signers)
    rw [hsp] at hfree
    obtain ⟨j, hj, hj0⟩ := List.one_le_countP_iff.1 (show 1 ≤ _ by rw [hfree]; show 1 ≤ 4096 - 1; omega)
    rw [← List.range_eq_range'] at hj
    have hstart : EpochStart d.start := by rw [d1.reset]; exact reset_start cv P.hs _
    obtain ⟨c', c'', sc', -, -, -, r, -, -, -, -, -, -, t6⟩ :=
      epoch_setup (epoch_leaves d1 SignerLeaves.new).1 hstart d1.txCap d1.slots d1.answered d1.submit d1.sign
    have hnext : d.fin.ledger.next ≤ 4 * 4096 := by
      have n1 := r.next_le
      rw [t6, d1.reset] at n1
      have n2 : (Agg.reset cv P.hs (Agg.new q cv P.hs)).ledger.next = 0 := rfl
      have n3 := d1.answered
      have n4 := d1.txCap
      rw [n2, show TX_IO_SIZE = 4 from rfl] at n1
      rw [show TX_CAP = 4096 from rfl] at n4
      omega
    have hslots' : d.fin.ledger.next + TX_IO_SIZE * TX_CAP ≤ UTXO_CAP := by
      rw [show TX_IO_SIZE = 4 from rfl, show TX_CAP = 4096 from rfl]
      have cap : 2147483648 = UTXO_CAP := rfl
      rw [← cap]; omega
    rcases C114_spend h hpq b P hfull cv d.fin _ e1 hslots' b P.contract _ st hst hpk sk a hsk ha r1 5 (by decide)
      (by rw [hl1]; decide) c r2 j (List.mem_range.1 hj) (by simpa using hj0) with
      ⟨d', g1, g2, g3, -, g4⟩ | ⟨txs, s1, x1, x2, x3⟩
    · obtain ⟨g5, g6⟩ := g3 hc hac.symm
      rw [hl1] at g5
      rw [hl2] at g6
      exact ⟨d, d', st, d1, g1, by rw [d3]; rfl, g2, hl1, by omega, g6, d6, g4⟩
    · rw [hv0] at x3; cases x3

end PF.Props
