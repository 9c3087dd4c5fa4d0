import Verif.Props.AggregatorExact
import Verif.Props.Binding
import Verif.Props.Capacity
import Verif.Props.CasesCircuit
import Verif.Props.EndToEndDemo
import Verif.Props.Lifetime
import Verif.Props.SignatureBinding
import Verif.Props.Witness

/-!
# Concrete cases for the theorems about the epochs of the aggregator (C57, C58, C76–C80, C88, C89, C91, C97–C101, C109)

Over the fields and the group order used in the repository, with hashes that make every Schnorr challenge one:
the contract (key 1) deposits 5 for the key 2, which pays them to the key 3, which withdraws them.
-/
set_option linter.unusedSectionVars false

namespace PF.CasesEpoch
open PF PF.Spec PF.MT PF.AggC PF.Circuit PF.Contract PF.Agg PF.Props
open PF.Cases (F K k0 a b ha hb hab h0 ha0 hb0)

def P : AggC.Params F K := ⟨oneHs F, toySha, k0, false⟩
def txs : List (K × Tx Nat K) := triTxs P.contract a b 5
def sigs : List (Pair grumpkinQ K) := triSigs grumpkinQ P.contract a b
noncomputable def start : Agg.State F grumpkinQ K := Agg.new grumpkinQ bnCurve P.hs

theorem ex : ∃ s1 s2 st block z,
    processTransactions .debug bnCurve P.hs (triTxs P.contract a b 5) (Agg.new grumpkinQ bnCurve P.hs) = (s1, .ok ()) ∧
    processSignatures .debug bnCurve P.hs P.contract (triSigs grumpkinQ P.contract a b) s1 = (s2, .ok ()) ∧
    HonestEpoch .debug P bnCurve (triTxs P.contract a b 5) (triSigs grumpkinQ P.contract a b) (txRoot bnCurve P.hs s1) ∧
    Contract.run .debug (Contract.new P.contract) [.join 0 a, .join 0 b] = .ok st ∧ st.pks = [P.contract, a, b] ∧
    produceBlock st s2 = .ok block ∧ block.deposits = [(1, 5)] ∧ block.withdrawals = [(2, 5)] ∧
    block.signers = [some 0, some 1, some 2] ∧
    StartState bnCurve P.hs (Agg.new grumpkinQ bnCurve P.hs) (txRoot bnCurve P.hs s1) z :=
  example_epoch .debug (by decide) (by decide) bnCurve P rfl ha hb hab

noncomputable def s1 := Classical.choose ex
noncomputable def s2 := Classical.choose (Classical.choose_spec ex)
noncomputable def st := Classical.choose (Classical.choose_spec (Classical.choose_spec ex))
noncomputable def block := Classical.choose (Classical.choose_spec (Classical.choose_spec (Classical.choose_spec ex)))
noncomputable def z :=
  Classical.choose (Classical.choose_spec (Classical.choose_spec (Classical.choose_spec (Classical.choose_spec ex))))

theorem facts : processTransactions .debug bnCurve P.hs (triTxs P.contract a b 5) (Agg.new grumpkinQ bnCurve P.hs) = (s1, .ok ()) ∧
    processSignatures .debug bnCurve P.hs P.contract (triSigs grumpkinQ P.contract a b) s1 = (s2, .ok ()) ∧
    HonestEpoch .debug P bnCurve (triTxs P.contract a b 5) (triSigs grumpkinQ P.contract a b) (txRoot bnCurve P.hs s1) ∧
    Contract.run .debug (Contract.new P.contract) [.join 0 a, .join 0 b] = .ok st ∧ st.pks = [P.contract, a, b] ∧
    produceBlock st s2 = .ok block ∧ block.deposits = [(1, 5)] ∧ block.withdrawals = [(2, 5)] ∧
    block.signers = [some 0, some 1, some 2] ∧
    StartState bnCurve P.hs (Agg.new grumpkinQ bnCurve P.hs) (txRoot bnCurve P.hs s1) z :=
  Classical.choose_spec (Classical.choose_spec (Classical.choose_spec (Classical.choose_spec (Classical.choose_spec ex))))

theorem submitted : processTransactions .debug bnCurve P.hs txs start = (s1, .ok ()) := facts.1
theorem answered : processSignatures .debug bnCurve P.hs P.contract sigs s1 = (s2, .ok ()) := facts.2.1
theorem honest : HonestEpoch .debug P bnCurve txs sigs (txRoot bnCurve P.hs s1) := facts.2.2.1
theorem registered : Contract.run .debug (Contract.new P.contract) [.join 0 a, .join 0 b] = .ok st := facts.2.2.2.1
theorem produced : produceBlock st s2 = .ok block := facts.2.2.2.2.2.1
theorem begun : StartState bnCurve P.hs start (txRoot bnCurve P.hs s1) z := facts.2.2.2.2.2.2.2.2.2
theorem few : st.pks.length ≤ 2 ^ 32 := by rw [facts.2.2.2.2.1]; show 3 ≤ 4294967296; omega
theorem cap : txs.length ≤ TX_CAP := by show 3 ≤ 4096; omega
theorem slots : start.ledger.next + TX_IO_SIZE * txs.length ≤ UTXO_CAP := by
  show 0 + 4 * 3 ≤ UTXO_CAP
  rw [show UTXO_CAP = 2147483648 from rfl]; omega
theorem fresh : EpochStart start := ⟨rfl, rfl, rfl, rfl, rfl, rfl⟩
theorem leaves : SignerLeaves .debug bnCurve P.hs start (fun _ => 0) := SignerLeaves.new

theorem valid : ∀ x ∈ txs, x.2.isValid .debug (some x.1) = .ok () := by
  intro x hx
  simp only [txs, triTxs, List.mem_cons, List.not_mem_nil, or_false] at hx
  rcases hx with rfl | rfl | rfl
  · exact depositTx_valid .debug _ _ 5 (by decide)
  · exact payTx_valid .debug _ _ 5 (by decide)
  · exact payTx_valid .debug _ _ 5 (by decide)

theorem provable : ProvableEpoch P bnCurve (txs.map (·.2)) sigs (txRoot bnCurve P.hs s1) (fun _ => 0) :=
  honest_provable honest valid (fun _ _ _ _ _ _ => rfl)

/-! ## C57, C58, C91, C100: the epoch proves, in one batch -/

example := C57_first_epoch sizes_bn254 bn254_le .debug P rfl bnCurve s1 s2 txs sigs cap submitted answered honest .debug _ _
  st registered few block produced z begun [s2.ivcInputs.map CInputs.alloc] (by simp)

example := C58_provable_on_free_positions sizes_bn254 bn254_le .debug P rfl bnCurve start s1 s2 _ leaves fresh txs sigs cap
  slots submitted answered honest (fun _ _ _ _ _ _ => rfl) .debug _ _ st registered few block produced z begun
  [s2.ivcInputs.map CInputs.alloc] (by simp)

theorem proves : Proves P bnCurve st block z [s2.ivcInputs.map CInputs.alloc] :=
  C91_provable_if sizes_bn254 bn254_le .debug P rfl bnCurve start s1 s2 _ leaves fresh txs sigs cap slots (le_refl 3)
    honest.amounts submitted answered .debug _ _ st registered few block produced z begun _ (by simp) provable

example (c : Nat → UTXO Nat K) (hc : Represents bnCurve P.hs start c) :=
  C91_provable_only_if sizes_bn254 .debug P rfl bnCurve start s1 s2 _ leaves fresh
    (C91_contract_holds_nothing .debug bnCurve P.hs P.contract start ReachWith.new).2 txs sigs cap slots (le_refl 3)
    honest.amounts submitted answered .debug _ _ st registered few block produced z begun _ (by simp) proves c hc

example := C100_honest_epoch sizes_bn254 bn254_le .debug P rfl bnCurve s1 s2 txs sigs cap submitted answered honest .debug _ _
  st registered few block produced z begun [s2.ivcInputs.map CInputs.alloc] (by simp)

theorem zero_fails (k : K) : ∀ m, Schnorr.verify bnCurve P.hs.crh k m (0, 0) = false :=
  fun m => (oneHs_verify (by decide) (by decide) bnCurve k m 0).2

theorem deposit_real : depositTx k0 a 5 ≠ Tx.default := by
  intro h
  have := congrArg (fun t => t.inputs.toList.map (·.amount)) h
  simp [depositTx, Tx.default, UTXO.new, UTXO.dummy, TX_IO_SIZE] at this

example := C91_unsigned_withdrawal_blocks .debug P bnCurve a ha (zero_fails a)
example := C91_unanswered_blocks (q := grumpkinQ) .debug P bnCurve k0 (depositTx k0 a 5) (depositTx_valid .debug _ _ 5 (by decide))
  deposit_real
example := C91_wrong_key_blocks .debug P bnCurve a k0 b hb hab.symm (zero_fails b)
example := C91_overflow_blocks P bnCurve a ha (zero_fails a)

theorem gen1 : ((1 : Nat) : ZMod grumpkinQ) • (bnCurve.gen : K) = k0 := by
  show ((1 : Nat) : ZMod grumpkinQ) • (1 : K) = _
  rw [smul_eq_mul, mul_one]; rfl

/-- The holder of the contract's key signs a deposit. -/
example := @C91_signed_deposit_blocks F grumpkinQ K _ _ _ grumpkinQ_fact (by decide) bn254_le .debug P bnCurve a
  ((1 : Nat) : ZMod grumpkinQ) gen1.symm ha

/-! ## C58: the second deposit epoch cannot be proved -/

section Second
variable {p q : Nat} {G : Type} [AddCommGroup G] [Module (ZMod q) G] [DecidableEq G]

/-- An epoch with a deposit, and then an epoch with another: all the hypotheses of the theorem hold for its
position 0, so an accepted run on what the aggregator recorded would be a collision. -/
theorem second_deposit (h : Sizes p q) (bd : Build) (Q : AggC.Params p G) (cv : Curve p q G) (owner : G)
    (ho : owner ≠ Q.contract) (hk0 : Q.contract ≠ 0) :
    ∃ (s s1 s2 : Agg.State p q G) (sc : Nat → G) (z : CState p), SignerLeaves bd cv Q.hs s sc ∧ sc 0 = Q.contract ∧
      s2.deposits = [(owner, 5)] ∧ live s2 (UTXO.new owner 5) = 2 ∧
      StartState cv Q.hs s (txRoot cv Q.hs s1) z ∧
      ∀ z' bs, bs.flatten = s2.ivcInputs.map CInputs.alloc → runSteps Q cv z bs z' →
        Collision Q.hs (pkEncVar cv) 13 sc (signerUpds Q cv z.txRootFinal z.step bs.flatten) := by
  obtain ⟨t1, t2, e1, e2, r1, r2, x1, x2, l1, g1, n1, d1, w1, l2, -, d2, w2, g2, n2⟩ :=
    demo_deposit bd cv Q.hs ho (a := 5) (by decide)
  have hv := depositTx_valid bd Q.contract owner 5 (by decide)
  have L1 : SignerLeaves bd cv Q.hs t1 (overlay (fun _ => 0) t1.signers) := by
    have := SignerLeaves.call (b := bd) (cv := cv) (hs := Q.hs) _ (.transactions [(Q.contract, depositTx Q.contract owner 5)]) _
      SignerLeaves.new (by show 0 + 1 ≤ 4096; omega) (by simp [Op.run, e1])
    simpa [Op.run, e1] using this
  have L2 : SignerLeaves bd cv Q.hs t2 (overlay (overlay (fun _ => 0) t1.signers) t2.signers) := by
    have := SignerLeaves.call (b := bd) (cv := cv) (hs := Q.hs) _ (.signatures Q.contract [(Q.contract, none)]) _
      L1 ⟨by rw [g1]; show 0 + 1 ≤ 4096; omega, by rw [n1, show UTXO_CAP = 2147483648 from rfl]; show 0 + 4 * 1 ≤ _; omega⟩
      (by simp [Op.run, e2])
    simpa [Op.run, e2] using this
  have L3 := ((C58_signer_tree_over_epochs bd cv Q.hs).1 t2 _ L2).2
  obtain ⟨s1, q1, rs1, ts1, gs1, ds1, ws1, sg1, st1, iv1, _⟩ := tx_one (reach_reset r2) Q.contract
    (depositTx Q.contract owner 5) (by show 0 < 4096; omega) hv
  have hap : Approves cv Q.hs Q.contract (txRoot cv Q.hs s1) (depositTx Q.contract owner 5) (Q.contract, none) = true := by
    simp [Approves, depositTx, UTXO.new, UTXO.dummy]
  have hn : s1.ledger.next ≤ 4 := by rw [gs1]; exact n2
  obtain ⟨s2, q2, rs2, hl, hd, _⟩ := sig_one (b := bd) rs1 (x := (Q.contract, none)) (rollup := Q.contract)
    (tx := depositTx Q.contract owner 5) (by rw [ts1]; rfl)
    (by rw [sg1]; show 0 < 4096; omega)
    (by rw [show UTXO_CAP = 2147483648 from rfl, show TX_IO_SIZE = 4 from rfl]; omega) hap
    (covers_of_spends_nil (depositTx_spends _ _ _))
    (by
      have : (depositTx Q.contract owner 5).withdrawn Q.contract = 0 := by
        simp [depositTx, Tx.withdrawn, totalOf, UTXO.dummy, UTXO.new, ho, List.filter_cons]
        split <;> simp
      rw [this]; decide)
  obtain ⟨z, hz⟩ := startState_exists (b := bd) (cv := cv) (hs := Q.hs) (reach_reset r2) (txRoot cv Q.hs s1)
  have h0 : overlay (overlay (fun _ => 0) t1.signers) t2.signers 0 = Q.contract := by rw [g2]; rfl
  refine ⟨reset cv Q.hs t2, s1, s2, _, z, L3, h0, ?_, ?_, hz, ?_⟩
  · rw [hd, ds1]; simp [Tx.depositsOf, depositTx, reset, UTXO.new, UTXO.dummy, ho]
  · have := hl (UTXO.new owner 5) rfl
    rw [depositTx_spends, depositTx_creates ho] at this
    have hh : live s1 (UTXO.new owner 5) = 1 := by rw [← l2]; unfold live positions; rw [gs1]; rfl
    simpa [hh] using this
  · intro z' bs hbs hrun
    exact C58_unprovable_on_signed_position h bd Q cv (reset cv Q.hs t2) s1 s2 _ L3 ⟨rfl, rfl, rfl, rfl, rfl, rfl⟩
      [(Q.contract, depositTx Q.contract owner 5)] [(Q.contract, none)] (by show 1 ≤ 4096; omega)
      (by
        rw [show UTXO_CAP = 2147483648 from rfl, show TX_IO_SIZE = 4 from rfl]
        show t2.ledger.next + 4 * 1 ≤ _
        omega) (le_refl 1) q1 q2 0 _ _ rfl rfl hap (by rw [h0]; exact hk0) z z' hz bs hbs hrun

end Second

example := second_deposit sizes_bn254 .debug P bnCurve a ha h0

/-! ## C97, C98: the histories of these calls -/

theorem tri_book : ∃ B root, Histories .debug bnCurve P.hs s1 B ∧
    (s1.txTree.rootHash : Outcome Unit (ZMod F)) = .ok root ∧
    Histories .debug bnCurve P.hs s2 (B.answers .debug P.contract (Approves bnCurve P.hs P.contract root) 0 sigs).1 := by
  have hB := Histories.transactions (b := .debug) (cv := bnCurve) (hs := P.hs) Histories.new txs
    (by rw [show processTransactions .debug bnCurve P.hs txs (Agg.new grumpkinQ bnCurve P.hs) = _ from submitted]; simp)
  rw [show processTransactions .debug bnCurve P.hs txs (Agg.new grumpkinQ bnCurve P.hs) = _ from submitted] at hB
  obtain ⟨-, -, root, hr, -⟩ := C97_refines _ _ hB
  have hC := Histories.signatures hB P.contract sigs root hr (by rw [answered]; simp)
  rw [answered] at hC
  exact ⟨_, root, hB, hr, hC⟩

noncomputable def book := Classical.choose tri_book
noncomputable def root := Classical.choose (Classical.choose_spec tri_book)
theorem history1 : Histories .debug bnCurve P.hs s1 book := (Classical.choose_spec (Classical.choose_spec tri_book)).1
theorem history2 : Histories .debug bnCurve P.hs s2
    (book.answers .debug P.contract (Approves bnCurve P.hs P.contract root) 0 sigs).1 :=
  (Classical.choose_spec (Classical.choose_spec tri_book)).2.2

example := C97_refines _ _ history2
example := C97_every_call _ _ history2 .newEpoch (by simp [Op.run])
example := C98_prove_transactions _ _ history2
example := C98_no_refusal (b := .debug) (cv := bnCurve) (hs := P.hs) P.contract [(a, 5), (b, 7)]
  (by
    intro d hd
    simp only [List.mem_cons, List.not_mem_nil, or_false] at hd
    rcases hd with rfl | rfl
    · exact ⟨ha, by show 5 < 2 ^ 64; norm_num⟩
    · exact ⟨hb, by show 7 < 2 ^ 64; norm_num⟩)
example := C98_overfull_epoch (b := .debug) (cv := bnCurve) (hs := P.hs) P.contract a ha
example := C98_overfull_utxo_tree (b := .debug) (cv := bnCurve) (hs := P.hs) P.contract a ha

/-! ## C101 -/

theorem folded : s2 = ([.transactions txs, .signatures P.contract sigs] : List (Op grumpkinQ K)).foldl
    (fun s op => (op.run .debug bnCurve P.hs s).1) (Agg.new grumpkinQ bnCurve P.hs) := by
  have e1 := submitted
  unfold start at e1
  simp only [List.foldl_cons, List.foldl_nil, Op.run, e1, answered]

example := C101_recorded_inputs .debug P bnCurve _ s2 folded z [s2.ivcInputs.map CInputs.alloc] (by simp)

/-! ## C109 -/


theorem lives : ∃ d : PF.Agg.Executed F grumpkinQ K, Lifetime .debug bnCurve P.hs P.contract (Agg.new grumpkinQ bnCurve P.hs) [d] d.fin ∧
      (∀ y ∈ d.answers, y.1 ≠ 0) ∧ ProvableFrom .debug P bnCurve d ∧ RecordedRun P bnCurve d ∧
      (d.executed bnCurve P.hs P.contract).length = 3 ∧ d.block.deposits = [(1, 5)] ∧
      d.block.withdrawals = [(2, 5)] :=
  example_lifetime sizes_bn254 bn254_le bnCurve P rfl rfl .debug ha hb hab h0 ha0 hb0

/-- The epoch, as an element of a lifetime. -/
noncomputable def epoch : PF.Agg.Executed F grumpkinQ K := Classical.choose lives
theorem life : Lifetime .debug bnCurve P.hs P.contract (Agg.new grumpkinQ bnCurve P.hs) [epoch] epoch.fin :=
  (Classical.choose_spec lives).1
theorem life_keys : ∀ d ∈ [epoch], ∀ y ∈ d.answers, y.1 ≠ 0 := by
  intro d hd; rw [List.mem_singleton.1 hd]; exact (Classical.choose_spec lives).2.1
theorem life_provable : ∀ d ∈ [epoch], ProvableFrom .debug P bnCurve d := by
  intro d hd; rw [List.mem_singleton.1 hd]; exact (Classical.choose_spec lives).2.2.1
theorem life_runs : ∀ d ∈ [epoch], RecordedRun P bnCurve d := by
  intro d hd; rw [List.mem_singleton.1 hd]; exact (Classical.choose_spec lives).2.2.2.1

example := C109_lifetime_bound sizes_bn254 .debug P bnCurve [epoch] _ _ life _ SignerLeaves.new life_keys life_runs
example := C109_at_most_4096 sizes_bn254 .debug P bnCurve [epoch] _ life life_keys life_runs
example := C109_position_once sizes_bn254 .debug P bnCurve 0 [epoch] _ _ life _ SignerLeaves.new life_keys life_runs
example := C109_chain sizes_bn254 bn254_le .debug P rfl bnCurve [epoch] _ _ Reach.new life life_provable

end PF.CasesEpoch
