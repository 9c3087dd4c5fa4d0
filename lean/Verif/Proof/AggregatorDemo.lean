import Verif.Proof.AggregatorCalls
import Verif.Props.Schnorr

/-!
# Concrete histories of the aggregator, used for examples and counterexamples

The trees have heights 32 and 13, so these runs are obtained from the specification theorems rather than
by evaluation.
-/

set_option linter.unusedSectionVars false

namespace PF.Agg
open PF PF.MT PF.Spec PF.Schnorr
variable {p q : Nat} {G : Type} [AddCommGroup G] [Module (ZMod q) G] [DecidableEq G]
variable {b : Build} {cv : Curve p q G} {hs : Hashes p} {rollup : G}

theorem reach_transactions {s : State p q G} (h : Reach b cv hs s) (l : List (G × Tx Nat G))
    (hf : s.transactions.length + l.length ≤ TX_CAP) {s' : State p q G} {o : Outcome TransactionError Unit}
    (hr : processTransactions b cv hs l s = (s', o)) (ho : o ≠ .panic) : Reach b cv hs s' := by
  have := Reach.call s (.transactions l) h hf (by
    simp only [Op.run, hr]
    rcases o with _ | _ | _
    · simp
    · simp
    · exact absurd rfl ho)
  simpa only [Op.run, hr] using this

theorem reach_signatures {s : State p q G} (h : Reach b cv hs s) (l : List (Pair q G))
    (hf : (Op.signatures rollup l).Fits s) {s' : State p q G} {o : Outcome AggError Unit}
    (hr : processSignatures b cv hs rollup l s = (s', o)) (ho : o ≠ .panic) : Reach b cv hs s' := by
  have := Reach.call s (.signatures rollup l) h hf (by
    simp only [Op.run, hr]
    rcases o with _ | _ | _
    · simp
    · simp
    · exact absurd rfl ho)
  simpa only [Op.run, hr] using this

theorem reach_reset {s : State p q G} (h : Reach b cv hs s) : Reach b cv hs (reset cv hs s) :=
  Reach.call s .newEpoch h trivial (by simp [Op.run])

/-- Submitting one valid transaction. -/
theorem tx_one {s : State p q G} (h : Reach b cv hs s) (sender : G) (tx : Tx Nat G)
    (hcap : s.transactions.length < TX_CAP) (hv : tx.isValid b (some sender) = .ok ()) :
    ∃ s1, processTransactions b cv hs [(sender, tx)] s = (s1, .ok ()) ∧ Reach b cv hs s1 ∧
      s1.transactions = s.transactions ++ [tx] ∧ s1.ledger = s.ledger ∧ s1.deposits = s.deposits ∧
      s1.withdrawals = s.withdrawals ∧ s1.signers = s.signers ∧ s1.signerTree = s.signerTree ∧
      s1.ivcInputs = s.ivcInputs ∧ s1.height = s.height := by
  obtain ⟨c, sc, hi⟩ := reach_inv h
  obtain ⟨t, pr, e1, e2⟩ := processTx_ok hi sender tx hcap hv
  have hr : processTransactions b cv hs [(sender, tx)] s =
      ({ s with txTree := t, txProofs := s.txProofs ++ [pr], transactions := s.transactions ++ [tx] },
        .ok ()) := by
    unfold processTransactions
    rw [SM.bind_of_ok e1]; rfl
  exact ⟨_, hr, reach_transactions h _ (by simp; omega) hr (by simp), rfl, rfl, rfl, rfl, rfl, rfl, rfl, rfl⟩

/-- Processing one approved, covered transaction. -/
theorem sig_one {s : State p q G} (h : Reach b cv hs s) {tx : Tx Nat G} {x : Pair q G}
    (ht : s.transactions[0]? = some tx) (hcap : s.signers.length < TX_CAP)
    (hn : s.ledger.next + TX_IO_SIZE ≤ UTXO_CAP)
    (ha : Approves cv hs rollup (txRoot cv hs s) tx x = true) (hc : Covers rollup s tx.inputs.toList)
    (hw : tx.withdrawn rollup < U64) :
    ∃ s', processSignatures b cv hs rollup [x] s = (s', .ok ()) ∧ Reach b cv hs s' ∧
      (∀ u, u.isDummy = false →
        live s' u + (tx.spends rollup).count u = live s u + (tx.creates rollup).count u) ∧
      s'.deposits = s.deposits ++ tx.depositsOf rollup x.1 ∧
      s'.withdrawals = s.withdrawals ++ tx.withdrawalsOf rollup x.1 ∧
      s'.signers = s.signers ++ [some x.1] ∧ s'.transactions = s.transactions ∧
      s'.ledger.next ≤ s.ledger.next + TX_IO_SIZE := by
  obtain ⟨c, sc, hi⟩ := reach_inv h
  have hf : (Op.signatures rollup ([] ++ [x])).Fits s :=
    ⟨by simp; omega, by simpa using hn⟩
  have hok := ((step_outcome (b := b) hi hf (l := []) (s1 := s) rfl).2 tx ht).2.2.1 ha hc (fun h => h.2 hw)
  rw [List.nil_append] at hok hf
  rcases hr : processSignatures b cv hs rollup [x] s with ⟨s', o⟩
  rw [hr] at hok
  simp only at hok
  subst hok
  obtain ⟨c', sc', k1, k2, k3⟩ := sig_ok hi hf hr
  have hap : approvedTxs cv hs rollup (txRoot cv hs s) (s.transactions.drop 0) [x] = [(tx, x.1)] := by
    rw [drop_eq_cons ht, approvedTxs_cons_pos ha, approvedTxs_nil]
  have k4 := k1.deposits
  have k5 := k1.signers
  have hwd : s'.withdrawals = s.withdrawals ++ tx.withdrawalsOf rollup x.1 := by
    cases k1 with
    | cons i x l s s1 s2 c c1 c2 sc sc1 sc2 h1 h2 =>
      cases h2
      cases h1 with
      | rej tx' tp ht' hp ha' =>
        rw [ht] at ht'; simp only [Option.some.injEq] at ht'; subst ht'
        rw [accepted_eq, ha] at ha'; simp at ha'
      | acc tx' tp dels adds l' st c1 c2 w ht' hp ha' hd hadd hn hw1 hw2 =>
        rw [ht] at ht'; simp only [Option.some.injEq] at ht'; subst ht'
        have : w = tx.withdrawn rollup := by rw [hw1, Nat.mod_eq_of_lt hw]
        simp only [this, Tx.withdrawalsOf]
        congr 1
        by_cases h0 : tx.withdrawn rollup = 0
        · simp [h0]
        · simp [h0, Nat.pos_of_ne_zero h0]
  refine ⟨s', rfl, reach_signatures h _ hf hr (by simp), fun u hu => ?_, ?_, hwd, ?_, k1.frame.1,
    by simpa using k1.next_le⟩
  · have := Runs.live hi k2 k1 u hu
    rw [hap] at this
    simpa [spentBy, createdBy] using this
  · rw [k4, hap]; simp [depositsBy]
  · rw [k5, drop_eq_cons ht]; simp [ha]

/-- A deposit of `a` for `owner`: a transaction of the rollup contract. -/
def depositTx (rollup owner : G) (a : Nat) : Tx Nat G :=
  { inputs := #v[UTXO.new rollup a, UTXO.dummy, UTXO.dummy, UTXO.dummy]
    outputs := #v[UTXO.new owner a, UTXO.dummy, UTXO.dummy, UTXO.dummy] }

/-- A transfer of the amount `a` from `owner` to `receiver`. -/
def payTx (owner receiver : G) (a : Nat) : Tx Nat G :=
  { inputs := #v[UTXO.new owner a, UTXO.dummy, UTXO.dummy, UTXO.dummy]
    outputs := #v[UTXO.new receiver a, UTXO.dummy, UTXO.dummy, UTXO.dummy] }

theorem payTx_valid (b : Build) (owner receiver : G) (a : Nat) (ha : a < U64) :
    (payTx owner receiver a).isValid b (some owner) = .ok () := by
  rw [Props.C20_is_valid_decision]
  have h1 : OwnedBy owner (payTx owner receiver a).inputs.toList := by
    intro u hu hd
    simp [payTx] at hu
    rcases hu with rfl | rfl
    · rfl
    · simp [UTXO.dummy] at hd
  rw [if_neg (not_not.2 h1)]
  simp [payTx, totalOf, UTXO.dummy, UTXO.new, ha]

theorem depositTx_valid (b : Build) (rollup owner : G) (a : Nat) (ha : a < U64) :
    (depositTx rollup owner a).isValid b (some rollup) = .ok () := payTx_valid b rollup owner a ha

theorem depositTx_spends (rollup owner : G) (a : Nat) : (depositTx rollup owner a).spends rollup = [] := by
  simp [depositTx, Tx.spends, UTXO.onLedger, UTXO.dummy, UTXO.new]

theorem depositTx_creates {rollup owner : G} (h : owner ≠ rollup) (a : Nat) :
    (depositTx rollup owner a).creates rollup = [UTXO.new owner a] := by
  simp [depositTx, Tx.creates, UTXO.onLedger, UTXO.dummy, UTXO.new, h]

theorem depositTx_withdrawn {rollup owner : G} (h : owner ≠ rollup) (a : Nat) :
    (depositTx rollup owner a).withdrawn rollup = 0 := by
  simp [depositTx, Tx.withdrawn, totalOf, UTXO.dummy, UTXO.new, h, List.filter_cons]
  split <;> simp

theorem covers_of_spends_nil {s : State p q G} {tx : Tx Nat G} (h : tx.spends rollup = []) :
    Covers rollup s tx.inputs.toList := by
  intro v
  unfold Tx.spends at h
  rw [h]; simp

/-- A deposit of `a` to `owner` from a new aggregator: first epoch with one transaction. -/
theorem demo_deposit (b : Build) (cv : Curve p q G) (hs : Hashes p) {rollup owner : G} (h : owner ≠ rollup)
    {a : Nat} (ha : a < U64) :
    ∃ s1 s2, processTransactions b cv hs [(rollup, depositTx rollup owner a)] (new q cv hs) = (s1, .ok ()) ∧
      processSignatures b cv hs rollup [(rollup, none)] s1 = (s2, .ok ()) ∧
      Reach b cv hs s1 ∧ Reach b cv hs s2 ∧ s1.transactions = [depositTx rollup owner a] ∧
      s2.transactions = s1.transactions ∧ (∀ v, live s1 v = 0) ∧ s1.signers = [] ∧ s1.ledger.next = 0 ∧
      s1.deposits = [] ∧ s1.withdrawals = [] ∧
      live s2 (UTXO.new owner a) = 1 ∧
      (∀ v, v.isDummy = false → v ≠ UTXO.new owner a → live s2 v = 0) ∧
      s2.deposits = [(owner, a)] ∧ s2.withdrawals = [] ∧ s2.signers = [some rollup] ∧
      s2.ledger.next ≤ 4 := by
  obtain ⟨s1, r1, q1, t1, l1, d1, w1, g1, _⟩ := tx_one (Reach.new (b := b) (cv := cv) (hs := hs)) rollup
    (depositTx rollup owner a) (by simp [new, TX_CAP]) (depositTx_valid b rollup owner a ha)
  have hlive : ∀ v, live s1 v = 0 := by
    intro v
    unfold live positions; rw [l1]; rfl
  have hn : s1.ledger.next = 0 := by rw [l1]; rfl
  have t1' : s1.transactions = [depositTx rollup owner a] := by rw [t1]; rfl
  obtain ⟨s2, r2, q2, a2, d2, w2, g2, t2, n2⟩ := sig_one (rollup := rollup) (x := (rollup, none)) q1
    (tx := depositTx rollup owner a) (by rw [t1']; rfl)
    (by rw [g1]; simp [new, TX_CAP]) (by rw [hn]; decide)
    (by simp [Approves]) (covers_of_spends_nil (depositTx_spends _ _ _))
    (by rw [depositTx_withdrawn h]; decide)
  rw [depositTx_spends, depositTx_creates h] at a2
  refine ⟨s1, s2, r1, r2, q1, q2, t1', t2, hlive, by rw [g1]; rfl, hn, by rw [d1]; rfl, by rw [w1]; rfl, ?_, ?_,
    ?_, ?_, ?_, ?_⟩
  · have := a2 (UTXO.new owner a) rfl
    rw [hlive] at this; simpa using this
  · intro v hv hne
    have := a2 v hv
    rw [hlive, List.count_nil, List.count_eq_zero_of_not_mem (by simpa using hne)] at this
    simpa using this
  · rw [d2, d1]
    simp [new, Tx.depositsOf, depositTx, UTXO.new, UTXO.dummy]
  · rw [w2, w1]
    simp [new, Tx.withdrawalsOf, depositTx_withdrawn h]
  · rw [g2, g1]; simp [new]
  · rw [hn] at n2
    exact n2

/-- Every secret key has a valid signature on every message (nonce 1). -/
theorem exists_sig [Fact q.Prime] (cv : Curve p q G) (hp : 0 < p) (hpq : p ≤ q)
    (H : List (ZMod p) → ZMod p) (sk : ZMod q) (m : List (ZMod p)) :
    ∃ sig, verify cv H (sk • cv.gen) m sig = true := by
  obtain ⟨sig, h⟩ := (Props.C25_sign_progress cv hp hpq H sk m 1 []).2 one_ne_zero
  exact ⟨sig, Props.C25_sign_verifies cv H sk m [1] sig h⟩

/-- A deposit of 5 to the holder of `sk`, and in the next epoch the payment of these 5 to `receiver`,
signed by the holder: `s3` is the state with the payment listed, `s4` the state after the signature. -/
theorem demo_payment [Fact q.Prime] (b : Build) (cv : Curve p q G) (hs : Hashes p) (hp : 0 < p) (hpq : p ≤ q)
    (rollup receiver : G) (sk : ZMod q)
    (h1 : sk • cv.gen ≠ rollup) (h2 : receiver ≠ rollup) (h3 : receiver ≠ sk • cv.gen) :
    ∃ s3 s4 sig, Reach b cv hs s3 ∧ Reach b cv hs s4 ∧
      s3.transactions = [payTx (sk • cv.gen) receiver 5] ∧ s3.signers = [] ∧
      (∀ l : List (Pair q G), l.length ≤ 2 → (Op.signatures rollup l).Fits s3) ∧
      Approves cv hs rollup (txRoot cv hs s3) (payTx (sk • cv.gen) receiver 5) (sk • cv.gen, some sig) = true ∧
      processSignatures b cv hs rollup [(sk • cv.gen, some sig)] s3 = (s4, .ok ()) ∧
      live s3 (UTXO.new (sk • cv.gen) 5) = 1 ∧
      (∀ v, v.isDummy = false → v ≠ UTXO.new (sk • cv.gen) 5 → live s3 v = 0) ∧
      live s4 (UTXO.new (sk • cv.gen) 5) = 0 ∧ live s4 (UTXO.new receiver 5) = 1 ∧
      s4.transactions = s3.transactions ∧ s4.signers = [some (sk • cv.gen)] ∧ s4.ledger.next ≤ 8 := by
  obtain ⟨s1, s2, _, _, _, r2, t1, t2, _, _, _, _, _, l1, l2, _, _, _, n2⟩ :=
    demo_deposit b cv hs h1 (a := 5) (by decide)
  have hpay : (payTx (sk • cv.gen) receiver 5).spends rollup = [UTXO.new (sk • cv.gen) 5] := by
    simp [payTx, Tx.spends, UTXO.onLedger, UTXO.dummy, UTXO.new, h1]
  have hcr : (payTx (sk • cv.gen) receiver 5).creates rollup = [UTXO.new receiver 5] := by
    simp [payTx, Tx.creates, UTXO.onLedger, UTXO.dummy, UTXO.new, h2]
  have hne : UTXO.new receiver 5 ≠ UTXO.new (sk • cv.gen) 5 := fun h => h3 (by
    have := congrArg UTXO.pk h; exact this)
  have hwd : (payTx (sk • cv.gen) receiver 5).withdrawn rollup < U64 := by
    have : (payTx (sk • cv.gen) receiver 5).withdrawn rollup = 0 := by
      simp [payTx, Tx.withdrawn, totalOf, UTXO.dummy, UTXO.new, h2, List.filter_cons]
      split <;> simp
    rw [this]; decide
  obtain ⟨s3, q3, r3, t3, g3, _, _, sg3, _⟩ := tx_one (reach_reset r2) (sk • cv.gen)
    (payTx (sk • cv.gen) receiver 5) (by simp [reset, TX_CAP]) (payTx_valid b _ _ _ (by decide))
  have t3' : s3.transactions[0]? = some (payTx (sk • cv.gen) receiver 5) := by rw [t3]; rfl
  have hl3 : ∀ v, live s3 v = live s2 v := fun v => by unfold live positions; rw [g3]; rfl
  have n3 : s3.ledger.next ≤ 4 := by rw [g3]; exact n2
  have sg3' : s3.signers = [] := by rw [sg3]; rfl
  obtain ⟨sig, hsig⟩ := exists_sig cv hp hpq hs.crh sk
    (txEnc cv (payTx (sk • cv.gen) receiver 5) ++ [txRoot cv hs s3])
  have hap : Approves cv hs rollup (txRoot cv hs s3) (payTx (sk • cv.gen) receiver 5)
      (sk • cv.gen, some sig) = true := by simp [Approves, hsig]
  obtain ⟨s4, q4, r4, a4, _, _, g4, t4, n4⟩ := sig_one (rollup := rollup) (x := (sk • cv.gen, some sig)) r3
    t3' (by rw [sg3']; simp [TX_CAP])
    (by rw [show TX_IO_SIZE = 4 from rfl, show UTXO_CAP = 2147483648 from rfl]; omega) hap
    (by
      intro v
      have : (payTx (sk • cv.gen) receiver 5).inputs.toList.filter (·.onLedger rollup) =
        [UTXO.new (sk • cv.gen) 5] := hpay
      rw [this, hl3]
      by_cases hv : v = UTXO.new (sk • cv.gen) 5
      · subst hv; rw [l1]; simp
      · rw [List.count_eq_zero_of_not_mem (by simpa using hv)]; exact Nat.zero_le _)
    hwd
  rw [hpay, hcr] at a4
  refine ⟨s3, s4, sig, r3, r4, by rw [t3]; rfl, sg3', ?_, hap, q4, by rw [hl3]; exact l1,
    fun v hv hv' => by rw [hl3]; exact l2 v hv hv', ?_, ?_, t4, by rw [g4, sg3']; rfl, ?_⟩
  · intro l hl
    refine ⟨by rw [sg3', show TX_CAP = 4096 from rfl]; simp; omega, ?_⟩
    rw [show TX_IO_SIZE = 4 from rfl, show UTXO_CAP = 2147483648 from rfl]; omega
  · have := a4 (UTXO.new (sk • cv.gen) 5) rfl
    have hz : [UTXO.new receiver 5].count (UTXO.new (sk • cv.gen) 5) = 0 :=
      List.count_eq_zero_of_not_mem (by simpa using hne.symm)
    rw [hl3, l1, hz] at this
    simpa using this
  · have := a4 (UTXO.new receiver 5) rfl
    have hz : [UTXO.new (sk • cv.gen) 5].count (UTXO.new receiver 5) = 0 :=
      List.count_eq_zero_of_not_mem (by simpa using hne)
    rw [hl3, l2 _ rfl hne, hz] at this
    simpa using this
  · rw [show TX_IO_SIZE = 4 from rfl] at n4; omega

/-- `demo_payment` in a group of order 7 over a field with 5 elements: the contract has key 1, the owner
key 3 (secret 1) and the receiver key 2. -/
theorem toy_payment (b : Build) (hs : Hashes 5) :
    ∃ (s3 s4 : State 5 7 (ZMod 7)) (sig : ZMod 7 × ZMod 7),
      Reach b Props.toyCurve2 hs s3 ∧ Reach b Props.toyCurve2 hs s4 ∧
      s3.transactions = [payTx 3 2 5] ∧ s3.signers = [] ∧
      (∀ l : List (Pair 7 (ZMod 7)), l.length ≤ 2 → (Op.signatures 1 l).Fits s3) ∧
      Approves Props.toyCurve2 hs 1 (txRoot Props.toyCurve2 hs s3) (payTx 3 2 5) (3, some sig) = true ∧
      processSignatures b Props.toyCurve2 hs 1 [(3, some sig)] s3 = (s4, .ok ()) ∧
      live s3 (UTXO.new 3 5) = 1 ∧
      (∀ v, v.isDummy = false → v ≠ UTXO.new 3 5 → live s3 v = 0) ∧
      live s4 (UTXO.new 3 5) = 0 ∧ live s4 (UTXO.new 2 5) = 1 ∧
      s4.transactions = s3.transactions ∧ s4.signers = [some 3] ∧ s4.ledger.next ≤ 8 := by
  have e3 : (1 : ZMod 7) • Props.toyCurve2.gen = 3 := by decide
  have n1 : (3 : ZMod 7) ≠ 1 := by decide
  have n2 : (2 : ZMod 7) ≠ 1 := by decide
  have n3 : (2 : ZMod 7) ≠ 3 := by decide
  have hF : Fact (Nat.Prime 7) := ⟨by decide⟩
  have h := @demo_payment 5 7 (ZMod 7) _ _ _ hF b Props.toyCurve2 hs (by decide) (by decide) 1 2 1
    (by rw [e3]; exact n1) n2 (by rw [e3]; exact n3)
  rw [e3] at h
  exact h

end PF.Agg
