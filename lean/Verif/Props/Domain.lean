import Verif.Spec.Foreign
import Verif.Props.SignatureBinding
import Verif.Props.SignatureUse
import Verif.Proof.Shapes

/-!
# Property C126: signatures are not tied to a rollup
-/
set_option linter.unusedSectionVars false

namespace PF.Props
open PF PF.MT PF.Agg PF.Spec PF.AggC PF.Contract
variable {p q : Nat} {G : Type} [AddCommGroup G] [Module (ZMod q) G] [DecidableEq G]
variable (b : Build) (cv : Curve p q G) (hs : Hashes p)

/-! ## The aggregator -/

theorem onOk_keeps_txs {ε α β : Type} (x : Outcome Unit α) (s : Agg.State p q G) (T : List (Tx Nat G))
    (f : α → Agg.State p q G × Outcome ε β) (h : s.transactions = T) (hf : ∀ a, (f a).1.transactions = T) :
    (onOk x s f).1.transactions = T := by
  unfold onOk
  split
  · exact hf _
  all_goals exact h

theorem keeps_onLedger {α : Type} (T : List (Tx Nat G)) (m : SM (Ledger p G) AggError α) :
    Keeps (fun s : Agg.State p q G => s.transactions = T) (onLedger m) (fun _ => True) :=
  fun _ h => ⟨h, fun _ _ => trivial⟩

theorem keeps_addSigner (T : List (Tx Nat G)) (pk : G) :
    Keeps (fun s : Agg.State p q G => s.transactions = T) (addSigner cv hs pk) (fun _ => True) :=
  fun s h => ⟨onOk_keeps_txs _ s T _ h fun _ => h, fun _ _ => trivial⟩

theorem keeps_addOne (rollup : G) (T : List (Tx Nat G)) (pk : G) (u : UTXO Nat G) (w : Nat) :
    Keeps (fun s : Agg.State p q G => s.transactions = T) (addOne b cv hs rollup pk u w) (fun _ => True) := by
  unfold addOne
  split
  · exact Keeps.pure trivial
  · refine Keeps.bind (Q := fun _ => True) (fun s h => ⟨?_, fun _ _ => trivial⟩) fun _ _ => ?_
    · unfold recordDeposit
      dsimp only
      split
      · exact h
      · exact h
    · split
      · exact (keeps_onLedger T _).bind fun _ _ => Keeps.pure trivial
      · exact Keeps.bind (Q := fun _ => True) (fun s h => ⟨h, fun _ _ => trivial⟩) fun _ _ => Keeps.pure trivial

theorem keeps_addOutputs (rollup : G) (T : List (Tx Nat G)) (pk : G) (us : List (UTXO Nat G)) (w : Nat) :
    Keeps (fun s : Agg.State p q G => s.transactions = T) (addOutputs b cv hs rollup pk us w) (fun _ => True) := by
  induction us generalizing w with
  | nil => exact Keeps.pure trivial
  | cons u us ih =>
    exact (keeps_addOne b cv hs rollup T pk u w).bind fun a _ => (ih a.2).bind fun _ _ => Keeps.pure trivial

theorem keeps_pushInputs (T : List (Tx Nat G)) (i : Nat) (tx : Tx Nat G) (dels adds : List (ZMod p × List (ZMod p)))
    (sp : List (ZMod p)) (pk : G) (sig : ZMod q × ZMod q) :
    Keeps (fun s : Agg.State p q G => s.transactions = T) (pushInputs i tx dels adds sp pk sig) (fun _ => True) := by
  refine fun s h => ⟨?_, fun _ _ => trivial⟩
  unfold pushInputs
  split
  · exact h
  · exact h

theorem keeps_processOne (rollup : G) (T : List (Tx Nat G)) (i : Nat) (pk : G) (sig : Option (ZMod q × ZMod q)) :
    Keeps (fun s : Agg.State p q G => s.transactions = T) (processOne b cv hs rollup i pk sig) (fun _ => True) := by
  intro s h
  unfold processOne
  split
  · split
    · exact ((keeps_addSigner cv hs T pk).bind fun sp _ => (keeps_onLedger T _).bind fun dels _ =>
        (keeps_addOutputs b cv hs rollup T pk _ 0).bind fun r _ =>
        Keeps.bind (Q := fun _ => True) (fun s h => ⟨by unfold recordWithdrawal; dsimp only; split <;> exact h,
          fun _ _ => trivial⟩) fun _ _ => keeps_pushInputs T i _ dels r.1 sp pk _) s h
    · exact keeps_pushInputs T i _ _ _ _ pk _ { s with signers := s.signers ++ [none] } h
  · exact ⟨h, fun _ _ => trivial⟩

theorem deleteInputs_foreign (r r' : G) (us : List (UTXO Nat G))
    (h : ∀ u ∈ us, u.isDummy = false → u.pk ≠ r) (h' : ∀ u ∈ us, u.isDummy = false → u.pk ≠ r') :
    deleteInputs cv hs r us = deleteInputs cv hs r' us := by
  induction us with
  | nil => rfl
  | cons u us ih =>
    have e : deleteOne cv hs r u = deleteOne cv hs r' u := by
      funext l
      unfold deleteOne
      cases hd : u.isDummy with
      | true => rfl
      | false => rw [if_pos (h u (by simp) hd), if_pos (h' u (by simp) hd)]
    unfold deleteInputs
    rw [e, ih (fun v hv => h v (by simp [hv])) (fun v hv => h' v (by simp [hv]))]

theorem addOutputs_foreign (r r' pk : G) (hk : pk ≠ r) (hk' : pk ≠ r') (us : List (UTXO Nat G)) (w : Nat)
    (h : ∀ u ∈ us, u.isDummy = false → u.pk ≠ r) (h' : ∀ u ∈ us, u.isDummy = false → u.pk ≠ r') :
    (addOutputs b cv hs r pk us w : SM (Agg.State p q G) AggError _) = addOutputs b cv hs r' pk us w := by
  induction us generalizing w with
  | nil => rfl
  | cons u us ih =>
    have e : (addOne b cv hs r pk u w : SM (Agg.State p q G) AggError _) = addOne b cv hs r' pk u w := by
      unfold addOne
      cases hd : u.isDummy with
      | true => rfl
      | false =>
        have e1 : (recordDeposit r pk u : SM (Agg.State p q G) AggError Unit) = recordDeposit r' pk u := by
          funext s; unfold recordDeposit; rw [if_neg hk, if_neg hk']
        rw [e1, if_pos (h u (by simp) hd), if_pos (h' u (by simp) hd)]
    unfold addOutputs
    rw [e]
    congr 1
    funext a
    rw [ih a.2 (fun v hv => h v (by simp [hv])) (fun v hv => h' v (by simp [hv]))]

theorem processOne_foreign (r r' : G) (s : Agg.State p q G)
    (h : ∀ tx ∈ s.transactions, Foreign r tx ∧ Foreign r' tx) (i : Nat) (pk : G) (hk : pk ≠ r) (hk' : pk ≠ r')
    (sig : Option (ZMod q × ZMod q)) :
    processOne b cv hs r i pk sig s = processOne b cv hs r' i pk sig s := by
  unfold processOne
  split
  · rename_i tx root htx _
    obtain ⟨f, f'⟩ := h tx (List.mem_of_getElem? htx)
    have ea : accepted cv hs r root tx pk (sig.getD (0, 0)) = accepted cv hs r' root tx pk (sig.getD (0, 0)) := by
      unfold accepted; simp [hk, hk']
    rw [ea]
    have e : applyAccepted b cv hs r i tx pk (sig.getD (0, 0)) = applyAccepted b cv hs r' i tx pk (sig.getD (0, 0)) := by
      unfold applyAccepted
      rw [deleteInputs_foreign cv hs r r' tx.inputs.toList (fun u hu => f u (by simp [hu])) (fun u hu => f' u (by simp [hu])),
        addOutputs_foreign b cv hs r r' pk hk hk' tx.outputs.toList 0 (fun u hu => f u (by simp [hu]))
          (fun u hu => f' u (by simp [hu]))]
    rw [e]
  · rfl

/-- **C126** (aggregator): for pairs of other keys and transactions that have nothing to do with either contract,
`process_signatures` of two rollups is the same function: nothing in the message signed names the rollup. -/
theorem C126_same_for_every_rollup (r r' : G) (s : Agg.State p q G)
    (h : ∀ tx ∈ s.transactions, Foreign r tx ∧ Foreign r' tx) (l : List (Pair q G))
    (hl : ∀ x ∈ l, x.1 ≠ r ∧ x.1 ≠ r') :
    processSignatures b cv hs r l s = processSignatures b cv hs r' l s := by
  unfold processSignatures
  generalize 0 = i
  induction l generalizing i s with
  | nil => rfl
  | cons x l ih =>
    unfold processFrom
    obtain ⟨h1, h2⟩ := hl x (by simp)
    unfold SM.bind
    rw [processOne_foreign b cv hs r r' s h i x.1 h1 h2 x.2]
    have hk := (keeps_processOne b cv hs r' s.transactions i x.1 x.2 s rfl).1
    rcases hx : processOne b cv hs r' i x.1 x.2 s with ⟨s1, o⟩
    rw [hx] at hk
    cases o with
    | ok _ => exact ih s1 (by rw [hk]; exact h) (fun y hy => hl y (by simp [hy])) (i + 1)
    | err e => rfl
    | panic => rfl

/-- **C126** (aggregator): replay on another rollup. What `process_signatures` of one rollup accepted, with these
signatures, `process_signatures` of any other rollup accepts as well, with the same movements of UTXOs, in every
reachable state whose epoch holds the same transactions and whose ledger holds at least as many copies of each UTXO. -/
theorem C126_replay_elsewhere (r r' : G) (s s' t : Agg.State p q G) (h : Reach b cv hs s) (h' : Reach b cv hs s')
    (htx : s.transactions = s'.transactions) (hmore : ∀ v, live s v ≤ live s' v)
    (hfor : ∀ tx ∈ s.transactions, Foreign r tx ∧ Foreign r' tx)
    (l : List (Pair q G)) (hl : ∀ x ∈ l, x.1 ≠ r ∧ x.1 ≠ r')
    (hf : (Op.signatures r l).Fits s) (hf' : (Op.signatures r' l).Fits s')
    (hr : processSignatures b cv hs r l s = (t, .ok ())) :
    ∃ t', processSignatures b cv hs r' l s' = (t', .ok ()) ∧
      ∀ v, (live t' v : Int) - live s' v = (live t v : Int) - live s v := by
  rw [C126_same_for_every_rollup b cv hs r r' s hfor l hl] at hr
  exact C89_replay b cv hs s s' t h h' htx hmore r' l ⟨hf.1, hf.2⟩ hf' hr

/-- **C126** (aggregator), a concrete replay on another rollup. On rollup `r` a user receives a deposit of 5 and signs
once, a payment of 5 to a receiver, which is executed. On rollup `r'`, with another contract and another aggregator,
the same user has received a deposit of 5 as well. There anybody can submit the payment of rollup `r` with the
signature given for it: it is accepted and the user's 5 on rollup `r'` are gone. -/
theorem C126_signature_spends_elsewhere [Fact q.Prime] (hp : 0 < p) (hpq : p ≤ q) (r r' receiver : G)
    (sk : ZMod q) (h1 : sk • cv.gen ≠ r) (h1' : sk • cv.gen ≠ r') (h2 : receiver ≠ r) (h2' : receiver ≠ r')
    (h3 : receiver ≠ sk • cv.gen) :
    ∃ (sig : ZMod q × ZMod q) (s1 s2 s3 s4 t1 t2 t3 t4 : Agg.State p q G),
      -- rollup `r`: deposit, then payment with a signature
      processTransactions b cv hs [(r, depositTx r (sk • cv.gen) 5)] (Agg.new q cv hs) = (s1, .ok ()) ∧
      processSignatures b cv hs r [(r, none)] s1 = (s2, .ok ()) ∧
      processTransactions b cv hs [(sk • cv.gen, payTx (sk • cv.gen) receiver 5)] (reset cv hs s2) = (s3, .ok ()) ∧
      processSignatures b cv hs r [(sk • cv.gen, some sig)] s3 = (s4, .ok ()) ∧
      -- rollup `r'`: deposit, then the same payment with the same signature
      processTransactions b cv hs [(r', depositTx r' (sk • cv.gen) 5)] (Agg.new q cv hs) = (t1, .ok ()) ∧
      processSignatures b cv hs r' [(r', none)] t1 = (t2, .ok ()) ∧
      processTransactions b cv hs [(sk • cv.gen, payTx (sk • cv.gen) receiver 5)] (reset cv hs t2) = (t3, .ok ()) ∧
      processSignatures b cv hs r' [(sk • cv.gen, some sig)] t3 = (t4, .ok ()) ∧
      live t2 (UTXO.new (sk • cv.gen) 5) = 1 ∧ live t2 (UTXO.new receiver 5) = 0 ∧
      live t4 (UTXO.new (sk • cv.gen) 5) = 0 ∧ live t4 (UTXO.new receiver 5) = 1 := by
  obtain ⟨s1, s2, q1, q2, _, r2, t1, t2, _, _, _, _, _, l1, l2, _, _, _, n2⟩ :=
    demo_deposit b cv hs h1 (a := 5) (by decide)
  obtain ⟨u1, u2, w1, w2, _, y2, _, _, _, _, _, _, _, m1, m2, _, _, _, o2⟩ :=
    demo_deposit b cv hs h1' (a := 5) (by decide)
  have hpay : (payTx (sk • cv.gen) receiver 5).spends r = [UTXO.new (sk • cv.gen) 5] := by
    simp [payTx, Tx.spends, UTXO.onLedger, UTXO.dummy, UTXO.new, h1]
  have hcr : (payTx (sk • cv.gen) receiver 5).creates r = [UTXO.new receiver 5] := by
    simp [payTx, Tx.creates, UTXO.onLedger, UTXO.dummy, UTXO.new, h2]
  have hne : UTXO.new receiver 5 ≠ UTXO.new (sk • cv.gen) 5 := fun h => h3 (congrArg UTXO.pk h)
  have hwd : (payTx (sk • cv.gen) receiver 5).withdrawn r < U64 :=
    lt_of_le_of_lt (withdrawn_le _) (by simp [payTx, totalOf, UTXO.new, UTXO.dummy, U64])
  have hfor : ∀ k, sk • cv.gen ≠ k → receiver ≠ k → Foreign k (payTx (sk • cv.gen) receiver 5) := by
    intro k e1 e2 u hu hd
    simp only [payTx, List.mem_append] at hu
    rcases hu with hu | hu
    all_goals
      simp at hu
      rcases hu with rfl | rfl
      · assumption
      · simp [UTXO.dummy] at hd
  obtain ⟨s3, q3, r3, t3, g3, _, _, sg3, _⟩ := tx_one (reach_reset r2) (sk • cv.gen)
    (payTx (sk • cv.gen) receiver 5) (by simp [reset, TX_CAP]) (payTx_valid b _ _ _ (by decide))
  obtain ⟨u3, w3, y3, v3, x3, _, _, z3, _⟩ := tx_one (reach_reset y2) (sk • cv.gen)
    (payTx (sk • cv.gen) receiver 5) (by simp [reset, TX_CAP]) (payTx_valid b _ _ _ (by decide))
  have t3' : s3.transactions[0]? = some (payTx (sk • cv.gen) receiver 5) := by rw [t3]; rfl
  have hl3 : ∀ v, live s3 v = live s2 v := fun v => by unfold live positions; rw [g3]; rfl
  have hk3 : ∀ v, live u3 v = live u2 v := fun v => by unfold live positions; rw [x3]; rfl
  obtain ⟨sig, hsig⟩ := exists_sig cv hp hpq hs.crh sk
    (txEnc cv (payTx (sk • cv.gen) receiver 5) ++ [txRoot cv hs s3])
  have n3 : s3.ledger.next ≤ 4 := by rw [g3]; exact n2
  have n3' : u3.ledger.next ≤ 4 := by rw [x3]; exact o2
  have cap : 2147483648 = UTXO_CAP := rfl
  have io : TX_IO_SIZE = 4 := rfl
  obtain ⟨s4, q4, r4, a4, _, _, _, _, n4⟩ := sig_one (rollup := r) (x := (sk • cv.gen, some sig)) r3
    t3' (by rw [sg3]; simp [reset, TX_CAP]) (by rw [← cap, io]; omega)
    (by simp [Approves, hsig])
    (by
      intro v
      have : (payTx (sk • cv.gen) receiver 5).inputs.toList.filter (·.onLedger r) =
        [UTXO.new (sk • cv.gen) 5] := hpay
      rw [this, hl3]
      by_cases hv : v = UTXO.new (sk • cv.gen) 5
      · subst hv; rw [l1]; simp
      · rw [List.count_eq_zero_of_not_mem (by simpa using hv)]; exact Nat.zero_le _)
    hwd
  rw [hpay, hcr] at a4
  have b1 : live s4 (UTXO.new (sk • cv.gen) 5) = 0 := by
    have := a4 (UTXO.new (sk • cv.gen) 5) rfl
    have hz : [UTXO.new receiver 5].count (UTXO.new (sk • cv.gen) 5) = 0 :=
      List.count_eq_zero_of_not_mem (by simpa using hne.symm)
    rw [hl3, l1, hz] at this
    simpa using this
  have b2 : live s4 (UTXO.new receiver 5) = 1 := by
    have := a4 (UTXO.new receiver 5) rfl
    have hz : [UTXO.new (sk • cv.gen) 5].count (UTXO.new receiver 5) = 0 :=
      List.count_eq_zero_of_not_mem (by simpa using hne)
    rw [hl3, l2 _ rfl hne, hz] at this
    simpa using this
  have hmore : ∀ v, live s3 v ≤ live u3 v := by
    intro v
    rw [hl3, hk3]
    by_cases hv : v = UTXO.new (sk • cv.gen) 5
    · subst hv; rw [l1, m1]
    · cases hd : v.isDummy with
      | true => rw [live_dummy b cv hs r2 hd]; exact Nat.zero_le _
      | false => rw [l2 v hd hv]; exact Nat.zero_le _
  obtain ⟨u4, w4, c4⟩ := C126_replay_elsewhere b cv hs r r' s3 u3 s4 r3 y3 (by rw [t3, v3]; rfl) hmore
    (by
      have e : s3.transactions = [payTx (sk • cv.gen) receiver 5] := by rw [t3]; rfl
      rw [e]; intro tx htx; rw [List.mem_singleton.1 htx]; exact ⟨hfor r h1 h2, hfor r' h1' h2'⟩)
    [(sk • cv.gen, some sig)] (by intro x hx; rw [List.mem_singleton.1 hx]; exact ⟨h1, h1'⟩)
    ⟨by rw [sg3]; simp [reset, TX_CAP], by
      simp only [List.length_cons, List.length_nil]; rw [← cap, io]; omega⟩
    ⟨by rw [z3]; simp [reset, TX_CAP], by
      simp only [List.length_cons, List.length_nil]; rw [← cap, io]; omega⟩ q4
  refine ⟨sig, s1, s2, s3, s4, u1, u2, u3, u4, q1, q2, q3, q4, w1, w2, w3, w4, m1, m2 _ rfl hne, ?_, ?_⟩
  · have := c4 (UTXO.new (sk • cv.gen) 5)
    rw [hk3, m1, b1, hl3, l1] at this
    omega
  · have := c4 (UTXO.new receiver 5)
    rw [hk3, m2 _ rfl hne, b2, hl3, l2 _ rfl hne] at this
    omega

/-- Non-vacuity: keys as required exist. -/
example : (4 : ZMod 7) • toyCurve2.gen ≠ 1 ∧ (4 : ZMod 7) • toyCurve2.gen ≠ 3 ∧ (2 : ZMod 7) ≠ 1 ∧ (2 : ZMod 7) ≠ 3 ∧
    (2 : ZMod 7) ≠ (4 : ZMod 7) • toyCurve2.gen ∧ (1 : ZMod 7) ≠ 3 := by decide

/-! ## The circuit -/

theorem enforce_foreign {P P' : Params p G} (hcrh : P'.hs = P.hs) (hsha : P'.sha = P.sha)
    (hmode : P'.transferOnly = P.transferOnly) (cv : Curve p q G) (i : CInputs p G)
    (h : ForeignInput P.contract i.senderPk i.tx) (h' : ForeignInput P'.contract i.senderPk i.tx) (sigOk : Bool)
    (us : List (UTXO (ZMod p) G)) (hus : ∀ u ∈ us, u ∈ i.tx.outputs.toList) (as : List (ZMod p × List (ZMod p)))
    (dep w r dep' w' r' : ZMod p) :
    addLoop P cv (decide (i.senderPk = P.contract)) sigOk us as dep w r dep' w' r' ↔
      addLoop P' cv (decide (i.senderPk = P'.contract)) sigOk us as dep w r dep' w' r' := by
  induction us generalizing as dep w r with
  | nil => cases as <;> rfl
  | cons u us ih =>
    cases as with
    | nil => rfl
    | cons a as =>
      have key : ∀ (c c' : G), (u.isDummy = false → u.pk ≠ c) → (u.isDummy = false → u.pk ≠ c') →
          (sigOk && !decide (u.pk = c) && !u.isDummy) = (sigOk && !decide (u.pk = c') && !u.isDummy) ∧
          (decide (u.pk = c) && !u.isDummy) = (decide (u.pk = c') && !u.isDummy) := by
        intro c c' e e'
        cases hd : u.isDummy with
        | true => simp
        | false => simp [e hd, e' hd]
      obtain ⟨k1, k2⟩ := key P.contract P'.contract
        (fun hd => h.2 u (by simp [hus u (by simp)]) hd)
        (fun hd => h'.2 u (by simp [hus u (by simp)]) hd)
      have ed : ∀ dep1, depositStep P cv (decide (i.senderPk = P.contract)) u dep dep1 ↔
          depositStep P' cv (decide (i.senderPk = P'.contract)) u dep dep1 := by
        intro dep1
        unfold depositStep
        rw [hmode, hsha, decide_eq_false h.1, decide_eq_false h'.1]
      unfold addLoop
      simp only [ed, k1, k2, hcrh]
      constructor
      · rintro ⟨dep1, r1, a1, a2, a3⟩
        exact ⟨dep1, r1, a1, a2, (ih (fun v hv => hus v (by simp [hv])) _ _ _ _).1 a3⟩
      · rintro ⟨dep1, r1, a1, a2, a3⟩
        exact ⟨dep1, r1, a1, a2, (ih (fun v hv => hus v (by simp [hv])) _ _ _ _).2 a3⟩

theorem step_foreign {P P' : Params p G} (hcrh : P'.hs = P.hs) (hsha : P'.sha = P.sha)
    (hmode : P'.transferOnly = P.transferOnly) (cv : Curve p q G) (i : CInputs p G)
    (h : ForeignInput P.contract i.senderPk i.tx) (h' : ForeignInput P'.contract i.senderPk i.tx) (z z' : CState p) :
    stepOne P cv z i z' ↔ stepOne P' cv z i z' := by
  have hw : ∀ w a a', withdrawalStep P' cv i.senderPk w a a' ↔ withdrawalStep P cv i.senderPk w a a' := by
    intro w a a'; unfold withdrawalStep; rw [hmode, hsha]
  have ha : ∀ x r dep dep' w' r', addLoop P cv (decide (i.senderPk = P.contract)) x i.tx.outputs.toList i.adds dep 0 r dep' w' r' ↔
      addLoop P' cv (decide (i.senderPk = P'.contract)) x i.tx.outputs.toList i.adds dep 0 r dep' w' r' := fun x r dep dep' w' r' =>
    enforce_foreign hcrh hsha hmode cv i h h' x _ (fun _ h => h) _ _ _ _ _ _ _
  rw [decide_eq_false h.1, decide_eq_false h'.1] at ha
  unfold stepOne
  simp only [decide_eq_false h.1, decide_eq_false h'.1, ha, hw, hcrh, hsha]

/-- **C126** (circuit): a run whose transactions have nothing to do with either contract is accepted by the circuit of
one rollup exactly when it is accepted by that of the other, with the same states. -/
theorem C126_same_circuit (P P' : Params p G) (hcrh : P'.hs = P.hs) (hsha : P'.sha = P.sha)
    (hmode : P'.transferOnly = P.transferOnly) (cv : Curve p q G) (z z' : CState p) (bs : List (List (CInputs p G)))
    (h : ∀ i ∈ bs.flatten, ForeignInput P.contract i.senderPk i.tx ∧ ForeignInput P'.contract i.senderPk i.tx) :
    runSteps P cv z bs z' ↔ runSteps P' cv z bs z' := by
  rw [runSteps_flatten, runSteps_flatten]
  generalize bs.flatten = is at h
  induction is generalizing z with
  | nil => rfl
  | cons i is ih =>
    obtain ⟨h1, h2⟩ := h i (by simp)
    constructor
    · rintro ⟨z1, a1, a2⟩
      exact ⟨z1, (step_foreign hcrh hsha hmode cv i h1 h2 z z1).1 a1, (ih z1 fun j hj => h j (by simp [hj])).1 a2⟩
    · rintro ⟨z1, a1, a2⟩
      exact ⟨z1, (step_foreign hcrh hsha hmode cv i h1 h2 z z1).2 a1, (ih z1 fun j hj => h j (by simp [hj])).2 a2⟩

end PF.Props
