import Verif.Props.AggregatorCalls

/-!
# Properties C88 and C89: what an accepted signature binds, and for how long
-/

set_option linter.unusedSectionVars false

namespace PF.Props
open PF PF.MT PF.Agg PF.Spec PF.Schnorr
variable {p q : Nat} {G : Type} [AddCommGroup G] [Module (ZMod q) G] [DecidableEq G]
variable (b : Build) (cv : Curve p q G) (hs : Hashes p)

/-! ## C88 -/

/-- Two different inputs with the same digest once cut to the bit size of the scalar field. -/
def CutCollision (q : Nat) (H : List (ZMod p) → ZMod p) (x y : List (ZMod p)) : Prop :=
  x ≠ y ∧ (H x).val % 2 ^ Circuit.modBits q = (H y).val % 2 ^ Circuit.modBits q

/-- Coordinates of the point the verifier recomputes from a key and a signature. -/
def recomputed (cv : Curve p q G) (pk : G) (sig : ZMod q × ZMod q) : List (ZMod p) :=
  let xy := (cv.xy (sig.1 • cv.gen + sig.2 • pk)).getD (0, 0)
  [xy.1, xy.2]

theorem verify_iff (H : List (ZMod p) → ZMod p) (pk : G) (m : List (ZMod p)) (sig : ZMod q × ZMod q) :
    Schnorr.verify cv H pk m sig = true ↔
      fromBigint q ((H (recomputed cv pk sig ++ m)).val % 2 ^ Circuit.modBits q) = some sig.2 := by
  unfold Schnorr.verify recomputed
  simp only [decide_eq_true_eq]

theorem cut_eq {H : List (ZMod p) → ZMod p} {x y : List (ZMod p)} {e : ZMod q}
    (hx : fromBigint q ((H x).val % 2 ^ Circuit.modBits q) = some e)
    (hy : fromBigint q ((H y).val % 2 ^ Circuit.modBits q) = some e) :
    (H x).val % 2 ^ Circuit.modBits q = (H y).val % 2 ^ Circuit.modBits q := by
  obtain ⟨h1, h2⟩ := fromBigint_some.1 hx
  obtain ⟨h3, h4⟩ := fromBigint_some.1 hy
  exact natCast_inj_of_lt h1 h3 (h2.trans h4.symm)

/-- **C88**: one signature accepted under one key for two messages is a collision of the (cut) hash on
two explicit inputs. -/
theorem C88_binds_message (H : List (ZMod p) → ZMod p) (pk : G) (m m' : List (ZMod p))
    (sig : ZMod q × ZMod q) (h : Schnorr.verify cv H pk m sig = true)
    (h' : Schnorr.verify cv H pk m' sig = true) :
    m = m' ∨ CutCollision q H (recomputed cv pk sig ++ m) (recomputed cv pk sig ++ m') := by
  rw [verify_iff] at h h'
  by_cases hm : m = m'
  · exact Or.inl hm
  · exact Or.inr ⟨fun he => hm (List.append_cancel_left he), cut_eq h h'⟩

/-- **C88**: one signature with non-zero challenge accepted for one message under two keys is a
collision, on a curve without a point at the coordinates (0, 0). -/
theorem C88_binds_key [Fact q.Prime] (H : List (ZMod p) → ZMod p) (pk pk' : G) (m : List (ZMod p))
    (sig : ZMod q × ZMod q) (h0 : ∀ P, cv.xy P ≠ some (0, 0)) (he : sig.2 ≠ 0)
    (h : Schnorr.verify cv H pk m sig = true) (h' : Schnorr.verify cv H pk' m sig = true) :
    pk = pk' ∨ CutCollision q H (recomputed cv pk sig ++ m) (recomputed cv pk' sig ++ m) := by
  rw [verify_iff] at h h'
  by_cases hk : pk = pk'
  · exact Or.inl hk
  · refine Or.inr ⟨fun hx => hk ?_, cut_eq h h'⟩
    have hxy : recomputed cv pk sig = recomputed cv pk' sig := List.append_cancel_right hx
    unfold recomputed at hxy
    simp only [List.cons.injEq, and_true] at hxy
    have hpt : cv.xy (sig.1 • cv.gen + sig.2 • pk) = cv.xy (sig.1 • cv.gen + sig.2 • pk') := by
      rcases e1 : cv.xy (sig.1 • cv.gen + sig.2 • pk) with _ | ⟨x, y⟩ <;>
        rcases e2 : cv.xy (sig.1 • cv.gen + sig.2 • pk') with _ | ⟨x', y'⟩ <;>
        rw [e1, e2] at hxy <;> simp only [Option.getD_none, Option.getD_some] at hxy
      · obtain ⟨rfl, rfl⟩ := hxy; exact absurd e2 (h0 _)
      · obtain ⟨rfl, rfl⟩ := hxy; exact absurd e1 (h0 _)
      · obtain ⟨rfl, rfl⟩ := hxy; rfl
    have := add_left_cancel (cv.xy_inj _ _ hpt)
    calc pk = sig.2⁻¹ • sig.2 • pk := by rw [← mul_smul, inv_mul_cancel₀ he, one_smul]
      _ = sig.2⁻¹ • sig.2 • pk' := by rw [this]
      _ = pk' := by rw [← mul_smul, inv_mul_cancel₀ he, one_smul]

/-- **C88**: the challenge zero is special: such a signature is accepted under one key exactly when it
is accepted under every key. -/
theorem C88_zero_challenge (H : List (ZMod p) → ZMod p) (pk pk' : G) (m : List (ZMod p)) (s : ZMod q) :
    Schnorr.verify cv H pk m (s, 0) = Schnorr.verify cv H pk' m (s, 0) := by
  unfold Schnorr.verify
  simp only [zero_smul]

/-- **C88**: a signature accepted in two blocks by the rule of the aggregator — for a transaction and the
transaction root of its block — was accepted for the same transaction and the same root, or it is a
collision. Amounts are below the field size (they are 64-bit in the code). -/
theorem C88_binds_block (hp : 1 < p) (pk : G) (t t' : Tx Nat G) (r r' : ZMod p)
    (ht : ∀ u ∈ t.ios, u.amount < p) (ht' : ∀ u ∈ t'.ios, u.amount < p) (sig : ZMod q × ZMod q)
    (h : Schnorr.verify cv hs.crh pk (txEnc cv t ++ [r]) sig = true)
    (h' : Schnorr.verify cv hs.crh pk (txEnc cv t' ++ [r']) sig = true) :
    (t = t' ∧ r = r') ∨ CutCollision q hs.crh (recomputed cv pk sig ++ (txEnc cv t ++ [r]))
      (recomputed cv pk sig ++ (txEnc cv t' ++ [r'])) := by
  rcases C88_binds_message cv hs.crh pk _ _ sig h h' with he | hc
  · exact Or.inl (C17_signed_message_injective cv hp t t' r r' ht ht' he)
  · exact Or.inr hc

/-- Non-vacuity: a curve without point (0, 0), keys and messages. The signature (5, 1) is accepted for
one message and rejected for another one and under another key; and this hash has collisions, so both
alternatives occur. -/
def toyCurve3 : Curve 5 7 (ZMod 7) :=
  { gen := 3
    gen_ne := by decide
    xy := fun P => if P = 0 then none else some ((P.val : ZMod 5), ((P.val / 5 + 1 : Nat) : ZMod 5))
    xy_none := by decide
    xy_inj := by decide }

example : (∀ P, toyCurve3.xy P ≠ some (0, 0)) ∧
    (∃ sig, Schnorr.verify toyCurve3 (toyH 5) 5 [1, 2] sig = true ∧ sig.2 ≠ 0 ∧
      Schnorr.verify toyCurve3 (toyH 5) 5 [1, 3] sig = false ∧
      Schnorr.verify toyCurve3 (toyH 5) 4 [1, 2] sig = false) ∧
    (∃ sig, Schnorr.verify toyCurve3 (toyH 5) 5 [1, 2] sig = true ∧
      Schnorr.verify toyCurve3 (toyH 5) 5 [0, 0] sig = true) ∧
    Schnorr.verify toyCurve3 (fun _ => 0) 5 [1, 2] (2, 0) = true := by
  refine ⟨by decide, ?_, ?_, by decide⟩ <;> decide

/-! ## C89 -/

/-- **C89**: whether a pair authorises a transaction depends on the transactions of the current epoch only.
In two states reached by any two histories whose epochs hold the same transactions, the same pairs are
recorded as signers. -/
theorem C89_depends_on_transactions_only (s s' t t' : State p q G) (h : Reach b cv hs s)
    (h' : Reach b cv hs s') (htx : s.transactions = s'.transactions) (rollup : G) (l : List (Pair q G))
    (hf : (Op.signatures rollup l).Fits s) (hf' : (Op.signatures rollup l).Fits s')
    (hr : processSignatures b cv hs rollup l s = (t, .ok ()))
    (hr' : processSignatures b cv hs rollup l s' = (t', .ok ())) :
    t.signers.drop s.signers.length = t'.signers.drop s'.signers.length ∧
    t.deposits.drop s.deposits.length = t'.deposits.drop s'.deposits.length := by
  have hroot : txRoot cv hs s = txRoot cv hs s' := by unfold txRoot; rw [htx]
  obtain ⟨_, h1, _⟩ := C43_appends b cv hs s t h rollup l hf hr
  obtain ⟨_, h2, _⟩ := C43_appends b cv hs s' t' h' rollup l hf' hr'
  obtain ⟨h3, _⟩ := C42_records b cv hs s t h rollup l hf hr
  obtain ⟨h4, _⟩ := C42_records b cv hs s' t' h' rollup l hf' hr'
  rw [h1, h2, h3, h4, hroot, htx]
  simp

theorem live_dummy {s : State p q G} (h : Reach b cv hs s) {v : UTXO Nat G} (hv : v.isDummy = true) :
    live s v = 0 := by
  unfold live; rw [(C38_utxo_tree_mirrors b cv hs s h).2.2.2.2 v hv]; rfl

theorem prefix_ok {s t : State p q G} {rollup : G} {l : List (Pair q G)} {x : Pair q G}
    (hr : processSignatures b cv hs rollup (l ++ [x]) s = (t, .ok ())) :
    ∃ s1, processSignatures b cv hs rollup l s = (s1, .ok ()) := by
  unfold processSignatures at hr ⊢
  rw [processFrom_append] at hr
  unfold SM.bind at hr
  rcases hx : processFrom b cv hs rollup 0 l s with ⟨s1, o⟩
  rw [hx] at hr
  cases o with
  | ok _ => exact ⟨s1, rfl⟩
  | err e => simp at hr
  | panic => simp at hr

/-- **C89**: replay. Whatever `process_signatures` accepted in one state, it accepts again, with the same
signatures and the same movements of UTXOs, in every reachable state whose epoch holds the same
transactions and whose ledger holds at least as many copies of each UTXO. No new consent is asked for. -/
theorem C89_replay (s s' t : State p q G) (h : Reach b cv hs s) (h' : Reach b cv hs s')
    (htx : s.transactions = s'.transactions) (hmore : ∀ v, live s v ≤ live s' v) (rollup : G)
    (l : List (Pair q G)) (hf : (Op.signatures rollup l).Fits s) (hf' : (Op.signatures rollup l).Fits s')
    (hr : processSignatures b cv hs rollup l s = (t, .ok ())) :
    ∃ t', processSignatures b cv hs rollup l s' = (t', .ok ()) ∧
      ∀ v, (live t' v : Int) - live s' v = (live t v : Int) - live s v := by
  have hroot : txRoot cv hs s = txRoot cv hs s' := by unfold txRoot; rw [htx]
  induction l using List.reverseRecOn generalizing t with
  | nil => exact ⟨s', rfl, by
      have : t = s := by
        have := congrArg Prod.fst hr
        exact this.symm
      subst this; intro v; simp⟩
  | append_singleton l x ih =>
    obtain ⟨s1, q1⟩ := prefix_ok b cv hs hr
    have hfl : (Op.signatures rollup l).Fits s := by
      refine ⟨le_trans (by simp) hf.1, le_trans ?_ hf.2⟩
      exact Nat.add_le_add_left (Nat.mul_le_mul_left _ (by simp)) _
    have hfl' : (Op.signatures rollup l).Fits s' := by
      refine ⟨le_trans (by simp) hf'.1, le_trans ?_ hf'.2⟩
      exact Nat.add_le_add_left (Nat.mul_le_mul_left _ (by simp)) _
    obtain ⟨t1, q1', hlive⟩ := ih s1 hfl hfl' q1
    have hlen := (C43_appends b cv hs s t h rollup (l ++ [x]) hf hr).1
    obtain ⟨tx, htx1⟩ : ∃ tx, s.transactions[l.length]? = some tx :=
      ⟨_, List.getElem?_eq_getElem (by
        simp only [List.length_append, List.length_cons, List.length_nil] at hlen; omega)⟩
    have o1 := ((C43_outcome b cv hs s s1 h rollup l x hf q1).2 tx htx1).1
    have o2 := ((C43_outcome b cv hs s' t1 h' rollup l x hf' q1').2 tx (by rw [← htx]; exact htx1)).1
    have hok : (processSignatures b cv hs rollup (l ++ [x]) s').2 = .ok () := by
      refine o2.2 fun ha => ?_
      rw [← hroot] at ha
      obtain ⟨c1, c2⟩ := o1.1 (by rw [hr]) ha
      refine ⟨fun v => le_trans (c1 v) ?_, c2⟩
      have e1 := hlive v
      have e2 := hmore v
      omega
    refine ⟨(processSignatures b cv hs rollup (l ++ [x]) s').1, ?_, ?_⟩
    · rw [← hok]
    · intro v
      have hr' : processSignatures b cv hs rollup (l ++ [x]) s' =
        ((processSignatures b cv hs rollup (l ++ [x]) s').1, .ok ()) := by rw [← hok]
      cases hv : v.isDummy with
      | true =>
        rw [live_dummy b cv hs h hv, live_dummy b cv hs h' hv,
          live_dummy b cv hs (reach_signatures h _ hf hr (by simp)) hv,
          live_dummy b cv hs (reach_signatures h' _ hf' hr' (by simp)) hv]
      | false =>
        have a1 := C39_accounting b cv hs s t h rollup (l ++ [x]) hf hr v hv
        have a2 := C39_accounting b cv hs s' _ h' rollup (l ++ [x]) hf' hr' v hv
        rw [← hroot, ← htx] at a2
        omega

/-- **C89**: a concrete replay. The contract deposits 5 for a user; the user signs once, a payment of 5 to
a receiver, which is executed; later the contract deposits 5 for the user again. In the next epoch anybody
can submit the old payment with the old signature: it is accepted and the user's new 5 are gone. -/
theorem C89_old_signature_spends_new_deposit [Fact q.Prime] (hp : 0 < p) (hpq : p ≤ q) (rollup receiver : G)
    (sk : ZMod q) (h1 : sk • cv.gen ≠ rollup) (h2 : receiver ≠ rollup) (h3 : receiver ≠ sk • cv.gen) :
    ∃ (sig : ZMod q × ZMod q) (s1 s2 s3 s4 s5 s6 s7 s8 : State p q G),
      -- first deposit
      processTransactions b cv hs [(rollup, depositTx rollup (sk • cv.gen) 5)] (Agg.new q cv hs) = (s1, .ok ()) ∧
      processSignatures b cv hs rollup [(rollup, none)] s1 = (s2, .ok ()) ∧
      -- the user pays, with a signature
      processTransactions b cv hs [(sk • cv.gen, payTx (sk • cv.gen) receiver 5)] (reset cv hs s2) =
        (s3, .ok ()) ∧
      processSignatures b cv hs rollup [(sk • cv.gen, some sig)] s3 = (s4, .ok ()) ∧
      -- second deposit
      processTransactions b cv hs [(rollup, depositTx rollup (sk • cv.gen) 5)] (reset cv hs s4) =
        (s5, .ok ()) ∧
      processSignatures b cv hs rollup [(rollup, none)] s5 = (s6, .ok ()) ∧
      -- the old payment with the old signature
      processTransactions b cv hs [(sk • cv.gen, payTx (sk • cv.gen) receiver 5)] (reset cv hs s6) =
        (s7, .ok ()) ∧
      processSignatures b cv hs rollup [(sk • cv.gen, some sig)] s7 = (s8, .ok ()) ∧
      live s6 (UTXO.new (sk • cv.gen) 5) = 1 ∧ live s6 (UTXO.new receiver 5) = 1 ∧
      live s8 (UTXO.new (sk • cv.gen) 5) = 0 ∧ live s8 (UTXO.new receiver 5) = 2 := by
  obtain ⟨s1, s2, q1, q2, _, r2, t1, t2, _, _, _, _, _, l1, l2, _, _, _, n2⟩ :=
    demo_deposit b cv hs h1 (a := 5) (by decide)
  have hpay : (payTx (sk • cv.gen) receiver 5).spends rollup = [UTXO.new (sk • cv.gen) 5] := by
    simp [payTx, Tx.spends, UTXO.onLedger, UTXO.dummy, UTXO.new, h1]
  have hcr : (payTx (sk • cv.gen) receiver 5).creates rollup = [UTXO.new receiver 5] := by
    simp [payTx, Tx.creates, UTXO.onLedger, UTXO.dummy, UTXO.new, h2]
  have hne : UTXO.new receiver 5 ≠ UTXO.new (sk • cv.gen) 5 := fun h => h3 (congrArg UTXO.pk h)
  have hwd : (payTx (sk • cv.gen) receiver 5).withdrawn rollup < U64 :=
    lt_of_le_of_lt (withdrawn_le _) (by simp [payTx, totalOf, UTXO.new, UTXO.dummy, U64])
  obtain ⟨s3, q3, r3, t3, g3, _, _, sg3, _⟩ := tx_one (reach_reset r2) (sk • cv.gen)
    (payTx (sk • cv.gen) receiver 5) (by simp [reset, TX_CAP]) (payTx_valid b _ _ _ (by decide))
  have t3' : s3.transactions[0]? = some (payTx (sk • cv.gen) receiver 5) := by rw [t3]; rfl
  have hl3 : ∀ v, live s3 v = live s2 v := fun v => by unfold live positions; rw [g3]; rfl
  obtain ⟨sig, hsig⟩ := exists_sig cv hp hpq hs.crh sk
    (txEnc cv (payTx (sk • cv.gen) receiver 5) ++ [txRoot cv hs s3])
  have n3 : s3.ledger.next ≤ 4 := by rw [g3]; exact n2
  have cap : 2147483648 = UTXO_CAP := rfl
  have io : TX_IO_SIZE = 4 := rfl
  obtain ⟨s4, q4, r4, a4, _, _, _, _, n4⟩ := sig_one (rollup := rollup) (x := (sk • cv.gen, some sig)) r3
    t3' (by rw [sg3]; simp [reset, TX_CAP]) (by rw [← cap, io]; omega)
    (by simp [Approves, hsig])
    (by
      intro v
      have : (payTx (sk • cv.gen) receiver 5).inputs.toList.filter (·.onLedger rollup) =
        [UTXO.new (sk • cv.gen) 5] := hpay
      rw [this, hl3]
      by_cases hv : v = UTXO.new (sk • cv.gen) 5
      · subst hv; rw [l1]; simp
      · rw [List.count_eq_zero_of_not_mem (by simpa using hv)]; exact Nat.zero_le _)
    hwd
  rw [io] at n4
  rw [hpay, hcr] at a4
  have b1 : live s4 (UTXO.new (sk • cv.gen) 5) = 0 := by
    have := a4 (UTXO.new (sk • cv.gen) 5) rfl
    have hz : [UTXO.new receiver 5].count (UTXO.new (sk • cv.gen) 5) = 0 :=
      List.count_eq_zero_of_not_mem (by simpa using hne.symm)
    rw [hl3, l1, hz] at this
    simpa using this
  have b2 : live s4 (UTXO.new receiver 5) = 1 := by
    have := a4 (UTXO.new receiver 5) rfl
    have hz : [UTXO.new (sk • cv.gen) 5].count (UTXO.new receiver 5) = 0 :=
      List.count_eq_zero_of_not_mem (by simpa using hne)
    rw [hl3, l2 _ rfl hne, hz] at this
    simpa using this
  obtain ⟨s5, q5, r5, t5, g5, _, _, sg5, _⟩ := tx_one (reach_reset r4) rollup
    (depositTx rollup (sk • cv.gen) 5) (by simp [reset, TX_CAP]) (depositTx_valid b _ _ _ (by decide))
  have n5 : s5.ledger.next ≤ 8 := by rw [g5]; exact le_trans n4 (by omega)
  have hl5 : ∀ v, live s5 v = live s4 v := fun v => by unfold live positions; rw [g5]; rfl
  obtain ⟨s6, q6, r6, a6, _, _, _, _, n6⟩ := sig_one (rollup := rollup) (x := (rollup, none)) r5
    (tx := depositTx rollup (sk • cv.gen) 5) (by rw [t5]; rfl) (by rw [sg5]; simp [reset, TX_CAP])
    (by rw [← cap, io]; omega) (by simp [Approves])
    (covers_of_spends_nil (depositTx_spends _ _ _)) (by rw [depositTx_withdrawn h1]; decide)
  rw [io] at n6
  rw [depositTx_spends, depositTx_creates h1] at a6
  have c1 : live s6 (UTXO.new (sk • cv.gen) 5) = 1 := by
    have := a6 (UTXO.new (sk • cv.gen) 5) rfl
    rw [hl5, b1] at this
    simpa using this
  have c2 : live s6 (UTXO.new receiver 5) = 1 := by
    have := a6 (UTXO.new receiver 5) rfl
    have hz : [UTXO.new (sk • cv.gen) 5].count (UTXO.new receiver 5) = 0 :=
      List.count_eq_zero_of_not_mem (by simpa using hne)
    rw [hl5, b2, hz] at this
    simpa using this
  obtain ⟨s7, q7, r7, t7, g7, _, _, sg7, _⟩ := tx_one (reach_reset r6) (sk • cv.gen)
    (payTx (sk • cv.gen) receiver 5) (by simp [reset, TX_CAP]) (payTx_valid b _ _ _ (by decide))
  have hl7 : ∀ v, live s7 v = live s6 v := fun v => by unfold live positions; rw [g7]; rfl
  have n7 : s7.ledger.next ≤ 12 := by rw [g7]; exact le_trans n6 (by omega)
  have hmore : ∀ v, live s3 v ≤ live s7 v := by
    intro v
    rw [hl3, hl7]
    by_cases hv : v = UTXO.new (sk • cv.gen) 5
    · subst hv; rw [l1, c1]
    · cases hd : v.isDummy with
      | true => rw [live_dummy b cv hs r2 hd]; exact Nat.zero_le _
      | false => rw [l2 v hd hv]; exact Nat.zero_le _
  obtain ⟨s8, q8, a8⟩ := C89_replay b cv hs s3 s7 s4 r3 r7 (by rw [t3, t7]; rfl) hmore rollup
    [(sk • cv.gen, some sig)]
    ⟨by rw [sg3]; simp [reset, TX_CAP], by
      simp only [List.length_cons, List.length_nil]; rw [← cap, io]; omega⟩
    ⟨by rw [sg7]; simp [reset, TX_CAP], by
      simp only [List.length_cons, List.length_nil]; rw [← cap, io]; omega⟩ q4
  refine ⟨sig, s1, s2, s3, s4, s5, s6, s7, s8, q1, q2, q3, q4, q5, q6, q7, q8, c1, c2, ?_, ?_⟩
  · have := a8 (UTXO.new (sk • cv.gen) 5)
    rw [hl7, c1, b1, hl3, l1] at this
    omega
  · have := a8 (UTXO.new receiver 5)
    rw [hl7, c2, b2, hl3, l2 _ rfl hne] at this
    omega

/-- Non-vacuity: keys as required exist. -/
example : (4 : ZMod 7) • toyCurve2.gen ≠ 1 ∧ (2 : ZMod 7) ≠ 1 ∧ (2 : ZMod 7) ≠ (4 : ZMod 7) • toyCurve2.gen ∧
    5 ≤ 7 := by decide

end PF.Props
