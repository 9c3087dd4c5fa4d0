import Verif.Props.EndToEnd
import Verif.Props.Contract

/-!
# C79, C80 and examples for C76–C80
-/

set_option linter.unusedSectionVars false

namespace PF.Props
open PF PF.MT PF.Agg PF.Spec PF.Client PF.Schnorr
variable {p q : Nat} {G : Type} [AddCommGroup G] [Module (ZMod q) G] [DecidableEq G]

/-- The contract after two users joined. -/
def twoUsers (rollup a b : G) : Contract.State G :=
  (Contract.join (Contract.join (Contract.new rollup) 0 a).1 0 b).1

theorem twoUsers_registered (rollup a b k : G) (h : k = rollup ∨ k = a ∨ k = b) :
    Registered (twoUsers rollup a b) k := by
  unfold Registered twoUsers Contract.join Contract.new Contract.join
  simp only [HMap.get_insert]
  rcases h with rfl | rfl | rfl <;> (repeat' split) <;> simp_all

/-- Two deposits of which the first `m` are authorised, and the block produced from them. -/
theorem two_deposits (b : Build) (cv : Curve p q G) (hs : Hashes p) (rollup k1 k2 : G) (m1 m2 : Nat)
    (h1 : k1 ≠ rollup) (h2 : k2 ≠ rollup) (hm1 : m1 < U64) (hm2 : m2 < U64) (m : Nat) (hm : m ≤ 2) :
    ∃ s c blk, SignerLeaves b cv hs s (depositSigners rollup m) ∧
      Executed b cv hs rollup s (([(k1, m1), (k2, m2)].take m).map fun d => depositTx rollup d.1 d.2) ∧
      Represents cv hs s c ∧
      s.transactions = [depositTx rollup k1 m1, depositTx rollup k2 m2] ∧
      s.signers = List.replicate m (some rollup) ∧
      s.deposits = [(k1, m1), (k2, m2)].take m ∧ s.withdrawals = [] ∧
      produceBlock (twoUsers rollup k1 k2) s = .ok blk ∧
      Books b cv hs rollup s true (([(k1, m1), (k2, m2)].take m).map (·.2)).sum 0 ∧
      blk.signers.length = m ∧ blk.deposits = (([(k1, m1), (k2, m2)].take m).map fun d =>
        (regIndex (twoUsers rollup k1 k2) d.1, d.2)) := by
  obtain ⟨s1, e1, r1, t1, g1, dd, ww, hf, hrest⟩ := deposits_epoch b cv hs rollup [(k1, m1), (k2, m2)]
    (by
      intro d hd
      simp only [List.mem_cons, List.not_mem_nil, or_false] at hd
      rcases hd with rfl | rfl
      · exact ⟨h1, hm1⟩
      · exact ⟨h2, hm2⟩) (by simp)
  obtain ⟨s2, e2, t2, g2, ap, d2, w2⟩ := hrest m (by simpa using hm)
  have lv := deposits_leaves (by simp [depositList]) e1 g1 (hf m (by simpa using hm)) e2 g2
  have hx : Executed b cv hs rollup s1 [] := by
    have := Executed.transactions (b := b) (cv := cv) (hs := hs) (rollup := rollup)
      (depositList rollup [(k1, m1), (k2, m2)]) Executed.new
      (show 0 + 2 ≤ TX_CAP by decide) (by rw [e1]; simp)
    rw [e1] at this
    exact this
  have hx2 := Executed.signatures _ hx (hf m (by simpa using hm)) e2
  rw [ap, List.nil_append, List.map_map] at hx2
  have r2 := reach_signatures r1 _ (hf m (by simpa using hm)) e2 (by simp)
  obtain ⟨c, sc, hi⟩ := reach_inv r2
  obtain ⟨ur, sr, _, _, eb⟩ := (C48_produce_block b cv hs s2 r2 (twoUsers rollup k1 k2)).1 (by
    intro pk hpk
    apply twoUsers_registered
    rw [g2, d2, w2] at hpk
    rcases hpk with hpk | hpk | hpk
    · left
      have := (List.mem_replicate.1 hpk).2
      simpa using this
    · right
      have : pk ∈ ([(k1, m1), (k2, m2)] : List (G × Nat)).map (·.1) := by
        obtain ⟨d, hd, rfl⟩ := List.mem_map.1 hpk
        exact List.mem_map_of_mem (List.mem_of_mem_take hd)
      simpa using this
    · simp at hpk)
  have bk1 := Books.transactions (b := b) (cv := cv) (hs := hs) (rollup := rollup)
    (depositList rollup [(k1, m1), (k2, m2)]) Books.new (show 0 + 2 ≤ TX_CAP by decide) (by rw [e1]; simp)
    (Or.inr (by
      intro x hx
      simp only [depositList, List.map_cons, List.map_nil, List.mem_cons, List.not_mem_nil, or_false] at hx
      rcases hx with rfl | rfl <;> simp [depositTx, totalOf, UTXO.dummy, UTXO.new, hm1, hm2]))
  rw [e1] at bk1
  have bk2 := Books.signatures (rollup := rollup) _ (([(k1, m1), (k2, m2)] : List (G × Nat)).take m) [] bk1
    (hf m (by simpa using hm)) (by
      intro y hy
      have hy1 := (List.of_mem_zip hy).1
      have hy2 : y.2 = (rollup, none) := (List.mem_replicate.1 (List.of_mem_zip hy).2).2
      rw [hy2]
      rw [t1] at hy1
      simp only [depositList, List.map_cons, List.map_nil, List.mem_cons, List.not_mem_nil, or_false] at hy1
      rcases hy1 with h | h <;> rw [h] <;> intro u hu hud <;> simp [depositTx] at hu <;>
        rcases hu with rfl | rfl <;> first | rfl | (cases hud)) e2 (by simp)
    (by rw [d2, dd]; rfl) (by rw [w2, ww]; rfl)
  refine ⟨s2, c, _, lv, hx2, hi.represents, by rw [t2, t1]; rfl, g2, d2, w2, eb, ?_, ?_, ?_⟩
  · simpa [totalAmount] using bk2
  · simp [g2]
  · simp only [d2]

/-- **C79** (consequence): the client counts a transaction the aggregator never executed. Of two deposits
submitted in an epoch only the first is authorised; the second is in the block's transaction tree, its
amount is neither in the ledger nor among the block's deposits, but the receiver's client credits it, because
the contract's key is a leaf of the signer tree. -/
theorem C79_unexecuted_transaction_counted (h : FieldOk p) (b : Build) (P : Client.Params p)
    (cv : Curve p q G) (rollup k1 k2 : G) (m1 m2 : Nat) (h1 : k1 ≠ rollup) (h2 : k2 ≠ rollup) (h12 : k1 ≠ k2)
    (h0 : k2 ≠ 0) (hm1 : m1 < U64) (hm2 : m2 < U64) (n : Nat) (hn : 0 < n) :
    ∃ s c blk aux z', Reach b cv P.hs s ∧
      Executed b cv P.hs rollup s [depositTx rollup k1 m1] ∧ Represents cv P.hs s c ∧
      heldBy c UTXO_CAP k1 = m1 ∧ heldBy c UTXO_CAP k2 = 0 ∧
      s.deposits = [(k1, m1)] ∧ s.signers = [some rollup] ∧
      produceBlock (twoUsers rollup k1 k2) s = .ok blk ∧
      assemble cv P.hs s blk k2 n [(1, 0)] = .ok aux ∧ aux.block = blk ∧
      updateBalance P cv n (freshUser cv P.hs k2) aux.alloc z' ∧ z'.balance = (m2 : ZMod p) := by
  obtain ⟨s, c, blk, lv, hx, hc, t, g, d, w, hb, -, -, -⟩ :=
    two_deposits b cv P.hs rollup k1 k2 m1 m2 h1 h2 hm1 hm2 1 (by decide)
  have hR := (signerLeaves_inv lv).1
  obtain ⟨aux, z', e1, e2, -, e4, e5, -⟩ := C79_listed_countable h b P cv s _ lv _ blk hb k2 h0
    (freshUser cv P.hs k2) (fresh_ready _ _ _ _) (fun _ => rfl) 1 0 (depositTx rollup k2 m2) (by decide)
    (by rw [t]; rfl) (by decide) (by rw [deposit_getSigner]; rfl) n hn
  have b1 := C76_balance b cv P.hs rollup s _ hx k1 h1 c hc
  have b2 := C76_balance b cv P.hs rollup s _ hx k2 h2 c hc
  refine ⟨s, c, blk, aux, z', hR, hx, hc, ?_, ?_, d, g, hb, e1, e2, e4, ?_⟩
  · generalize heldBy c UTXO_CAP k1 = v at b1 ⊢
    simpa [paidBy_deposit h1, paidTo_deposit] using b1
  · generalize heldBy c UTXO_CAP k2 = v at b2 ⊢
    simpa [paidBy_deposit h2, paidTo_deposit, h12] using b2
  rw [e5, receivedNat_deposit, spentNat_deposit h2]
  simp [freshUser]

/-! ## C80 -/

theorem heldBy_succ (c : Nat → UTXO Nat G) (n : Nat) (k : G) :
    heldBy c (n + 1) k = heldBy c n k + if (c n).pk = k then slotValue (c n) else 0 := by
  unfold heldBy
  rw [List.range_succ, List.map_append, List.filter_append, Agg.totalOf_append]
  congr 1
  by_cases h : (c n).pk = k
  · simp [h, totalOf, slotValue]
  · simp [h, totalOf]

/-- Different keys hold different parts of the ledger. -/
theorem heldBy_sum_le (c : Nat → UTXO Nat G) (ks : List G) (hks : ks.Nodup) (n : Nat) :
    (ks.map (heldBy c n)).sum ≤ ledgerValue c n := by
  induction n with
  | zero =>
    have : ks.map (heldBy c 0) = List.replicate ks.length 0 := by
      rw [List.eq_replicate_iff]
      exact ⟨by simp, by intro v hv; obtain ⟨k, _, rfl⟩ := List.mem_map.1 hv; rfl⟩
    rw [this]; simp
  | succ n ih =>
    rw [ledgerValue_succ]
    have e : (ks.map (heldBy c (n + 1))).sum = (ks.map (heldBy c n)).sum +
        (ks.map fun k => if (c n).pk = k then slotValue (c n) else 0).sum := by
      rw [← List.sum_map_add]
      congr 1
      apply List.map_congr_left
      intro k _
      exact heldBy_succ c n k
    have e2 : (ks.map fun k => if (c n).pk = k then slotValue (c n) else 0).sum ≤ slotValue (c n) := by
      clear ih e
      induction ks with
      | nil => simp
      | cons k ks ih =>
        rw [List.nodup_cons] at hks
        rw [List.map_cons, List.sum_cons]
        by_cases h : (c n).pk = k
        · rw [if_pos h]
          have : (ks.map fun k => if (c n).pk = k then slotValue (c n) else 0) = List.replicate ks.length 0 := by
            rw [List.eq_replicate_iff]
            refine ⟨by simp, ?_⟩
            intro v hv
            obtain ⟨k', hk', rfl⟩ := List.mem_map.1 hv
            rw [if_neg]
            rintro e; exact hks.1 (by rw [← h, e]; exact hk')
          rw [this]; simp
        · rw [if_neg h, Nat.zero_add]; exact ih hks.2
    omega

/-- A client that has shown exactly the authorised transactions involving its key (see C77). -/
structure Faithful (P : Client.Params p) (cv : Curve p q G) (n : Nat) (ts : List (Tx Nat G)) (k : G)
    (z' : UState p) : Prop where
  run : ∃ (z : UState p) (as : List (UserAux p G)), z.balance = 0 ∧ (∀ a ∈ as, a.pk = k) ∧
    Client.runSteps P cv n z (as.map UserAux.alloc) z' ∧ (∀ t ∈ shownTxs as, CleanTx t) ∧
    ((shownTxs as).filter (Involves k)).Perm (ts.filter (Involves k))

theorem val_le_of_cast {x : ZMod p} {m : Nat} (h : x = (m : ZMod p)) : x.val ≤ m := by
  rw [h, ZMod.val_natCast]; exact Nat.mod_le _ _

theorem sum_backed (cs : List (G × UState p)) (g : G → Nat) (V : Nat) {w d : Nat}
    (h1 : ∀ x ∈ cs, x.2.balance.val ≤ g x.1) (h3 : ((cs.map (·.1)).map g).sum ≤ V) (h4 : V + w = d) :
    (cs.map fun x => x.2.balance.val).sum + w ≤ d := by
  have h2 : (cs.map fun x => x.2.balance.val).sum ≤ ((cs.map (·.1)).map g).sum := by
    rw [List.map_map]
    exact List.sum_le_sum h1
  omega

/-- **C80**: the balances of different clients together never exceed what was deposited minus what
was withdrawn, provided each client has shown exactly the authorised transactions involving its key, without
amounts in dummies. The condition is needed, and the circuit does not enforce it: C79,
`C80_balance_out_of_nothing`. -/
theorem C80_backed (h : FieldOk p) (b : Build) (P : Client.Params p) (cv : Curve p q G) (n : Nat)
    (rollup : G) (s : Agg.State p q G) (d w : Nat) (hbk : Books b cv P.hs rollup s true d w)
    (ts : List (Tx Nat G)) (hx : Executed b cv P.hs rollup s ts)
    (cs : List (G × UState p)) (hnd : (cs.map (·.1)).Nodup) (hk : ∀ x ∈ cs, x.1 ≠ rollup)
    (hf : ∀ x ∈ cs, Faithful P cv n ts x.1 x.2) :
    (cs.map fun x => x.2.balance.val).sum + w ≤ d := by
  obtain ⟨c, hc, -, hv⟩ := C40_supply b cv P.hs rollup s true d w hbk
  refine sum_backed cs (heldBy c UTXO_CAP) _ (fun x hxm => ?_)
    (heldBy_sum_le c (cs.map (·.1)) hnd UTXO_CAP) (hv rfl)
  obtain ⟨z, as, f1, f2, f3, f4, f5⟩ := (hf x hxm).run
  exact val_le_of_cast (C77_balance_is_ledger h b P cv rollup s ts hx c hc x.1 (hk x hxm) n z x.2 f1 as f2 f3
    f4 f5).1

/-- Non-vacuity of C76–C78 and C80: both deposits are authorised, and the second receiver's client, which shows
its deposit, ends with what the ledger holds for it. -/
theorem two_deposits_client (h : FieldOk p) (b : Build) (P : Client.Params p) (cv : Curve p q G) (rollup k1 k2 : G)
    (h1 : k1 ≠ rollup) (h2 : k2 ≠ rollup) (h12 : k1 ≠ k2) (h0 : k2 ≠ 0) :
    ∃ s ts c as z', Executed b cv P.hs rollup s ts ∧ Books b cv P.hs rollup s true 12 0 ∧ ts.length = 2 ∧ Represents cv P.hs s c ∧
      (∀ a ∈ as, a.pk = k2) ∧
      Client.runSteps P cv 3 (freshUser cv P.hs k2) (as.map UserAux.alloc) z' ∧
      (∀ t ∈ shownTxs as, CleanTx t) ∧
      ((shownTxs as).filter (Involves k2)).Perm (ts.filter (Involves k2)) ∧
      heldBy c UTXO_CAP k2 = 7 ∧ z'.balance = 7 := by
  obtain ⟨s, c, blk, lv, hx, hc, t, g, d, w, hb, hbk, -, -⟩ :=
    two_deposits b cv P.hs rollup k1 k2 5 7 h1 h2 (by decide) (by decide) 2 (by decide)
  obtain ⟨hR, ho, ci, hi⟩ := signerLeaves_inv lv
  obtain ⟨aux, z', e1, e2, e3, e4, e5⟩ := C78_accepted_transactions h b P cv s _ lv _ blk hb k2 h0
    (freshUser cv P.hs k2) (fresh_ready _ _ _ _)
    (fun _ => rfl) 3 [1] (by decide) (by
      intro i hi
      rw [List.mem_singleton.1 hi]
      refine ⟨by decide, depositTx rollup k2 7, by rw [t]; rfl, ?_⟩
      rw [g, deposit_getSigner]; rfl) (List.pairwise_singleton _ _)
  have hsh : shownTxs [aux] = [depositTx rollup k2 7, Tx.default, Tx.default] := by
    unfold shownTxs
    rw [List.flatMap_cons, assemble_txs e1]
    simp [t]
  have hd : Involves k2 (Tx.default : Tx Nat G) = false := by
    simp [Involves, Tx.default, Tx.ios, UTXO.dummy, h0.symm]
  have hy : Involves k2 (depositTx rollup k2 7) = true := by
    simp [Involves, Tx.ios, depositTx, UTXO.new, UTXO.dummy]
  have hn1 : Involves k2 (depositTx rollup k1 5) = false := by
    simp [Involves, Tx.ios, depositTx, UTXO.new, UTXO.dummy, h0.symm, h12, h2.symm]
  have b2 := C76_balance b cv P.hs rollup s _ hx k2 h2 c hc
  refine ⟨s, _, c, [aux], z', hx, hbk, rfl, hc, ?_, ⟨z', e4, rfl⟩, ?_, ?_, ?_, ?_⟩
  · intro a ha; rw [List.mem_singleton.1 ha]; exact e3
  · rw [hsh]
    intro t ht
    simp only [List.mem_cons, List.not_mem_nil, or_false, or_self] at ht
    rcases ht with rfl | rfl
    · intro u hu hud
      simp [Tx.ios, depositTx] at hu
      rcases hu with rfl | rfl | rfl | rfl
      · cases hud
      · rfl
      · cases hud
      · rfl
    · intro u hu hud
      simp [Tx.ios, Tx.default, UTXO.dummy] at hu
      rw [hu]
  · rw [hsh]
    simp [hd, hy, hn1]
  · generalize heldBy c UTXO_CAP k2 = v at b2 ⊢
    simpa [paidBy_deposit h2, paidTo_deposit, h12] using b2
  · rw [e5, List.map_singleton, t]
    show (0 : ZMod p) + ([(receivedNat k2 (depositTx rollup k2 7) : ZMod p) -
      (spentNat k2 (depositTx rollup k2 7) : ZMod p)]).sum = 7
    rw [receivedNat_deposit, spentNat_deposit h2]
    simp

/-- Non-vacuity of C80. -/
example (h : FieldOk p) (b : Build) (P : Client.Params p) (cv : Curve p q G) (rollup k1 k2 : G)
    (h1 : k1 ≠ rollup) (h2 : k2 ≠ rollup) (h12 : k1 ≠ k2) (h0 : k2 ≠ 0) :
    ∃ s ts z', Executed b cv P.hs rollup s ts ∧ Books b cv P.hs rollup s true 12 0 ∧
      Faithful P cv 3 ts k2 z' ∧ z'.balance = 7 := by
  obtain ⟨s, ts, c, as, z', e1, e2, -, -, e5, e6, e7, e8, -, e10⟩ :=
    two_deposits_client h b P cv rollup k1 k2 h1 h2 h12 h0
  exact ⟨s, ts, z', e1, e2, ⟨_, as, rfl, e5, e6, e7, e8⟩, e10⟩

/-- **C80** fails without the restriction: a new aggregator accepts two transactions, nobody signs anything,
and the block produced lets any user credit itself any amount; nothing was deposited and the ledger is
empty. -/
theorem C80_balance_out_of_nothing (h : FieldOk p) (b : Build) (P : Client.Params p) (cv : Curve p q G)
    (rollup k sender : G) (hk : k ≠ 0) (m : Nat) (n : Nat) (hn : 0 < n) :
    ∃ s c blk aux z',
      processTransactions b cv P.hs [(sender, Tx.default), (sender, mintTx k m)] (Agg.new q cv P.hs) =
        (s, .ok ()) ∧
      Represents cv P.hs s c ∧ ledgerValue c UTXO_CAP = 0 ∧ s.deposits = [] ∧
      produceBlock (Contract.new rollup) s = .ok blk ∧ blk.signers = [] ∧ blk.deposits = [] ∧
      assemble cv P.hs s blk k n [(1, 0)] = .ok aux ∧ aux.block = blk ∧
      updateBalance P cv n (freshUser cv P.hs k) aux.alloc z' ∧ z'.balance = (m : ZMod p) := by
  have hval : ∀ x ∈ [(sender, (Tx.default : Tx Nat G)), (sender, mintTx k m)],
      x.2.isValid b (some x.1) = .ok () := by
    intro x hx
    simp only [List.mem_cons, List.not_mem_nil, or_false] at hx
    rcases hx with rfl | rfl
    · cases b <;> simp [Tx.default, Tx.isValid, nonDummy, UTXO.dummy, sumU64] <;> rfl
    · cases b <;> simp [mintTx, Tx.isValid, nonDummy, UTXO.dummy, sumU64] <;> rfl
  obtain ⟨t, πs, e⟩ := C44_longest_valid_prefix b cv P.hs _ Reach.new
    [(sender, Tx.default), (sender, mintTx k m)] (by simp [Agg.new])
  have hall : ∀ x ∈ [(sender, (Tx.default : Tx Nat G)), (sender, mintTx k m)],
      decide (x.2.isValid b (some x.1) = .ok ()) = true := fun x hx => decide_eq_true (hval x hx)
  rw [List.dropWhile_eq_nil_iff.2 hall, List.takeWhile_eq_self_iff.2 hall] at e
  simp only [List.head?_nil] at e
  generalize hs1 : ({ Agg.new q cv P.hs with
      transactions := (Agg.new q cv P.hs).transactions ++
        [(sender, (Tx.default : Tx Nat G)), (sender, mintTx k m)].map (·.2),
      txTree := t, txProofs := (Agg.new q cv P.hs).txProofs ++ πs } : Agg.State p q G) = s at e
  have ht : s.transactions = [Tx.default, mintTx k m] := by rw [← hs1]; rfl
  have hg : s.signers = [] := by rw [← hs1]; rfl
  have hd : s.deposits = [] := by rw [← hs1]; rfl
  have hw : s.withdrawals = [] := by rw [← hs1]; rfl
  have hfit : (Op.transactions [(sender, (Tx.default : Tx Nat G)), (sender, mintTx k m)] : Op q G).Fits
    (Agg.new q cv P.hs) := show 0 + 2 ≤ TX_CAP by decide
  have lv := SignerLeaves.call (b := b) (cv := cv) (hs := P.hs) (Agg.new q cv P.hs) (.transactions _) _
    SignerLeaves.new hfit (by simp [Op.run, e])
  simp only [Op.run, e] at lv
  have bk := Books.transactions (b := b) (cv := cv) (hs := P.hs) (rollup := rollup) _ Books.new hfit
    (by rw [e]; simp) (Or.inr (by
      intro x hx
      simp only [List.mem_cons, List.not_mem_nil, or_false] at hx
      rcases hx with rfl | rfl <;> simp [Tx.default, mintTx, totalOf, UTXO.dummy, U64]))
  rw [e] at bk
  obtain ⟨c, hc, -, hv⟩ := C40_supply b cv P.hs rollup s true 0 0 bk
  have hR := (signerLeaves_inv lv).1
  obtain ⟨ur, sr, _, _, eb⟩ := (C48_produce_block b cv P.hs s hR (Contract.new rollup)).1 (by
    intro pk hpk
    rw [hg, hd, hw] at hpk
    simp at hpk)
  have hov : overlay (fun _ => (0 : G)) s.signers 0 = (mintTx k m : Tx Nat G).getSigner := by
    rw [hg]
    simp [overlay, Tx.getSigner, mintTx, UTXO.dummy, Circuit.select]
  obtain ⟨aux, z', e1, e2, -, e4, e5, -⟩ := C79_listed_countable h b P cv s _ lv _ _ eb k hk
    (freshUser cv P.hs k) (fresh_ready _ _ _ _) (fun _ => rfl) 1 0 (mintTx k m) (by decide)
    (by rw [ht]; rfl) (by decide) hov n hn
  refine ⟨s, c, _, aux, z', e, hc, ?_, hd, eb, ?_, ?_, e1, e2, e4, ?_⟩
  · exact (Nat.add_eq_zero_iff.1 (hv rfl)).1
  · simp [hg]
  · simp [hd]
  · rw [e5]
    have r1 : receivedNat k (mintTx k m) = m := by
      simp [receivedNat, mintTx, UTXO.dummy, List.filter_cons, hk.symm]
    have r2 : spentNat k (mintTx k m) = 0 := by
      simp [spentNat, mintTx, UTXO.dummy, List.filter_cons, hk.symm]
    rw [r1, r2]
    simp [freshUser]

end PF.Props
