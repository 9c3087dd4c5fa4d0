import Verif.Proof.ChainBalances
import Verif.Props.EndToEndDemo
import Verif.Props.AggregatorExact
import Verif.Props.ClientExamples

/-!
# Property C105: balances of keys and clients along a chain of accepted blocks

As C76, C77 and C80, but for blocks accepted from any provers instead of blocks produced by an aggregator that
runs the code.
-/
set_option linter.unusedSectionVars false

namespace PF.Props
open PF PF.MT PF.Agg PF.Spec PF.AggC PF.Contract PF.Client
variable {p q : Nat} {G : Type} [AddCommGroup G] [Module (ZMod q) G] [DecidableEq G]

/-- **C105**: over a chain of accepted blocks the holdings of every key other than the contract's change by
exactly what the authorised transactions pay to it minus what they take from it, or a collision is exhibited. -/
theorem C105_key_balance (h : Sizes p q) (P : AggC.Params p G) (cv : Curve p q G) (es : List (Epoch p G))
    (u u' : ZMod p) (hch : Chain P cv u es u') (c : Nat → UTXO (ZMod p) G)
    (hc : RootOf P.hs (utxoEncVar cv) 32 c u) :
    (∃ c', RootOf P.hs (utxoEncVar cv) 32 c' u' ∧ ∀ k, k ≠ P.contract →
      heldVal c' UTXO_CAP k + ((chainTxs P cv es).map (takesFrom k)).sum =
        heldVal c UTXO_CAP k + ((chainTxs P cv es).map (paysTo k)).sum) ∨
    Collision P.hs (utxoEncVar cv) 32 c (chainUpds P cv es) := by
  rcases C102_ledger h P cv es u u' hch c hc with ⟨hl, hr⟩ | hcol
  · exact Or.inl ⟨_, hr, fun k hk => chain_held h hch hl hk⟩
  · exact Or.inr hcol

theorem clean_pays [NeZero p] {k : G} {t : Tx (ZMod p) G} (hc : Clean t) :
    received k t = (paysTo k t : ZMod p) ∧ spent k t = (takesFrom k t : ZMod p) := by
  have key : ∀ l : List (UTXO (ZMod p) G), (∀ u ∈ l, u.isDummy = true → u.amount = 0) →
      ((l.filter fun u => u.pk = k).map (·.amount)).sum = (totalVal (l.filter fun u => u.pk = k) : ZMod p) := by
    intro l hl
    unfold totalVal
    induction l with
    | nil => simp
    | cons u l ih =>
      have hi := ih fun v hv => hl v (by simp [hv])
      by_cases hu : u.pk = k
      · rw [List.filter_cons_of_pos (by simpa using hu), List.map_cons, List.sum_cons, List.map_cons,
          List.sum_cons, hi, Nat.cast_add]
        congr 1
        cases hd : u.isDummy with
        | true => simp [hl u (by simp) hd]
        | false => exact (ZMod.natCast_zmod_val u.amount).symm
      · rw [List.filter_cons_of_neg (by simpa using hu)]; exact hi
  exact ⟨key _ fun u hu => hc u (by simp [Tx.ios, hu]), key _ fun u hu => hc u (by simp [Tx.ios, hu])⟩

theorem not_mentioned {k : G} {t : Tx (ZMod p) G} (h : Mentions k t = false) :
    paysTo k t = 0 ∧ takesFrom k t = 0 := by
  have key : ∀ l : List (UTXO (ZMod p) G), (∀ u ∈ l, u.pk ≠ k) → totalVal (l.filter fun u => u.pk = k) = 0 := by
    intro l hl
    have : l.filter (fun u => decide (u.pk = k)) = [] := by
      rw [List.filter_eq_nil_iff]; intro u hu; simpa using hl u hu
    rw [this]; rfl
  have hn : ∀ u ∈ t.ios, u.pk ≠ k := by
    intro u hu hk
    unfold Mentions at h
    rw [List.any_eq_false] at h
    exact h u hu (by simp [hk])
  exact ⟨key _ fun u hu => hn u (by simp [Tx.ios, hu]), key _ fun u hu => hn u (by simp [Tx.ios, hu])⟩

theorem sum_mentioned (k : G) {f : Tx (ZMod p) G → Nat} (hf : ∀ t, Mentions k t = false → f t = 0)
    (l : List (Tx (ZMod p) G)) : (l.map f).sum = ((l.filter (Mentions k)).map f).sum := by
  induction l with
  | nil => rfl
  | cons t l ih =>
    cases h : Mentions k t with
    | true => rw [List.filter_cons_of_pos h, List.map_cons, List.map_cons, List.sum_cons, List.sum_cons, ih]
    | false => rw [List.filter_cons_of_neg (by simp [h]), List.map_cons, List.sum_cons, hf t h, ih, zero_add]

/-- Client `k`, starting with balance zero, has shown exactly the authorised transactions of the chain that
mention its key, in any order and split over any steps, and their dummies carry no amounts; it ends with state
`z'`. -/
def FaithfulTo (Q : Client.Params p) (cv : Curve p q G) (n : Nat) (ts : List (Tx (ZMod p) G)) (k : G)
    (z' : UState p) : Prop :=
  ∃ (z : UState p) (as : List (UserAuxVar p G)), z.balance = 0 ∧ (∀ a ∈ as, a.pk = k) ∧
    Client.runSteps Q cv n z as z' ∧ (∀ t ∈ shownVar as, Clean t) ∧
    ((shownVar as).filter (Mentions k)).Perm (ts.filter (Mentions k))

/-- The balance of such a client. -/
theorem faithful_balance (hf : FieldOk p) {Q : Client.Params p} {cv : Curve p q G} {n : Nat}
    {ts : List (Tx (ZMod p) G)} {k : G} {z' : UState p} (h : FaithfulTo Q cv n ts k z') :
    z'.balance = ((ts.map (paysTo k)).sum : ZMod p) - ((ts.map (takesFrom k)).sum : Nat) := by
  have : NeZero p := ⟨by have := hf.large; intro h0; rw [h0] at this; revert this; decide⟩
  obtain ⟨z, as, hz, hpk, hrun, hclean, hsame⟩ := h
  have h1 := (C61_balance_and_nonce hf Q cv n z z' as hrun).1
  rw [hz, zero_add] at h1
  have h2 : (as.map fun a => (a.transactions.map fun t => received a.pk t.1 - spent a.pk t.1).sum).sum =
      (((shownVar as).map (paysTo k)).sum : ZMod p) - (((shownVar as).map (takesFrom k)).sum : Nat) := by
    clear hrun hsame h1
    induction as with
    | nil => simp [shownVar]
    | cons a as ih =>
      have hi := ih (fun x hx => hpk x (by simp [hx])) (fun t ht => hclean t (by
        simp only [shownVar, List.flatMap_cons, List.mem_append]; exact Or.inr ht))
      have ha : ∀ t ∈ a.transactions, Clean t.1 := fun t ht => hclean t.1 (by
        simp only [shownVar, List.flatMap_cons, List.mem_append]
        exact Or.inl (List.mem_map_of_mem ht))
      have hk := hpk a (by simp)
      have e : shownVar (a :: as) = a.transactions.map (·.1) ++ shownVar as := rfl
      rw [List.map_cons, List.sum_cons, hi, e, List.map_append, List.sum_append, List.map_append, List.sum_append]
      have hs : (a.transactions.map fun t => received a.pk t.1 - spent a.pk t.1).sum =
          ((((a.transactions.map (·.1)).map (paysTo k)).sum : Nat) : ZMod p) -
            ((((a.transactions.map (·.1)).map (takesFrom k)).sum : Nat) : ZMod p) := by
        rw [hk]
        clear hi e
        generalize a.transactions = l at ha
        induction l with
        | nil => simp
        | cons t l ih2 =>
          obtain ⟨r1, r2⟩ := clean_pays (k := k) (ha t (by simp))
          simp only [List.map_cons, List.sum_cons, Nat.cast_add]
          rw [ih2 (fun x hx => ha x (by simp [hx])), r1, r2]
          ring
      rw [hs]
      push_cast
      ring
  rw [h1, h2]
  have e1 : ((shownVar as).map (paysTo k)).sum = (ts.map (paysTo k)).sum := by
    rw [sum_mentioned k (fun t ht => (not_mentioned ht).1), sum_mentioned k (fun t ht => (not_mentioned ht).1) ts]
    exact (hsame.map _).sum_eq
  have e2 : ((shownVar as).map (takesFrom k)).sum = (ts.map (takesFrom k)).sum := by
    rw [sum_mentioned k (fun t ht => (not_mentioned ht).2), sum_mentioned k (fun t ht => (not_mentioned ht).2) ts]
    exact (hsame.map _).sum_eq
  rw [e1, e2]

/-- **C105**: a client that starts with balance zero and has shown exactly the authorised transactions of a chain
of accepted blocks that mention its key has as balance what the ledger committed to by the last block holds for
the key. -/
theorem C105_client_balance (h : Sizes p q) (hf : FieldOk p) (P : AggC.Params p G) (Q : Client.Params p)
    (cv : Curve p q G) (es : List (Epoch p G)) (u u' : ZMod p) (hch : Chain P cv u es u')
    (hc : RootOf P.hs (utxoEncVar cv) 32 (fun _ => UTXO.dummy) u) :
    (∃ c', RootOf P.hs (utxoEncVar cv) 32 c' u' ∧ ∀ (k : G) (n : Nat) (z' : UState p), k ≠ P.contract →
      FaithfulTo Q cv n (chainTxs P cv es) k z' →
      z'.balance = (heldVal c' UTXO_CAP k : ZMod p) ∧
      (heldVal c' UTXO_CAP k < p → z'.balance.val = heldVal c' UTXO_CAP k)) ∨
    Collision P.hs (utxoEncVar cv) 32 (fun _ => UTXO.dummy) (chainUpds P cv es) := by
  rcases C105_key_balance h P cv es u u' hch _ hc with ⟨c', hr, hk⟩ | hcol
  · refine Or.inl ⟨c', hr, fun k n z' hkc hfa => ?_⟩
    have hb := faithful_balance hf hfa
    have he := congrArg (Nat.cast : Nat → ZMod p) (hk k hkc)
    rw [heldVal_empty, zero_add] at he
    have hbal : z'.balance = (heldVal c' UTXO_CAP k : ZMod p) := by
      rw [hb, ← he]; push_cast; ring
    exact ⟨hbal, fun hlt => by rw [hbal, ZMod.val_natCast, Nat.mod_eq_of_lt hlt]⟩
  · exact Or.inr hcol

theorem clients_sum_le (hf : FieldOk p) {Q : Client.Params p} {cv : Curve p q G} {n : Nat}
    {ts : List (Tx (ZMod p) G)} (c' : Nat → UTXO (ZMod p) G) (N : Nat) {cs : List (G × UState p)}
    (hnd : (cs.map (·.1)).Nodup) (hfa : ∀ x ∈ cs, FaithfulTo Q cv n ts x.1 x.2)
    (hheld : ∀ x ∈ cs, heldVal c' N x.1 + (ts.map (takesFrom x.1)).sum =
      heldVal (fun _ => (UTXO.dummy : UTXO (ZMod p) G)) N x.1 + (ts.map (paysTo x.1)).sum) :
    (cs.map fun x => x.2.balance.val).sum ≤ valueOf c' N := by
  refine le_trans ?_ (held_sum_le c' N (cs.map (·.1)) hnd)
  rw [List.map_map]
  apply List.sum_le_sum
  intro x hx
  have hb := faithful_balance hf (hfa x hx)
  have he := congrArg (Nat.cast : Nat → ZMod p) (hheld x hx)
  rw [heldVal_empty, zero_add] at he
  have hbal : x.2.balance = (heldVal c' N x.1 : ZMod p) := by
    rw [hb, ← he]; push_cast; ring
  rw [hbal, ZMod.val_natCast]
  exact Nat.mod_le _ _

/-- **C105**: in full mode, starting from the empty ledger, the balances of different clients, each of which has
shown exactly the authorised transactions mentioning its key, never add up to more than the deposits recorded in
the blocks minus what was paid out. -/
theorem C105_backed (h : Sizes p q) (hf : FieldOk p) (P : AggC.Params p G) (hfull : P.transferOnly = false)
    (Q : Client.Params p) (cv : Curve p q G) (es : List (Epoch p G)) (u u' : ZMod p) (hch : Chain P cv u es u')
    (hc : RootOf P.hs (utxoEncVar cv) 32 (fun _ => UTXO.dummy) u) (n : Nat)
    (cs : List (G × UState p)) (hnd : (cs.map (·.1)).Nodup) (hk : ∀ x ∈ cs, x.1 ≠ P.contract)
    (hfa : ∀ x ∈ cs, FaithfulTo Q cv n (chainTxs P cv es) x.1 x.2) :
    (cs.map fun x => x.2.balance.val).sum + chainPaidOut P cv es ≤ chainDeposits es ∨
    Collision P.hs (utxoEncVar cv) 32 (fun _ => UTXO.dummy) (chainUpds P cv es) ∨ ShaBroken P cv es := by
  rcases C102_ledger h P cv es u u' hch _ hc with ⟨hl, hr⟩ | hcol
  swap
  · exact Or.inr (Or.inl hcol)
  have hh : Healthy P.contract (fun _ => (UTXO.dummy : UTXO (ZMod p) G)) := by
    intro j hj; simp [UTXO.dummy] at hj
  rcases chain_value h hfull hch hl hh with hv | hsha
  swap
  · exact Or.inr (Or.inr hsha)
  left
  have hz : valueOf (fun _ => (UTXO.dummy : UTXO (ZMod p) G)) UTXO_CAP = 0 := value_empty _
  rw [hz, zero_add] at hv
  rw [← hv]
  refine Nat.add_le_add_right ?_ _
  exact clients_sum_le hf _ _ hnd hfa fun x hx => chain_held h hch hl (hk x hx)

/-- Non-vacuity of C105: an accepted block with two deposits on the empty ledger, and a client of the second
receiver that shows its deposit, among padding, and ends with the amount. -/
theorem example_chain_client (h : Sizes p q) (hf : FieldOk p) (hpq : p ≤ q) (cv : Curve p q G) (P : AggC.Params p G)
    (hP : P.hs = Agg.oneHs p) (hfull : P.transferOnly = false) (Q : Client.Params p) (hQ : Q.hs = P.hs)
    {k1 k2 : G} (h1 : k1 ≠ P.contract) (h2 : k2 ≠ P.contract) (h12 : k1 ≠ k2) (h0 : k2 ≠ 0) :
    ∃ (e : Epoch p G) (u u' : ZMod p) (z' : UState p), Chain P cv u [e] u' ∧
      RootOf P.hs (utxoEncVar cv) 32 (fun _ => UTXO.dummy) u ∧
      FaithfulTo Q cv 3 (chainTxs P cv [e]) k2 z' ∧ z'.balance = 7 ∧ chainDeposits [e] = 12 := by
  have hp : 1 < p := lt_of_lt_of_le (by decide) h.large
  have hq : 1 < q := lt_of_lt_of_le hp hpq
  obtain ⟨s1, e1, r1, t1, g1, dd, ww, hfit, hrest⟩ :=
    deposits_epoch Build.release cv P.hs P.contract [(k1, 5), (k2, 7)]
    (by
      intro d hd
      simp only [List.mem_cons, List.not_mem_nil, or_false] at hd
      rcases hd with rfl | rfl
      · exact ⟨h1, (by decide : 5 < U64)⟩
      · exact ⟨h2, (by decide : 7 < U64)⟩) (by simp)
  obtain ⟨s2, e2, t2, g2, ap, d2, w2⟩ := hrest 2 (by simp)
  have lv := deposits_leaves (by simp [PF.Spec.depositList]) e1 g1 (hfit 2 (by simp)) e2 g2
  have r2 := reach_signatures r1 _ (hfit 2 (by simp)) e2 (by simp)
  have hst : Contract.run Build.release (Contract.new P.contract) [.join 0 k1, .join 0 k2] =
      .ok (twoUsers P.contract k1 k2) := rfl
  obtain ⟨ur, sr, _, _, eb⟩ := (C48_produce_block Build.release cv P.hs s2 r2 (twoUsers P.contract k1 k2)).1 (by
    intro pk hpk
    apply twoUsers_registered
    rw [g2, d2, w2] at hpk
    rcases hpk with hpk | hpk | hpk
    · left
      have := (List.mem_replicate.1 hpk).2
      simpa using this
    · right
      simpa using hpk
    · simp at hpk)
  have hon : HonestEpoch Build.release P cv (PF.Spec.depositList P.contract [(k1, 5), (k2, 7)])
      (List.replicate 2 (P.contract, none)) (txRoot cv P.hs s1) := by
    have hmem : ∀ y ∈ ((PF.Spec.depositList P.contract [(k1, 5), (k2, 7)]).map (·.2)).zip
        (List.replicate 2 ((P.contract, none) : Pair q G)), y.2 = (P.contract, none) := by
      intro y hy
      exact (List.mem_replicate.1 (List.of_mem_zip hy).2).2
    refine ⟨?_, Or.inr ?_, rfl, ?_, ?_⟩
    · intro x hx
      simp only [PF.Spec.depositList, List.map_cons, List.map_nil, List.mem_cons, List.not_mem_nil, or_false] at hx
      have h5 : (5 : Nat) < U64 := by decide
      have h7 : (7 : Nat) < U64 := by decide
      have h00 : (0 : Nat) < U64 := by decide
      rcases hx with rfl | rfl
      · intro u hu
        simp [Tx.ios, depositTx, UTXO.new, UTXO.dummy] at hu
        rcases hu with rfl | rfl | rfl | rfl <;> assumption
      · intro u hu
        simp [Tx.ios, depositTx, UTXO.new, UTXO.dummy] at hu
        rcases hu with rfl | rfl | rfl | rfl <;> assumption
    · intro x hx
      simp only [PF.Spec.depositList, List.map_cons, List.map_nil, List.mem_cons, List.not_mem_nil, or_false] at hx
      rcases hx with rfl | rfl <;> exact ⟨by simp [depositTx, totalOf, UTXO.dummy, UTXO.new, U64],
        by simp [depositTx, totalOf, UTXO.dummy, UTXO.new, U64]⟩
    · intro y hy _
      left
      rw [hmem y hy, hP]
      exact (oneHs_verify hp hq cv P.contract _ 0).2
    · intro y hy hap
      rw [hmem y hy] at hap
      simp [Approves] at hap
  obtain ⟨z, hz⟩ := startState_exists (b := Build.release) (cv := cv) (hs := P.hs) (s := Agg.new q cv P.hs) Reach.new
    (txRoot cv P.hs s1)
  obtain ⟨z1, hrun, hder⟩ := C57_first_epoch h hpq .release P hfull cv s1 s2 _ _
    (by show 2 ≤ 4096; omega) e1 e2 hon .release _ _ _ hst (by show 3 ≤ 4294967296; omega) _ eb z hz
    [s2.ivcInputs.map CInputs.alloc] (by simp)
  obtain ⟨_, _, _, _, _, _, kr, _, _, _, w3, _⟩ := epoch_setup (b := Build.release) (rollup := P.contract)
    (s := Agg.new q cv P.hs) SignerLeaves.new ⟨rfl, rfl, rfl, rfl, rfl, rfl⟩ (by show 2 ≤ 4096; omega)
    (by
      show 0 + 4 * 2 ≤ _
      have cap : 2147483648 = UTXO_CAP := rfl
      rw [← cap]; omega) (by show 2 ≤ 2; omega) e1 e2
  obtain ⟨ins, i1, i2, _⟩ := kr.inputs
  rw [w3, List.nil_append] at i1
  rw [← i1, t1] at i2
  obtain ⟨aux, z', c1, c2, c3, c4, c5⟩ := C78_accepted_transactions hf Build.release Q cv s2 _ (by rw [hQ]; exact lv) _ _ eb k2 h0
    (freshUser cv Q.hs k2) (fresh_ready _ _ _ _)
    (fun _ => rfl) 3 [1] (by decide) (by
      intro i hi
      rw [List.mem_singleton.1 hi]
      refine ⟨by decide, depositTx P.contract k2 7, by rw [t2, t1]; rfl, ?_⟩
      rw [g2, deposit_getSigner]; rfl) (List.pairwise_singleton _ _)
  have hsh : shownTxs [aux] = [depositTx P.contract k2 7, Tx.default, Tx.default] := by
    unfold shownTxs
    rw [List.flatMap_cons, assemble_txs c1]
    simp [t2, t1, PF.Spec.depositList]
  have hsv : shownVar [aux.alloc] = [(depositTx P.contract k2 7).alloc p, Tx.default, Tx.default] := by
    have e : shownVar [aux.alloc] = (shownTxs [aux]).map (Tx.alloc p) := by
      simp [shownVar, shownTxs, UserAux.alloc, Function.comp_def]
    rw [e, hsh]
    simp only [List.map_cons, List.map_nil, default_alloc]
  have hct : (((s2.ivcInputs.map CInputs.alloc).filter fun i => i.authorised P cv (txRoot cv P.hs s1)).map
      fun i => i.tx) = [(depositTx P.contract k1 5).alloc p, (depositTx P.contract k2 7).alloc p] := by
    have ha : ∀ i ∈ s2.ivcInputs.map CInputs.alloc, (i.authorised P cv (txRoot cv P.hs s1)) = true := by
      intro i hi
      obtain ⟨x, hx, rfl⟩ := List.mem_map.1 hi
      have hm : (x.tx, x.senderPk, x.signature) ∈ s2.ivcInputs.map (fun y => (y.tx, y.senderPk, y.signature)) :=
        List.mem_map_of_mem hx
      rw [i2] at hm
      obtain ⟨y, hy, he⟩ := List.mem_map.1 hm
      have hk := (List.mem_replicate.1 (List.of_mem_zip hy).2).2
      have hs : x.senderPk = P.contract := by
        have := congrArg (fun w => w.2.1) he
        simp only [hk] at this
        exact this.symm
      simp [CInputs.authorised, CInputs.alloc, hs]
    rw [List.filter_eq_self.2 ha, List.map_map]
    have hx := congrArg (List.map fun w => Tx.alloc p w.1) i2
    rw [List.map_map, List.map_map] at hx
    exact hx
  have hd : Mentions k2 (Tx.default : Tx (ZMod p) G) = false := by
    simp [Mentions, Tx.default, Tx.ios, UTXO.dummy, h0.symm]
  have hy : Mentions k2 ((depositTx P.contract k2 7).alloc p) = true := by
    simp [Mentions, Tx.ios, Tx.alloc, depositTx, UTXO.new, UTXO.dummy, UTXO.alloc]
  have hn1 : Mentions k2 ((depositTx P.contract k1 5).alloc p) = false := by
    simp [Mentions, Tx.ios, Tx.alloc, depositTx, UTXO.new, UTXO.dummy, UTXO.alloc, h0.symm, h12, h2.symm]
  obtain ⟨u, t, g, hu, ht, hg, rfl⟩ := hz
  refine ⟨{ reg := twoUsers P.contract k1 k2, block := _, batches := [s2.ivcInputs.map CInputs.alloc],
            final := txRoot cv P.hs s1, tx0 := t, signer0 := g }, u, _, z', ⟨⟨?_, z1, hrun, hder⟩, rfl⟩, ?_, ?_, ?_, ?_⟩
  · constructor
    · rw [d2]
      intro d hd
      simp only [List.take, List.map_cons, List.map_nil, List.mem_cons, List.not_mem_nil, or_false] at hd
      rcases hd with rfl | rfl
      · exact (by decide : 5 < 2 ^ 64)
      · exact (by decide : 7 < 2 ^ 64)
    · rw [w2]; simp
  · unfold HasRoot at hu
    rw [(inv_new (q := q) cv P.hs).holds.tree.rootHash (ε := Unit)] at hu
    simp only [Outcome.ok.injEq] at hu
    unfold RootOf merkleRoot
    rw [← hu]
    rw [← (show (UTXO.dummy : UTXO Nat G).alloc p = UTXO.dummy by simp [UTXO.alloc, UTXO.dummy])]
    simp only [utxoEncVar_alloc]
    rfl
  · refine ⟨freshUser cv Q.hs k2, [aux.alloc], rfl, ?_, ⟨z', c4, rfl⟩, ?_, ?_⟩
    · intro a ha; rw [List.mem_singleton.1 ha]; exact c3
    · rw [hsv]
      intro t ht
      simp only [List.mem_cons, List.not_mem_nil, or_false, or_self] at ht
      rcases ht with rfl | rfl
      · intro u hu hud
        simp [Tx.ios, Tx.alloc, depositTx, UTXO.alloc, UTXO.new, UTXO.dummy] at hu
        rcases hu with rfl | rfl | rfl | rfl
        · cases hud
        · rfl
        · cases hud
        · rfl
      · intro u hu hud
        simp [Tx.ios, Tx.default, UTXO.dummy] at hu
        rw [hu]
    · have hch : ∀ e : Epoch p G, chainTxs P cv [e] =
          (e.txs.filter fun i => i.authorised P cv e.final).map fun i => i.tx := by
        intro e; simp [chainTxs]
      rw [hsv, hch]
      simp only [Epoch.txs, List.flatten_cons, List.flatten_nil, List.append_nil]
      rw [hct]
      simp [hd, hy, hn1]
  · rw [c5, List.map_singleton, t2, t1]
    show (0 : ZMod p) + ([(receivedNat k2 (depositTx P.contract k2 7) : ZMod p) -
      (spentNat k2 (depositTx P.contract k2 7) : ZMod p)]).sum = 7
    rw [receivedNat_deposit, spentNat_deposit h2]
    simp
  · simp only [chainDeposits, List.map_cons, List.map_nil, d2]
    rfl

/-- The example over the field of the code. -/
example (Q : Client.Params bn254r) (hQ : Q.hs = Agg.oneHs bn254r) :
    ∃ (e : Epoch bn254r (ZMod grumpkinQ)) (u u' : ZMod bn254r) (z' : UState bn254r),
    Chain ⟨Agg.oneHs bn254r, toySha, ((1 : Nat) : ZMod grumpkinQ), false⟩ bnCurve u [e] u' ∧
      RootOf (Agg.oneHs bn254r) (utxoEncVar bnCurve) 32 (fun _ => UTXO.dummy) u ∧
      FaithfulTo Q bnCurve 3 (chainTxs ⟨Agg.oneHs bn254r, toySha, ((1 : Nat) : ZMod grumpkinQ), false⟩ bnCurve [e])
        ((3 : Nat) : ZMod grumpkinQ) z' ∧ z'.balance = 7 ∧ chainDeposits [e] = 12 :=
  example_chain_client sizes_bn254 fieldOk_bn254 bn254_le bnCurve
    ⟨Agg.oneHs bn254r, toySha, ((1 : Nat) : ZMod grumpkinQ), false⟩ rfl rfl Q hQ
    (k1 := ((2 : Nat) : ZMod grumpkinQ)) (k2 := ((3 : Nat) : ZMod grumpkinQ))
    (bn_ne (by decide)) (bn_ne (by decide)) (bn_ne (by decide)) (by simpa using bn_ne (i := 3) (j := 0) (by decide))

end PF.Props
