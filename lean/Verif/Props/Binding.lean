import Verif.Proof.TreeUpdates
import Verif.Props.AggregatorProvable
import Verif.Props.SparseMT

/-!
# C99: equal roots mean equal contents, equal blocks mean equal states
-/

set_option linter.unusedSectionVars false

namespace PF.Props
open PF PF.MT PF.Agg PF.Spec PF.AggC PF.Contract

section
variable {L D : Type} [DecidableEq D]

/-- **C99**: two sparse Merkle trees built through the API, in whatever way, that have the same root hold the
same leaf at every position, unless the two trees exhibit a collision at some position. -/
theorem C99_equal_roots (cfg : Config L D) (hH : 2 ≤ cfg.height) (t t' : STree D) (c c' : Nat → L)
    (h : Built cfg t c) (h' : Built cfg t' c') (e : (t.rootHash : Outcome Unit D) = t'.rootHash) :
    (∀ i, i < 2 ^ (cfg.height - 1) → c i = c' i) ∨ TreeClash cfg.leafHash cfg.h2 cfg.height c c' := by
  have h1 := Built.rep hH h
  have h2 := Built.rep hH h'
  rw [STree.rootHash, STree.rootHash, h1.root, h2.root] at e
  exact merkleRoot_binds _ _ _ _ _ (Outcome.ok.inj e)

end

variable {p q : Nat} {G : Type} [AddCommGroup G] [Module (ZMod q) G] [DecidableEq G]

theorem map_inj_on {A B : Type} (f : A → B) : ∀ l l' : List A,
    (∀ a ∈ l, ∀ b ∈ l', f a = f b → a = b) → l.map f = l'.map f → l = l' := by
  intro l
  induction l with
  | nil => intro l' _ h; cases l' with
    | nil => rfl
    | cons => simp at h
  | cons a l ih =>
    intro l' hi h
    cases l' with
    | nil => simp at h
    | cons b l' =>
      simp only [List.map_cons, List.cons.injEq] at h
      rw [hi a (by simp) b (by simp) h.1,
        ih l' (fun x hx y hy => hi x (by simp [hx]) y (by simp [hy])) h.2]

/-- What the aggregator has in common with another one: the epoch's records, the transactions up to default
ones at the end, and the UTXO set with the position of every UTXO. -/
structure SameContents (s s' : Agg.State p q G) : Prop where
  height : s.height = s'.height
  signers : s.signers = s'.signers
  deposits : s.deposits = s'.deposits
  withdrawals : s.withdrawals = s'.withdrawals
  transactions : ∀ i : Nat, s.transactions[i]?.getD Tx.default = s'.transactions[i]?.getD Tx.default
  utxos : ∀ u : UTXO Nat G, u.isDummy = false →
    (∀ i, i ∈ positions s u ↔ i ∈ positions s' u) ∧ live s u = live s' u

/-- **C99**: two aggregators that produce the same block — after any two histories of calls — agree on
everything a block stands for, unless their trees exhibit a collision. Amounts are 64-bit numbers. -/
theorem C99_equal_blocks (h : 2 ^ 64 ≤ p) (b b' : Build) (cv : Curve p q G) (hs : Hashes p)
    (s s' : Agg.State p q G) (sc sc' : Nat → G) (hsc : SignerLeaves b cv hs s sc)
    (hsc' : SignerLeaves b' cv hs s' sc') (c c' : Nat → UTXO Nat G) (hc : Represents cv hs s c)
    (hc' : Represents cv hs s' c')
    (hu : ∀ u : UTXO Nat G, live s u ≠ 0 → u.amount < U64) (hu' : ∀ u : UTXO Nat G, live s' u ≠ 0 → u.amount < U64)
    (ht : ∀ tx ∈ s.transactions, tx.U64Amounts) (ht' : ∀ tx ∈ s'.transactions, tx.U64Amounts)
    (b'' : Build) (k : G) (calls : List (Call G)) (st : Contract.State G)
    (hst : Contract.run b'' (Contract.new k) calls = .ok st) (hpks : st.pks.length ≤ 2 ^ 32)
    (block : Block (ZMod p)) (hb : produceBlock st s = .ok block) (hb' : produceBlock st s' = .ok block) :
    (SameContents s s' ∧ ∀ i, i < TX_CAP → sc i = sc' i) ∨
    RootClash hs (utxoEnc cv) 32 c c' ∨
    RootClash hs (txEnc cv) 13 (fun i => s.transactions[i]?.getD Tx.default)
      (fun i => s'.transactions[i]?.getD Tx.default) ∨
    RootClash hs (pkEnc cv) 13 sc sc' := by
  have hp1 : 1 < p := lt_of_lt_of_le (by decide) h
  have hU : U64 ≤ p := h
  obtain ⟨hr, _, d, hi⟩ := signerLeaves_inv hsc
  obtain ⟨hr', _, d', hi'⟩ := signerLeaves_inv hsc'
  obtain rfl := hi.represents.unique hc
  obtain rfl := hi'.represents.unique hc'
  obtain ⟨_, _, _, _, _, hidx⟩ := C36_registry b'' k calls st hst
  have hreg : ∀ pk pk', Registered st pk → Registered st pk' → regIndex st pk = regIndex st pk' → pk = pk' := by
    have hone : ∀ pk, Registered st pk → st.pks[regIndex st pk]? = some pk := by
      intro pk hr
      unfold Registered at hr
      unfold regIndex
      cases hc : st.pkIndices.get pk with
      | none => rw [hc] at hr; cases hr
      | some i =>
        have hi := (hidx pk i hc).1
        have hlt := (List.getElem?_eq_some_iff.1 hi).1
        rw [Option.getD_some, Nat.mod_eq_of_lt (by omega)]
        exact hi
    intro pk pk' g g' e
    have := hone pk g
    rw [e, hone pk' g'] at this
    exact (Option.some.inj this).symm
  obtain ⟨a1, a2⟩ := C48_produce_block b cv hs s hr st
  obtain ⟨a1', a2'⟩ := C48_produce_block b' cv hs s' hr' st
  have hall : ∀ pk, (some pk ∈ s.signers ∨ pk ∈ s.deposits.map (·.1) ∨ pk ∈ s.withdrawals.map (·.1)) →
      Registered st pk := by
    by_contra hcon
    rw [a2 hcon] at hb; cases hb
  have hall' : ∀ pk, (some pk ∈ s'.signers ∨ pk ∈ s'.deposits.map (·.1) ∨ pk ∈ s'.withdrawals.map (·.1)) →
      Registered st pk := by
    by_contra hcon
    rw [a2' hcon] at hb'; cases hb'
  obtain ⟨ur, sr, e1, e2, e3⟩ := a1 hall
  obtain ⟨ur', sr', e1', e2', e3'⟩ := a1' hall'
  rw [hb] at e3
  rw [hb'] at e3'
  have hblk := (Outcome.ok.inj e3).symm.trans (Outcome.ok.inj e3')
  simp only [Block.mk.injEq] at hblk
  obtain ⟨q1, q2, q3, q4, q5, q6, q7⟩ := hblk
  rw [hi.holds.tree.rootHash] at e1
  rw [hi'.holds.tree.rootHash] at e1'
  rw [hi.signer.rootHash] at e2
  rw [hi'.signer.rootHash] at e2'
  have r1 := ((Outcome.ok.inj e1).trans q1).trans (Outcome.ok.inj e1').symm
  have r2 := ((Outcome.ok.inj e2).trans q3).trans (Outcome.ok.inj e2').symm
  rcases root_clash hs (utxoEnc cv) 32 d d' r1 with k1 | k1
  swap
  · exact Or.inr (Or.inl k1)
  rcases root_clash hs (txEnc cv) 13 _ _ q2 with k2 | k2
  swap
  · exact Or.inr (Or.inr (Or.inl k2))
  rcases root_clash hs (pkEnc cv) 13 sc sc' r2 with k3 | k3
  swap
  · exact Or.inr (Or.inr (Or.inr k3))
  left
  have amt : ∀ (s : Agg.State p q G) (c : Nat → UTXO Nat G), Represents cv hs s c →
      (∀ u : UTXO Nat G, live s u ≠ 0 → u.amount < U64) → ∀ i, (c i).amount < p := by
    intro s c hc hu i
    cases hd : (c i).isDummy with
    | true => rw [hc.dummies i hd]; show 0 < p; omega
    | false =>
      refine lt_of_lt_of_le (hu _ ?_) hU
      have := (hc.slots (c i) hd i).2 rfl
      unfold live
      intro h0
      rw [List.length_eq_zero_iff.1 h0] at this
      cases this
  have hsame : ∀ i, d i = d' i := by
    intro i
    by_cases hlt : i < UTXO_CAP
    · exact utxoEnc_inj cv hp1 (amt s d hc hu i) (amt s' d' hc' hu' i) (k1 i hlt)
    · rw [not_lt] at hlt
      rw [hi.holds.fresh i (le_trans hi.nextCap hlt), hi'.holds.fresh i (le_trans hi'.nextCap hlt)]
  have small : ∀ (s : Agg.State p q G), (∀ tx ∈ s.transactions, tx.U64Amounts) → ∀ i : Nat,
      ∀ u ∈ (s.transactions[i]?.getD Tx.default).ios, u.amount < p := by
    intro s ht i u hu
    cases hx : s.transactions[i]? with
    | some tx =>
      rw [hx] at hu
      exact lt_of_lt_of_le (ht tx (List.mem_of_getElem? hx) u hu) hU
    | none =>
      rw [hx] at hu
      have : u = UTXO.dummy := by
        simp only [Option.getD_none, Tx.ios, Tx.default, List.mem_append, Vector.toList_replicate,
          List.mem_replicate] at hu
        tauto
      rw [this]; show 0 < p; omega
  refine ⟨⟨q5, ?_, ?_, ?_, ?_, ?_⟩, fun i hi => pkEnc_inj cv hp1 (k3 i hi)⟩
  · refine map_inj_on _ _ _ ?_ q4
    intro a ha b hb e
    cases a with
    | none => cases b with
      | none => rfl
      | some y => cases e
    | some x => cases b with
      | none => cases e
      | some y =>
        rw [hreg x y (hall x (Or.inl ha)) (hall' y (Or.inl hb)) (Option.some.inj e)]
  · refine map_inj_on _ _ _ ?_ q6
    intro a ha b hb e
    obtain ⟨e1, e2⟩ := Prod.mk.inj e
    exact Prod.ext (hreg _ _ (hall _ (Or.inr (Or.inl (List.mem_map.2 ⟨a, ha, rfl⟩))))
      (hall' _ (Or.inr (Or.inl (List.mem_map.2 ⟨b, hb, rfl⟩)))) e1) e2
  · refine map_inj_on _ _ _ ?_ q7
    intro a ha b hb e
    obtain ⟨e1, e2⟩ := Prod.mk.inj e
    exact Prod.ext (hreg _ _ (hall _ (Or.inr (Or.inr (List.mem_map.2 ⟨a, ha, rfl⟩))))
      (hall' _ (Or.inr (Or.inr (List.mem_map.2 ⟨b, hb, rfl⟩)))) e1) e2
  · intro i
    by_cases hlt : i < TX_CAP
    · exact C17_tx_encoding_injective cv hp1 _ _ (small s ht i) (small s' ht' i) (k2 i hlt)
    · rw [List.getElem?_eq_none (le_trans hi.txCap (by omega)),
        List.getElem?_eq_none (le_trans hi'.txCap (by omega))]
  · intro u hd
    have hpos : ∀ i, i ∈ positions s u ↔ i ∈ positions s' u := by
      intro i
      rw [hc.slots u hd i, hc'.slots u hd i, hsame i]
    refine ⟨hpos, ?_⟩
    exact ((List.perm_ext_iff_of_nodup (hi.holds.nodup u) (hi'.holds.nodup u)).2 hpos).length_eq

/-- **C99**: the transaction lists are equal when neither contains the default transaction. -/
theorem C99_transactions_exact (s s' : Agg.State p q G) (h : SameContents s s')
    (hd : ∀ tx ∈ s.transactions, tx ≠ Tx.default) (hd' : ∀ tx ∈ s'.transactions, tx ≠ Tx.default) :
    s.transactions = s'.transactions := by
  apply List.ext_getElem?
  intro i
  have := h.transactions i
  cases hx : s.transactions[i]? with
  | none =>
    cases hy : s'.transactions[i]? with
    | none => rfl
    | some t =>
      rw [hx, hy] at this
      exact absurd this.symm (hd' t (List.mem_of_getElem? hy))
  | some t =>
    cases hy : s'.transactions[i]? with
    | none =>
      rw [hx, hy] at this
      exact absurd this (hd t (List.mem_of_getElem? hx))
    | some t' =>
      rw [hx, hy] at this
      rw [show t = t' from this]

theorem default_valid (b : Build) (sender : G) : (Tx.default : Tx Nat G).isValid b (some sender) = .ok () := by
  rw [C20_is_valid_decision]
  have h1 : OwnedBy sender (Tx.default : Tx Nat G).inputs.toList := by
    intro u hu hd
    simp only [Tx.default, Vector.toList_replicate, List.mem_replicate] at hu
    rw [hu.2] at hd; simp [UTXO.dummy] at hd
  rw [if_neg (by simpa using h1)]
  have h2 : totalOf (Tx.default : Tx Nat G).inputs.toList = 0 := by rfl
  have h3 : totalOf (Tx.default : Tx Nat G).outputs.toList = 0 := by rfl
  rw [h2, h3]; rfl

/-- **C99** (why only up to default transactions): submitting the default transaction, which every key may do,
changes the list of transactions and not the block. Both states meet the hypotheses of `C99_equal_blocks`. -/
theorem C99_default_transaction_invisible (b : Build) (cv : Curve p q G) (hs : Hashes p) (sender : G)
    (st : Contract.State G) :
    ∃ (s' : Agg.State p q G) (block : Block (ZMod p)),
      processTransactions b cv hs [(sender, Tx.default)] (Agg.new q cv hs) = (s', .ok ()) ∧
      SignerLeaves b cv hs (Agg.new q cv hs) (fun _ => 0) ∧ SignerLeaves b cv hs s' (fun _ => 0) ∧
      s'.transactions = [Tx.default] ∧ (Agg.new q cv hs).transactions = [] ∧
      produceBlock st (Agg.new q cv hs) = .ok block ∧ produceBlock st s' = .ok block := by
  have hv : (Tx.default : Tx Nat G).isValid b (some sender) = .ok () := default_valid b sender
  obtain ⟨s1, r1, q1, t1, l1, d1, w1, g1, h1, v1, k1⟩ := tx_one (Reach.new (b := b) (cv := cv) (hs := hs))
    sender Tx.default (by simp [Agg.new, TX_CAP]) hv
  have hl := SignerLeaves.call (b := b) (cv := cv) (hs := hs) (Agg.new q cv hs)
    (.transactions [(sender, Tx.default)]) _ SignerLeaves.new (show 0 + 1 ≤ 4096 by omega) (by simp [Op.run, r1])
  rw [show ((Op.transactions [(sender, (Tx.default : Tx Nat G))]).run b cv hs (Agg.new q cv hs)).1 = s1 by
    simp [Op.run, r1], g1] at hl
  obtain ⟨ur, sr, e1, e2, e3⟩ := (C48_produce_block b cv hs _ Reach.new st).1 (by
    intro pk hpk; simp [Agg.new] at hpk)
  obtain ⟨ur', sr', e1', e2', e3'⟩ := (C48_produce_block b cv hs s1 q1 st).1 (by
    intro pk hpk; rw [g1, d1, w1] at hpk; simp [Agg.new] at hpk)
  refine ⟨s1, _, r1, SignerLeaves.new, hl, t1, rfl, e3, ?_⟩
  rw [e3']
  rw [l1, e1] at e1'
  rw [h1, e2] at e2'
  have ht : txRoot cv hs s1 = txRoot cv hs (Agg.new q cv hs) := by
    unfold txRoot
    rw [t1]
    congr 1
    funext i
    show ([Tx.default] : List (Tx Nat G))[i]?.getD Tx.default = ([] : List (Tx Nat G))[i]?.getD Tx.default
    cases i <;> rfl
  rw [g1, d1, w1, k1, ht, Outcome.ok.inj e1', Outcome.ok.inj e2']

end PF.Props
