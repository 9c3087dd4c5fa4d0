import Verif.Proof.Padding
import Verif.Props.AggregatorExact

/-!
# Property C104: epochs and the batch size of the circuit

A step of the circuit takes exactly `B` transactions. An epoch whose number of transactions is no multiple of
`B` cannot be proved, and the driver (`array_chunks`) silently leaves out the last ones. Filling up with default
transactions nobody signs is always possible and changes nothing but the list of signers.
-/
set_option linter.unusedSectionVars false

namespace PF.Props
open PF PF.MT PF.Agg PF.Spec PF.AggC PF.Contract
variable {p q : Nat} {G : Type} [AddCommGroup G] [Module (ZMod q) G] [DecidableEq G]

theorem default_valid (b : Build) (sender : G) : (Tx.default : Tx Nat G).isValid b (some sender) = .ok () := by
  rw [C20_is_valid_decision]
  have h1 : OwnedBy sender (Tx.default : Tx Nat G).inputs.toList := by
    intro u hu hd
    simp only [Tx.default, Vector.toList_replicate, List.mem_replicate] at hu
    rw [hu.2] at hd; simp [UTXO.dummy] at hd
  rw [if_neg (by simpa using h1)]
  have h2 : totalOf (Tx.default : Tx Nat G).inputs.toList = 0 := by rfl
  have h3 : totalOf (Tx.default : Tx Nat G).outputs.toList = 0 := by rfl
  rw [h2, h3]; rfl

/-- **C104**: a proof made of steps of exactly `B` transactions, whoever made it, is accepted only for blocks
whose number of signer entries is a multiple of `B`. -/
theorem C104_only_multiples (h : Sizes p q) (P : Params p G) (cv : Curve p q G) (B : Nat)
    (st : Contract.State G) (block : Block (ZMod p)) (z : CState p) (h0 : z.step = 0)
    (bs : List (List (CInputs p G))) (hB : ∀ c ∈ bs, c.length = B) (hlen : bs.flatten.length < p)
    (hsig : block.signers.length < p) (hpr : Proves P cv st block z bs) :
    B ∣ block.signers.length ∧ block.signers.length = B * bs.length := by
  obtain ⟨z', hrun, hder⟩ := hpr
  have hs := (C56_counter_and_final_root h P cv z z' bs hrun).1
  rw [h0, zero_add] at hs
  have hd : (block.signers.length : ZMod p) = z'.step := by
    unfold derivePublicInputs at hder
    rcases h1 : signerAcc cv P.sha st.pks block.signers 0 with a | e | _
    · rw [h1] at hder
      rcases h2 : amountAcc cv P.sha st.pks block.deposits 0 with a2 | e | _
      · rw [h2] at hder
        rcases h3 : amountAcc cv P.sha st.pks block.withdrawals 0 with a3 | e | _
        · rw [h3] at hder
          simp only [Outcome.bind_ok, Outcome.ok.injEq, CState.toList, List.cons.injEq] at hder
          exact hder.1
        · rw [h3] at hder; cases hder
        · rw [h3] at hder; cases hder
      · rw [h2] at hder; cases hder
      · rw [h2] at hder; cases hder
    · rw [h1] at hder; cases hder
    · rw [h1] at hder; cases hder
  rw [hs] at hd
  have he : block.signers.length = bs.flatten.length := natCast_inj_of_lt hsig hlen hd
  rw [length_flatten_const hB] at he
  exact ⟨⟨_, he⟩, he⟩

/-- **C104**, the driver: cutting the recorded inputs into batches keeps exactly the first
`⌊n / B⌋ · B` of them. -/
theorem C104_driver_drops {α : Type} (B : Nat) (inputs : List α) :
    (∀ c ∈ arrayChunks B inputs, c.length = B) ∧
    (arrayChunks B inputs).flatten = inputs.take (inputs.length / B * B) ∧
    (B ∣ inputs.length ↔ (arrayChunks B inputs).flatten = inputs) := by
  refine ⟨fun c hc => mem_arrayChunks hc, flatten_arrayChunks B inputs, flatten_arrayChunks_dvd, fun he => ?_⟩
  have := congrArg List.length he
  rw [length_flatten_const (fun c hc => mem_arrayChunks hc)] at this
  exact ⟨_, this.symm⟩

/-- Padding pairs that are not approved only add empty signer entries and circuit inputs. -/
theorem reject_pads (b : Build) (cv : Curve p q G) (hs : Hashes p) (rollup k : G) (r : ZMod p) (m i : Nat)
    (s : Agg.State p q G) (hr : s.txTree.root = some r)
    (ht : ∀ j, i ≤ j → j < i + m → s.transactions[j]? = some Tx.default ∧ ∃ π, s.txProofs[j]? = some π)
    (hk : Approves cv hs rollup r Tx.default (k, none) = false) :
    ∃ X : List (Inputs p q G), X.length = m ∧
      processFrom b cv hs rollup i (List.replicate m (k, none)) s =
        ({ s with signers := s.signers ++ List.replicate m none, ivcInputs := s.ivcInputs ++ X }, .ok ()) := by
  induction m generalizing i s with
  | zero => exact ⟨[], rfl, by simp [processFrom, SM.pure]⟩
  | succ m ih =>
    obtain ⟨h1, π, h2⟩ := ht i (le_refl _) (by omega)
    have hstep : ∃ x : Inputs p q G, processOne b cv hs rollup i k none s =
        ({ s with signers := s.signers ++ [none], ivcInputs := s.ivcInputs ++ [x] }, .ok ()) := by
      unfold processOne
      rw [h1, hr]
      have hk' : accepted cv hs rollup r Tx.default k (Option.getD none (0, 0)) = false := hk
      dsimp only
      rw [hk']
      simp only [Bool.false_eq_true, if_false]
      unfold applyRejected pushInputs
      rw [h2]
      exact ⟨_, rfl⟩
    obtain ⟨x, hx⟩ := hstep
    obtain ⟨X, hX, e⟩ := ih (i + 1) { s with signers := s.signers ++ [none], ivcInputs := s.ivcInputs ++ [x] } hr
      (fun j hj hj' => ht j (by omega) (by omega))
    refine ⟨x :: X, by simp [hX], ?_⟩
    rw [List.replicate_succ, processFrom_cons, SM.bind_of_ok hx, e]
    simp [List.replicate_succ]

/-- **C104**, padding: after `n` answered transactions, `m` default transactions answered without a signature
(by any key the empty signature is not accepted for) can be added: the transaction root, the ledger, the signer
tree, deposits and withdrawals stay the same, and the produced block differs only in `m` empty signer entries. -/
theorem C104_padding (b : Build) (cv : Curve p q G) (hs : Hashes p) (rollup : G) (s s1 s2 : Agg.State p q G)
    (hreach : Reach b cv hs s) (hstart : EpochStart s)
    (txs : List (G × Tx Nat G)) (l : List (Pair q G)) (hlen : l.length = txs.length)
    (h1 : processTransactions b cv hs txs s = (s1, .ok ()))
    (h2 : processSignatures b cv hs rollup l s1 = (s2, .ok ()))
    (m : Nat) (hcap : txs.length + m ≤ TX_CAP) (k : G)
    (hk : Approves cv hs rollup (txRoot cv hs s1) Tx.default (k, none) = false) :
    ∃ s1' s2' : Agg.State p q G,
      processTransactions b cv hs (txs ++ List.replicate m (k, Tx.default)) s = (s1', .ok ()) ∧
      txRoot cv hs s1' = txRoot cv hs s1 ∧
      processSignatures b cv hs rollup (l ++ List.replicate m (k, none)) s1' = (s2', .ok ()) ∧
      s2'.ledger = s2.ledger ∧ s2'.signerTree = s2.signerTree ∧ s2'.deposits = s2.deposits ∧
      s2'.withdrawals = s2.withdrawals ∧ s2'.height = s2.height ∧
      s2'.signers = s2.signers ++ List.replicate m none ∧
      s2'.ivcInputs.take s2.ivcInputs.length = s2.ivcInputs ∧
      s2'.ivcInputs.length = s2.ivcInputs.length + m ∧
      ∀ (st : Contract.State G) (block : Block (ZMod p)), produceBlock st s2 = .ok block →
        produceBlock st s2' = .ok { block with signers := block.signers ++ List.replicate m none } := by
  obtain ⟨c, sc, hi⟩ := reach_inv hreach
  -- the first transactions
  obtain ⟨done, rest, t, prs, e1, e2, e3, o, e4, e5⟩ := processTransactions_spec (b := b) txs s hi
    (by rw [hstart.transactions]; simp only [List.length_nil]; omega)
  rw [h1] at e4
  obtain ⟨e6, rfl⟩ := Prod.mk.inj e4
  have hdone : done = txs := by
    rcases e5 with ⟨rfl, _⟩ | ⟨x, rest', _, hne, heq⟩
    · simpa using e1.symm
    · exact absurd heq.symm hne
  subst hdone
  rw [← e6] at e3
  have t1 : s1.transactions = done.map (·.2) := by rw [e6]; simp [hstart.transactions]
  -- the padding transactions
  obtain ⟨done', rest', t', prs', f1, f2, f3, o', f4, f5⟩ := processTransactions_spec (b := b)
    (List.replicate m (k, (Tx.default : Tx Nat G))) s1 e3 (by rw [t1]; simpa using hcap)
  have hdone' : done' = List.replicate m (k, Tx.default) ∧ o' = .ok () := by
    rcases f5 with ⟨rfl, ho⟩ | ⟨x, rest'', hr, hne, heq⟩
    · exact ⟨by simpa using f1.symm, ho⟩
    · exfalso
      have hx : x ∈ List.replicate m (k, (Tx.default : Tx Nat G)) := by rw [f1, hr]; simp
      rw [List.mem_replicate] at hx
      rw [hx.2] at hne
      exact hne (default_valid b k)
  obtain ⟨rfl, rfl⟩ := hdone'
  have hmap : (List.replicate m (k, (Tx.default : Tx Nat G))).map (·.2) = List.replicate m Tx.default := by simp
  rw [hmap] at f3 f4
  generalize hs1' : ({ s1 with
      txTree := t'
      txProofs := s1.txProofs ++ prs'
      transactions := s1.transactions ++ List.replicate m Tx.default } : Agg.State p q G) = s1' at f3 f4
  have g1 : s1'.transactions = s1.transactions ++ List.replicate m Tx.default := by rw [← hs1']
  have g2 : s1'.txProofs = s1.txProofs ++ prs' := by rw [← hs1']
  have hpad : ∀ j : Nat, (s1.transactions ++ List.replicate m (Tx.default : Tx Nat G))[j]?.getD Tx.default =
      s1.transactions[j]?.getD Tx.default := by
    intro j
    by_cases hj : j < s1.transactions.length
    · rw [List.getElem?_append_left hj]
    · rw [List.getElem?_append_right (by omega), List.getElem?_eq_none (l := s1.transactions) (by omega)]
      rw [List.getElem?_replicate]
      split <;> rfl
  have hroot : txRoot cv hs s1' = txRoot cv hs s1 := by
    unfold txRoot
    rw [g1]
    congr 1
    funext j
    exact hpad j
  have r1 : s1.txTree.root = some (txRoot cv hs s1) := e3.root
  have r2 : s1'.txTree.root = some (txRoot cv hs s1) := by rw [f3.root, ← hroot]
  -- the signatures
  have hcomm := comm_processFrom (t0 := s1) (t := s1') b cv hs rollup l 0 (by rw [r1, r2]) (by
    intro j _ hj
    have hj1 : j < s1.transactions.length := by rw [t1]; simpa [hlen] using hj
    constructor
    · rw [g2, List.getElem?_append_left (by rw [e3.proofsLen]; exact hj1)]
    · rw [g1, List.getElem?_append_left hj1])
  obtain ⟨k1, k2⟩ := hcomm s1
  have o1 : overTx s1 s1 = s1 := rfl
  have o2 : overTx s1' s1 = s1' := by rw [← hs1']; rfl
  rw [o1, o2] at k1
  rw [o1] at k2
  have h2' : processFrom b cv hs rollup 0 l s1 = (s2, .ok ()) := h2
  rw [h2'] at k1 k2
  simp only at k1 k2
  obtain ⟨X, hX, e⟩ := reject_pads b cv hs rollup k (txRoot cv hs s1) m l.length (overTx s1' s2) r2 (by
    intro j hj hj'
    have hlj : s1.transactions.length ≤ j := by rw [t1]; simpa [hlen] using hj
    have hlj' : j < s1'.transactions.length := by
      rw [g1, List.length_append, List.length_replicate, t1, List.length_map, ← hlen]; exact hj'
    refine ⟨?_, _, f3.proofs j hlj'⟩
    show s1'.transactions[j]? = _
    rw [g1, List.getElem?_append_right hlj, List.getElem?_replicate, if_pos]
    rw [t1, List.length_map, ← hlen]; omega) hk
  refine ⟨s1', { overTx s1' s2 with signers := s2.signers ++ List.replicate m none,
                                    ivcInputs := s2.ivcInputs ++ X }, ?_, hroot, ?_, rfl, rfl, rfl, rfl, rfl,
    rfl, by simp, by simp [hX], ?_⟩
  · rw [processTransactions_append, SM.bind_of_ok h1]; exact f4
  · show processFrom _ _ _ _ _ _ _ = _
    rw [processFrom_append, SM.bind_of_ok k1, Nat.zero_add, e]; rfl
  · intro st block hb
    unfold produceBlock at hb ⊢
    have ht1 : (s2.txTree.rootHash : Outcome Unit (ZMod p)) = .ok (txRoot cv hs s1) := by
      rw [← k2]
      show (s1.txTree.rootHash : Outcome Unit (ZMod p)) = _
      unfold STree.rootHash; rw [r1]; rfl
    have ht2 : (s1'.txTree.rootHash : Outcome Unit (ZMod p)) = .ok (txRoot cv hs s1) := by
      unfold STree.rootHash; rw [r2]; rfl
    rw [ht1] at hb
    dsimp only [overTx]
    rw [ht2]
    rcases a1 : (s2.ledger.tree.rootHash : Outcome Unit (ZMod p)) with ur | ee | _
    · rw [a1] at hb
      rcases a2 : (s2.signerTree.rootHash : Outcome Unit (ZMod p)) with sr | ee | _
      · rw [a2] at hb
        rcases a3 : mapO (signerIndex st) s2.signers with sg | ee | _
        · rw [a3] at hb
          have a4 : mapO (signerIndex st) (s2.signers ++ List.replicate m none) =
              .ok (sg ++ List.replicate m none) := by
            clear hb
            have hrep : mapO (signerIndex st) (List.replicate m none) = .ok (List.replicate m none) := by
              clear hcap h1 f1 f4 hk e f2 f3 hmap hs1' g1 hpad hX
              induction m with
              | zero => rfl
              | succ m ih => rw [List.replicate_succ]; unfold mapO; rw [ih]; rfl
            generalize s2.signers = L at a3
            induction L generalizing sg with
            | nil => rw [mapO] at a3; cases a3; simpa using hrep
            | cons a L ih =>
              rw [List.cons_append]
              unfold mapO at a3 ⊢
              rcases b1 : signerIndex st a with x | ee | _
              · rw [b1] at a3
                rcases b2 : mapO (signerIndex st) L with xs | ee | _
                · rw [b2] at a3
                  simp only [Outcome.bind_ok, Outcome.ok.injEq] at a3
                  rw [ih xs b2, ← a3]; rfl
                · rw [b2] at a3; cases a3
                · rw [b2] at a3; cases a3
              · rw [b1] at a3; cases a3
              · rw [b1] at a3; cases a3
          rw [a4]
          simp only [Outcome.bind_ok] at hb ⊢
          rcases a5 : mapO (amountIndex st) s2.deposits with dd | ee | _
          · rw [a5] at hb
            rcases a6 : mapO (amountIndex st) s2.withdrawals with ww | ee | _
            · rw [a6] at hb
              simp only [Outcome.bind_ok, Outcome.ok.injEq] at hb
              rw [← hb]; rfl
            · rw [a6] at hb; cases hb
            · rw [a6] at hb; cases hb
          · rw [a5] at hb; cases hb
          · rw [a5] at hb; cases hb
        · rw [a3] at hb; cases hb
        · rw [a3] at hb; cases hb
      · rw [a2] at hb; cases hb
      · rw [a2] at hb; cases hb
    · rw [a1] at hb; cases hb
    · rw [a1] at hb; cases hb

theorem default_owned (k : G) : OwnedBy k (Tx.default : Tx Nat G).inputs.toList := by
  intro u hu hd
  simp only [Tx.default, Vector.toList_replicate, List.mem_replicate] at hu
  rw [hu.2] at hd; simp [UTXO.dummy] at hd

theorem default_withdrawn (rollup : G) : (Tx.default : Tx Nat G).withdrawn rollup = 0 := by
  have h : ∀ l : List (UTXO Nat G), (∀ u ∈ l, u = UTXO.dummy) → totalOf l = 0 := by
    intro l hl
    induction l with
    | nil => rfl
    | cons a l ih =>
      have ha := hl a (by simp)
      have := ih (fun u hu => hl u (by simp [hu]))
      subst ha
      simp [totalOf, UTXO.dummy] at this ⊢
      try exact this
  unfold Tx.withdrawn
  apply h
  intro u hu
  rw [List.mem_filter] at hu
  have := hu.1
  simp only [Tx.default, Vector.toList_replicate, List.mem_replicate] at this
  exact this.2

/-- Conditions of a provable epoch survive padding. -/
theorem provable_padded {P : Params p G} {cv : Curve p q G} {txs : List (Tx Nat G)} {l : List (Pair q G)}
    {f : ZMod p} {sc : Nat → G} (h : ProvableEpoch P cv txs l f sc) (hlen : l.length = txs.length) (m : Nat)
    {k : G} (hk : Approves cv P.hs P.contract f Tx.default (k, none) = false) :
    ProvableEpoch P cv (txs ++ List.replicate m Tx.default) (l ++ List.replicate m (k, none)) f sc := by
  have hz : (txs ++ List.replicate m (Tx.default : Tx Nat G)).zip (l ++ List.replicate m (k, none)) =
      txs.zip l ++ List.replicate m (Tx.default, (k, none)) := by
    rw [List.zip_append hlen.symm]; simp
  refine ⟨?_, ?_, ?_, ?_, ?_, ?_, ?_⟩
  · intro y hy
    rw [hz, List.mem_append, List.mem_replicate] at hy
    rcases hy with hy | ⟨_, rfl⟩
    · exact h.owned y hy
    · exact default_owned k
  · intro tx ht
    rw [List.mem_append, List.mem_replicate] at ht
    rcases ht with ht | ⟨_, rfl⟩
    · exact h.balanced tx ht
    · rfl
  · intro tx ht
    rw [List.mem_append, List.mem_replicate] at ht
    rcases ht with ht | ⟨_, rfl⟩
    · exact h.fits tx ht
    · rw [default_withdrawn]; decide
  · intro y hy
    rw [hz, List.mem_append, List.mem_replicate] at hy
    rcases hy with hy | ⟨_, rfl⟩
    · exact h.contract y hy
    · intro _ _ u hu
      simp only [Tx.default, Vector.toList_replicate, List.mem_replicate] at hu
      rw [hu.2]; rfl
  · intro y hy
    rw [hz, List.mem_append, List.mem_replicate] at hy
    rcases hy with hy | ⟨_, rfl⟩
    · exact h.rejected y hy
    · intro _; exact default_withdrawn _
  · intro j tx y ht hy
    by_cases hj : j < txs.length
    · rw [List.getElem?_append_left hj] at ht
      rw [List.getElem?_append_left (by omega)] at hy
      exact h.free j tx y ht hy
    · rw [List.getElem?_append_right (by omega), List.getElem?_replicate] at ht hy
      split at ht <;> cases ht
      split at hy <;> cases hy
      intro hc; rw [hk] at hc; cases hc
  · intro j tx ht hj
    by_cases hj' : j < txs.length
    · simp only [List.length_append] at hj; omega
    · rw [List.getElem?_append_right (by omega), List.getElem?_replicate] at ht
      split at ht <;> cases ht
      rfl

/-- **C104**, padded epochs are provable: take any provable epoch of `n` answered transactions, any batch size `B`
and any `m` with `B ∣ n + m` (and room for `n + m` transactions). The epoch extended by `m` default transactions
nobody signs is executed without error, the block produced for it is the original one with `m` empty signer
entries added, and the batches the driver cuts prove that block. -/
theorem C104_padded_epoch_provable (h : Sizes p q) (hpq : p ≤ q) (b : Build) (P : Params p G)
    (hfull : P.transferOnly = false) (cv : Curve p q G)
    (s s1 s2 : Agg.State p q G) (sc : Nat → G) (hsc : SignerLeaves b cv P.hs s sc) (hstart : EpochStart s)
    (txs : List (G × Tx Nat G)) (l : List (Pair q G)) (hlen : l.length = txs.length)
    (B m : Nat) (hB : B ∣ txs.length + m) (hcap : txs.length + m ≤ TX_CAP)
    (hslots : s.ledger.next + TX_IO_SIZE * (txs.length + m) ≤ UTXO_CAP)
    (hu64 : ∀ x ∈ txs, x.2.U64Amounts)
    (h1 : processTransactions b cv P.hs txs s = (s1, .ok ()))
    (h2 : processSignatures b cv P.hs P.contract l s1 = (s2, .ok ()))
    (b' : Build) (k0 : G) (calls : List (Call G)) (st : Contract.State G)
    (hst : Contract.run b' (Contract.new k0) calls = .ok st) (hpks : st.pks.length ≤ 2 ^ 32)
    (block : Block (ZMod p)) (hb : produceBlock st s2 = .ok block)
    (z : CState p) (hz : StartState cv P.hs s (txRoot cv P.hs s1) z)
    (hok : ProvableEpoch P cv (txs.map (·.2)) l (txRoot cv P.hs s1) sc)
    (k : G) (hk : Approves cv P.hs P.contract (txRoot cv P.hs s1) Tx.default (k, none) = false) :
    ∃ s1' s2' : Agg.State p q G,
      processTransactions b cv P.hs (txs ++ List.replicate m (k, Tx.default)) s = (s1', .ok ()) ∧
      processSignatures b cv P.hs P.contract (l ++ List.replicate m (k, none)) s1' = (s2', .ok ()) ∧
      produceBlock st s2' = .ok { block with signers := block.signers ++ List.replicate m none } ∧
      Proves P cv st { block with signers := block.signers ++ List.replicate m none } z
        (arrayChunks B (s2'.ivcInputs.map CInputs.alloc)) := by
  obtain ⟨hreach, _, _, _⟩ := signerLeaves_inv hsc
  obtain ⟨s1', s2', g1, g2, g3, _, _, _, _, _, _, _, g4, g5⟩ :=
    C104_padding b cv P.hs P.contract s s1 s2 hreach hstart txs l hlen h1 h2 m hcap k hk
  have hl' : (l ++ List.replicate m (k, none)).length ≤ (txs ++ List.replicate m (k, (Tx.default : Tx Nat G))).length := by
    simp [hlen]
  have hcap' : (txs ++ List.replicate m (k, (Tx.default : Tx Nat G))).length ≤ TX_CAP := by simpa using hcap
  have hslots' : s.ledger.next + TX_IO_SIZE * (txs ++ List.replicate m (k, (Tx.default : Tx Nat G))).length ≤
      UTXO_CAP := by
    rw [List.length_append, List.length_replicate]; exact hslots
  obtain ⟨_, _, _, _, _, _, k1, _, t1, _, w2, _⟩ := epoch_setup hsc hstart hcap' hslots' hl' g1 g3
  have hn : s2'.ivcInputs.length = txs.length + m := by
    obtain ⟨ins, i1, i2, _⟩ := k1.inputs
    have i3 := congrArg List.length i2
    rw [i1, w2, List.nil_append]
    rw [List.length_map] at i3
    rw [i3, t1]
    simp [hlen]
  refine ⟨s1', s2', g1, g3, g5 st block hb, ?_⟩
  refine C91_provable_if h hpq b P hfull cv s s1' s2' sc hsc hstart _ _ hcap' hslots' hl' ?_ g1 g3 b' k0 calls st
    hst hpks _ (g5 st block hb) z (by rw [g2]; exact hz) _
    (flatten_arrayChunks_dvd (by rw [List.length_map, hn]; exact hB)) ?_
  · intro x hx
    rw [List.mem_append, List.mem_replicate] at hx
    rcases hx with hx | ⟨_, rfl⟩
    · exact hu64 x hx
    · intro u hu
      simp only [Tx.ios, Tx.default, Vector.toList_replicate, List.mem_append, List.mem_replicate] at hu
      rcases hu with ⟨_, rfl⟩ | ⟨_, rfl⟩ <;> exact (by decide : 0 < U64)
  · rw [g2, List.map_append, List.map_replicate]
    exact provable_padded hok (by simpa using hlen) m hk

/-- Non-vacuity: the epoch of three transactions of `example_epoch`. In batches of four its block is not provable
by anybody, and with one default transaction added the driver's batches prove the padded block. -/
example (h : Sizes p q) (hpq : p ≤ q) (bd : Build) (cv : Curve p q G) (P : Params p G)
    (hP : P.hs = oneHs p) (hfull : P.transferOnly = false) {a b : G} (ha : a ≠ P.contract) (hb : b ≠ P.contract)
    (hab : a ≠ b) :
    ∃ s1 s2 st block z,
      processTransactions bd cv P.hs (triTxs P.contract a b 5) (Agg.new q cv P.hs) = (s1, .ok ()) ∧
      processSignatures bd cv P.hs P.contract (triSigs q P.contract a b) s1 = (s2, .ok ()) ∧
      produceBlock st s2 = .ok block ∧
      (∀ bs : List (List (CInputs p G)), (∀ c ∈ bs, c.length = 4) → bs.flatten.length < p →
        ¬ Proves P cv st block z bs) ∧
      ∃ s1' s2' : Agg.State p q G,
        processTransactions bd cv P.hs (triTxs P.contract a b 5 ++ [(a, Tx.default)]) (Agg.new q cv P.hs) =
          (s1', .ok ()) ∧
        processSignatures bd cv P.hs P.contract (triSigs q P.contract a b ++ [(a, none)]) s1' = (s2', .ok ()) ∧
        produceBlock st s2' = .ok { block with signers := [some 0, some 1, some 2, none] } ∧
        Proves P cv st { block with signers := [some 0, some 1, some 2, none] } z
          (arrayChunks 4 (s2'.ivcInputs.map CInputs.alloc)) := by
  have hp : 1 < p := lt_of_lt_of_le (by decide) h.large
  have hq : 1 < q := lt_of_lt_of_le hp hpq
  obtain ⟨s1, s2, st, block, z, e1, e2, hon, hst, hpk, hb', b1, b2, b3, hz⟩ :=
    example_epoch bd hp hq cv P hP ha hb hab
  have hpe : ProvableEpoch P cv ((triTxs P.contract a b 5).map (·.2)) (triSigs q P.contract a b)
      (txRoot cv P.hs s1) (fun _ => 0) := by
    refine honest_provable hon ?_ (fun _ _ _ _ _ _ => rfl)
    intro x hx
    simp only [triTxs, List.mem_cons, List.not_mem_nil, or_false] at hx
    rcases hx with rfl | rfl | rfl
    · exact depositTx_valid bd _ _ 5 (by decide)
    · exact payTx_valid bd _ _ 5 (by decide)
    · exact payTx_valid bd _ _ 5 (by decide)
  have hk : Approves cv P.hs P.contract (txRoot cv P.hs s1) Tx.default (a, none) = false := by
    unfold Approves
    rw [hP]
    have := (oneHs_verify hp hq cv a (txEnc cv (Tx.default : Tx Nat G) ++ [txRoot cv (oneHs p) s1]) 0).2
    simp [this, ha]
  obtain ⟨s1', s2', g1, g2, g3, g4⟩ := C104_padded_epoch_provable h hpq bd P hfull cv _ s1 s2 (fun _ => 0)
    SignerLeaves.new ⟨rfl, rfl, rfl, rfl, rfl, rfl⟩ (triTxs P.contract a b 5) (triSigs q P.contract a b) rfl 4 1
    (by show 4 ∣ 3 + 1; decide) (by show 3 + 1 ≤ 4096; omega)
    (by
      show 0 + 4 * (3 + 1) ≤ _
      have cap : 2147483648 = UTXO_CAP := rfl
      rw [← cap]; omega) hon.amounts e1 e2 bd _ _ st hst
    (by rw [hpk]; show 3 ≤ 4294967296; omega) block hb' z hz hpe a hk
  rw [b3] at g3 g4
  refine ⟨s1, s2, st, block, z, e1, e2, hb', ?_, s1', s2', g1, g2, g3, g4⟩
  intro bs hbs hl hpr
  obtain ⟨u, t, g, _, _, _, rfl⟩ := hz
  have := (C104_only_multiples h P cv 4 st block _ rfl bs hbs hl
    (by rw [b3]; exact lt_of_lt_of_le (by decide) h.large) hpr).1
  rw [b3] at this
  revert this; decide

end PF.Props
