import Verif.Proof.AggregatorCircuitPublic
import Verif.Props.AggregatorCircuit

/-!
# Properties of runs of the aggregator circuit (C56, C59) and of accepted blocks (C74)
-/
set_option linter.unusedSectionVars false

namespace PF.Props
open PF PF.Spec PF.AggC PF.Contract
variable {p q : Nat} {G : Type} [AddCommGroup G] [Module (ZMod q) G] [DecidableEq G]

theorem cap_lt_p (h : Sizes p q) : TX_CAP < p := lt_of_lt_of_le (by simp [TX_CAP]) h.large

/-! ## C56 -/

/-- **C56**: a run of `n` transactions raises the counter by `n` and passes the final root through. -/
theorem C56_counter_and_final_root (h : Sizes p q) (P : Params p G) (cv : Curve p q G) (z z' : CState p)
    (bs : List (List (CInputs p G))) (hrun : runSteps P cv z bs z') :
    z'.step = z.step + (bs.flatten.length : ZMod p) ∧ z'.txRootFinal = z.txRootFinal :=
  ⟨(run_facts h hrun).step, (run_facts h hrun).final⟩

theorem tx_sound (h : Sizes p q) (P : Params p G) (cv : Curve p q G) (z z' : CState p)
    (bs : List (List (CInputs p G))) (hrun : runSteps P cv z bs z') (ct : Nat → Tx (ZMod p) G)
    (hc : RootOf P.hs (txEncVar cv) 13 ct z.txRoot) :
    (Legal ct (txUpds z.step bs.flatten) ∧
      RootOf P.hs (txEncVar cv) 13 (applied ct (txUpds z.step bs.flatten)) z'.txRoot) ∨
    Collision P.hs (txEncVar cv) 13 ct (txUpds z.step bs.flatten) :=
  UpdChain.sound (fun _ _ e => txEncVar_inj cv (one_lt_p h) e) _ (fun _ m => txUpds_idx m) hc
    (run_facts h hrun).tx

theorem signer_sound (h : Sizes p q) (P : Params p G) (cv : Curve p q G) (z z' : CState p)
    (bs : List (List (CInputs p G))) (hrun : runSteps P cv z bs z') (cs : Nat → G)
    (hc : RootOf P.hs (pkEncVar cv) 13 cs z.signerRoot) :
    (Legal cs (signerUpds P cv z.txRootFinal z.step bs.flatten) ∧
      RootOf P.hs (pkEncVar cv) 13 (applied cs (signerUpds P cv z.txRootFinal z.step bs.flatten))
        z'.signerRoot) ∨
    Collision P.hs (pkEncVar cv) 13 cs (signerUpds P cv z.txRootFinal z.step bs.flatten) :=
  UpdChain.sound (fun _ _ e => pkEncVar_inj cv (one_lt_p h) e) _ (fun _ m => signerUpds_idx m) hc
    (run_facts h hrun).signer

/-- **C56**: as long as the counter stays within the capacity, transaction `k` of the run is put at
position `step + k` of the transaction tree, which held the default transaction, and nothing else in the
tree changes. -/
theorem C56_transactions_listed (h : Sizes p q) (P : Params p G) (cv : Curve p q G) (z z' : CState p)
    (bs : List (List (CInputs p G))) (hrun : runSteps P cv z bs z') (ct : Nat → Tx (ZMod p) G)
    (hc : RootOf P.hs (txEncVar cv) 13 ct z.txRoot) (hcap : z.step.val + bs.flatten.length ≤ TX_CAP) :
    (∃ ct', RootOf P.hs (txEncVar cv) 13 ct' z'.txRoot ∧
      (∀ (k : Nat) (i : CInputs p G), bs.flatten[k]? = some i →
        ct (z.step.val + k) = Tx.default ∧ ct' (z.step.val + k) = i.tx) ∧
      ∀ j, (j < z.step.val ∨ z.step.val + bs.flatten.length ≤ j) → ct' j = ct j) ∨
    Collision P.hs (txEncVar cv) 13 ct (txUpds z.step bs.flatten) := by
  rcases tx_sound h P cv z z' bs hrun ct hc with ⟨hl, hr⟩ | hcol
  · left
    obtain ⟨h1, h2⟩ := tx_applied (cap_lt_p h) bs.flatten z.step hcap ct
    exact ⟨_, hr, fun k i hk => ⟨tx_legal (cap_lt_p h) bs.flatten z.step hcap ct hl k
      (List.getElem?_eq_some_iff.1 hk).1, h1 k i hk⟩, h2⟩
  · exact Or.inr hcol

/-- **C56**: the sender of an authorised transaction `k` is put at position `step + k` of the signer tree,
which held the zero key; nothing else in the tree changes. -/
theorem C56_signers_listed (h : Sizes p q) (P : Params p G) (cv : Curve p q G) (z z' : CState p)
    (bs : List (List (CInputs p G))) (hrun : runSteps P cv z bs z') (cs : Nat → G)
    (hc : RootOf P.hs (pkEncVar cv) 13 cs z.signerRoot) (hcap : z.step.val + bs.flatten.length ≤ TX_CAP) :
    (∃ cs', RootOf P.hs (pkEncVar cv) 13 cs' z'.signerRoot ∧
      (∀ (k : Nat) (i : CInputs p G), bs.flatten[k]? = some i →
        i.authorised P cv z.txRootFinal = true →
          cs (z.step.val + k) = 0 ∧ cs' (z.step.val + k) = i.senderPk) ∧
      (∀ (k : Nat) (i : CInputs p G), bs.flatten[k]? = some i →
        i.authorised P cv z.txRootFinal = false → cs' (z.step.val + k) = cs (z.step.val + k)) ∧
      ∀ j, (j < z.step.val ∨ z.step.val + bs.flatten.length ≤ j) → cs' j = cs j) ∨
    Collision P.hs (pkEncVar cv) 13 cs (signerUpds P cv z.txRootFinal z.step bs.flatten) := by
  rcases signer_sound h P cv z z' bs hrun cs hc with ⟨hl, hr⟩ | hcol
  · left
    obtain ⟨h1, h2⟩ := signer_applied (cap_lt_p h) P cv z.txRootFinal bs.flatten z.step hcap cs
    refine ⟨_, hr, fun k i hk ha => ⟨signer_legal (cap_lt_p h) P cv z.txRootFinal bs.flatten z.step hcap cs hl
      k i hk ha, ?_⟩, fun k i hk ha => ?_, h2⟩
    · rw [h1 k i hk, ha]; rfl
    · rw [h1 k i hk, ha]; rfl
  · exact Or.inr hcol

/-- **C56**: from counter zero, whatever the transaction tree holds, no more than `TX_CAP` transactions
different from the default one can be run. -/
theorem C56_capacity (h : Sizes p q) (P : Params p G) (cv : Curve p q G) (z z' : CState p)
    (bs : List (List (CInputs p G))) (hrun : runSteps P cv z bs z') (ct : Nat → Tx (ZMod p) G)
    (hc : RootOf P.hs (txEncVar cv) 13 ct z.txRoot) (h0 : z.step = 0)
    (hreal : ∀ i ∈ bs.flatten, i.tx ≠ Tx.default) :
    bs.flatten.length ≤ TX_CAP ∨ Collision P.hs (txEncVar cv) 13 ct (txUpds z.step bs.flatten) := by
  rcases tx_sound h P cv z z' bs hrun ct hc with ⟨hl, hr⟩ | hcol
  · left
    by_contra hgt
    push Not at hgt
    have hp := cap_lt_p h
    have hNZ : NeZero p := ⟨by omega⟩
    generalize bs.flatten = is at *
    have hsplit : is = is.take TX_CAP ++ is.drop TX_CAP := (List.take_append_drop _ _).symm
    have hlen : (is.take TX_CAP).length = TX_CAP := by rw [List.length_take]; omega
    rcases hd : is.drop TX_CAP with _ | ⟨i, rest⟩
    · have := congrArg List.length hd; rw [List.length_drop] at this; simp at this; omega
    rw [hsplit, hd, txUpds_append, hlen, legal_append] at hl
    have h2 := ((legal_cons _ _ _).1 hl.2).1
    have hcast : ((TX_CAP : Nat) : ZMod p).val = TX_CAP := by
      rw [ZMod.val_natCast, Nat.mod_eq_of_lt hp]
    rw [h0] at h2
    simp only [zero_add, hcast, Nat.mod_self] at h2
    rcases ht : is.take TX_CAP with _ | ⟨i0, r0⟩
    · rw [ht] at hlen; simp [TX_CAP] at hlen
    have h3 := (tx_applied hp (is.take TX_CAP) 0 (by rw [hlen]; simp) ct).1 0 i0 (by rw [ht]; rfl)
    rw [ZMod.val_zero, Nat.zero_add, h2] at h3
    refine hreal i0 ?_ h3.symm
    rw [hsplit, ht]; simp
  · exact Or.inr hcol

/-! ## C59 -/

/-- **C59**: a position is erased only if it holds the erased UTXO: either it was there initially and the
position was not touched since, or it was inserted at that position earlier in the run and the position
was not touched since. -/
theorem C59_no_double_spend (h : Sizes p q) (P : Params p G) (cv : Curve p q G) (z z' : CState p)
    (bs : List (List (CInputs p G))) (hrun : runSteps P cv z bs z') (c : Nat → UTXO (ZMod p) G)
    (hc : RootOf P.hs (utxoEncVar cv) 32 c z.utxoRoot)
    (us : List (Upd (UTXO (ZMod p) G) (ZMod p))) (hus : us = ledgerUpds P cv z.txRootFinal bs.flatten) :
    (∀ (k : Nat) (v : Upd (UTXO (ZMod p) G) (ZMod p)), us[k]? = some v →
      (c v.idx = v.old ∧
        ∀ (m : Nat) (x : Upd (UTXO (ZMod p) G) (ZMod p)), m < k → us[m]? = some x → x.idx ≠ v.idx) ∨
      ∃ (k' : Nat) (w : Upd (UTXO (ZMod p) G) (ZMod p)), k' < k ∧ us[k']? = some w ∧ w.idx = v.idx ∧
        w.new = v.old ∧
        ∀ (m : Nat) (x : Upd (UTXO (ZMod p) G) (ZMod p)), k' < m → m < k → us[m]? = some x →
          x.idx ≠ v.idx) ∨
    Collision P.hs (utxoEncVar cv) 32 c us := by
  subst hus
  rcases C50_runs_are_ledger_transitions h P cv z z' bs hrun c hc with ⟨hl, hr⟩ | hcol
  · left
    intro k v hk
    have hold := hl k v hk
    rcases last_touch ((ledgerUpds P cv z.txRootFinal bs.flatten).take k) c v.idx with
      ⟨h1, h2⟩ | ⟨k', w, h1, h2, h3, h4⟩
    · left
      refine ⟨by rw [← h1, hold], fun m x hm hx => h2 m x ?_⟩
      rw [List.getElem?_take_of_lt hm]; exact hx
    · right
      have hk' : k' < k := by
        by_contra hge
        rw [List.getElem?_eq_none (by rw [List.length_take]; omega)] at h1; simp at h1
      rw [List.getElem?_take_of_lt hk'] at h1
      refine ⟨k', w, hk', h1, h2, by rw [← h3, hold], fun m x hm hmk hx => h4 m x hm ?_⟩
      rw [List.getElem?_take_of_lt hmk]; exact hx
  · exact Or.inr hcol

/-- **C59**: number of copies of every UTXO: copies after the run plus times it was spent equals copies
before plus times it was created; so it is never spent more often than it existed or was created. -/
theorem C59_copies (h : Sizes p q) (P : Params p G) (cv : Curve p q G) (z z' : CState p)
    (bs : List (List (CInputs p G))) (hrun : runSteps P cv z bs z') (c : Nat → UTXO (ZMod p) G)
    (hc : RootOf P.hs (utxoEncVar cv) 32 c z.utxoRoot) :
    (∃ c', RootOf P.hs (utxoEncVar cv) 32 c' z'.utxoRoot ∧ ∀ v, v ≠ UTXO.dummy →
      copies c' UTXO_CAP v + (spentList P cv z.txRootFinal bs.flatten).count v =
        copies c UTXO_CAP v + (createdList P cv z.txRootFinal bs.flatten).count v ∧
      (spentList P cv z.txRootFinal bs.flatten).count v ≤
        copies c UTXO_CAP v + (createdList P cv z.txRootFinal bs.flatten).count v) ∨
    Collision P.hs (utxoEncVar cv) 32 c (ledgerUpds P cv z.txRootFinal bs.flatten) := by
  rcases C50_runs_are_ledger_transitions h P cv z z' bs hrun c hc with ⟨hl, hr⟩ | hcol
  · left
    refine ⟨_, hr, fun v hv => ?_⟩
    have := run_copies bs.flatten (run_facts h hrun).shape hl v hv
    generalize copies c UTXO_CAP v = a at *
    generalize copies (applied c (ledgerUpds P cv z.txRootFinal bs.flatten)) UTXO_CAP v = b at *
    exact ⟨this, by omega⟩
  · exact Or.inr hcol

/-! ## C74 -/

section
open PF.Contract

/-- Sum of the amounts of deposit or withdrawal entries. -/
def sumAmounts (ds : List (Nat × Nat)) : Nat := (ds.map (·.2)).sum

theorem sumAmounts_eq {pks : List G} {ds : List (Nat × Nat)} {es : List (G × Nat)}
    (h : ds.map (entryOf pks) = es.map some) : sumAmounts ds = (es.map (·.2)).sum := by
  induction ds generalizing es with
  | nil => cases es with
    | nil => rfl
    | cons => simp at h
  | cons d ds ih =>
    cases es with
    | nil => simp at h
    | cons e es =>
      simp only [List.map_cons, List.cons.injEq] at h
      have h1 := h.1
      unfold entryOf at h1
      rcases hk : pks[d.1]? with _ | k <;> rw [hk] at h1 <;> simp at h1
      have := ih h.2
      simp only [sumAmounts] at this
      simp [sumAmounts, this, ← h1]

/-- **C74**: what a block stands for whose derived public inputs are the final state of an accepted
full-mode run that started from counter zero and empty accumulators. Its signers, deposits and withdrawals
are those of the run (else truncated SHA is broken), its transaction root is the one the signatures commit
to, and its roots commit to the contents the run leads to (else a collision is exhibited). -/
theorem C74_accepted_block (h : Sizes p q) (P : Params p G) (hfull : P.transferOnly = false)
    (cv : Curve p q G) (s : State G) (b : Block (ZMod p)) (hb : BlockAmounts b)
    (u0 t0 f s0 : ZMod p) (bs : List (List (CInputs p G))) (z' : CState p)
    (hrun : runSteps P cv (initState u0 t0 f s0) bs z')
    (hpub : derivePublicInputs cv P.sha s b = .ok z'.toList) :
    b.txRoot = f ∧ b.utxoRoot = z'.utxoRoot ∧ b.signerRoot = z'.signerRoot ∧ z'.txRoot = f ∧
    (b.signers.map (signerOf s.pks) = (signerList P cv f bs.flatten).map some ∨
      ∃ ks, b.signers.map (signerOf s.pks) = ks.map some ∧
        ChainBreak (shaField p P.sha) (truncated p P.sha) (signerInput cv) 0 ks
          (signerList P cv f bs.flatten)) ∧
    (b.deposits.map (entryOf s.pks) = (depositList P bs.flatten).map some ∨
      ∃ es, b.deposits.map (entryOf s.pks) = es.map some ∧
        ChainBreak (shaField p P.sha) (truncated p P.sha) (amountInput cv) 0 es
          (depositList P bs.flatten)) ∧
    (b.withdrawals.map (entryOf s.pks) = (withdrawalList P bs.flatten).map some ∨
      ∃ es, b.withdrawals.map (entryOf s.pks) = es.map some ∧
        ChainBreak (shaField p P.sha) (truncated p P.sha) (amountInput cv) 0 es
          (withdrawalList P bs.flatten)) := by
  have r := run_facts h hrun
  have hp := one_lt_p h
  rcases r.books with ⟨t, _⟩ | ⟨_, b1, b2, b3, b4⟩
  · rw [hfull] at t; cases t
  unfold derivePublicInputs at hpub
  rcases h1 : signerAcc cv P.sha s.pks b.signers 0 with sa | e | _ <;> rw [h1] at hpub <;> simp at hpub
  rcases h2 : amountAcc cv P.sha s.pks b.deposits 0 with da | e | _ <;> rw [h2] at hpub <;> simp at hpub
  rcases h3 : amountAcc cv P.sha s.pks b.withdrawals 0 with wa | e | _ <;> rw [h3] at hpub <;> simp at hpub
  simp only [CState.toList, List.cons.injEq, and_true] at hpub
  obtain ⟨-, hu, ht, htf, hsr, hsa, hda, hwa⟩ := hpub
  have hfin : z'.txRootFinal = f := r.final
  obtain ⟨ks, hk, rfl⟩ := (signerAcc_ok cv P.sha s.pks _ _ _).1 h1
  obtain ⟨ds, hds, rfl⟩ := (amountAcc_ok cv P.sha s.pks _ _ _).1 h2
  obtain ⟨ws, hws, rfl⟩ := (amountAcc_ok cv P.sha s.pks _ _ _).1 h3
  refine ⟨by rw [htf, hfin], hu, hsr, by rw [← ht, htf, hfin], ?_, ?_, ?_⟩
  · rw [r.signerAcc] at hsa
    rcases signer_chain_bind hp cv P.sha ks _ 0 hsa with rfl | hc
    · exact Or.inl hk
    · exact Or.inr ⟨ks, hk, hc⟩
  · rw [b3] at hda
    have hD : ∀ e ∈ depositList P bs.flatten, e.2 < 2 ^ 64 := by
      intro e he
      simp only [depositList, List.mem_flatMap] at he
      obtain ⟨i, hi, he⟩ := he
      split at he
      · simp only [List.mem_map, List.mem_filter] at he
        obtain ⟨u, ⟨hu, _⟩, rfl⟩ := he
        exact b1 i hi u hu
      · simp at he
    rcases amount_chain_bind hp cv P.sha ds _ 0 (entries_amounts hds hb.1) hD hda with rfl | hc
    · exact Or.inl hds
    · exact Or.inr ⟨ds, hds, hc⟩
  · rw [b4] at hwa
    have hW : ∀ e ∈ withdrawalList P bs.flatten, e.2 < 2 ^ 64 := by
      intro e he
      simp only [withdrawalList, List.mem_flatMap] at he
      obtain ⟨i, hi, he⟩ := he
      split at he
      · simp at he
      · simp only [List.mem_singleton] at he; subst he; exact b2 i hi
    rcases amount_chain_bind hp cv P.sha ws _ 0 (entries_amounts hws hb.2) hW hwa with rfl | hc
    · exact Or.inl hws
    · exact Or.inr ⟨ws, hws, hc⟩

/-- **C74**: started from the empty transaction and signer trees, the transaction root of the block — the
root all its signatures commit to — is the root of the tree of exactly the processed transactions, and its
signer root is that of the tree of the authorised senders. -/
theorem C74_block_roots (h : Sizes p q) (P : Params p G) (hfull : P.transferOnly = false)
    (cv : Curve p q G) (s : State G) (b : Block (ZMod p)) (hb : BlockAmounts b)
    (u0 t0 f s0 : ZMod p) (bs : List (List (CInputs p G))) (z' : CState p)
    (hrun : runSteps P cv (initState u0 t0 f s0) bs z')
    (hpub : derivePublicInputs cv P.sha s b = .ok z'.toList) (hcap : bs.flatten.length ≤ TX_CAP)
    (ht : RootOf P.hs (txEncVar cv) 13 (fun _ => Tx.default) t0)
    (hs : RootOf P.hs (pkEncVar cv) 13 (fun _ => 0) s0) :
    (RootOf P.hs (txEncVar cv) 13 (fun j => ((bs.flatten.map fun i => i.tx)[j]?).getD Tx.default) b.txRoot ∨
      Collision P.hs (txEncVar cv) 13 (fun _ => Tx.default) (txUpds 0 bs.flatten)) ∧
    (RootOf P.hs (pkEncVar cv) 13 (fun j => ((signerList P cv b.txRoot bs.flatten)[j]?).getD 0) b.signerRoot ∨
      Collision P.hs (pkEncVar cv) 13 (fun _ => 0) (signerUpds P cv b.txRoot 0 bs.flatten)) := by
  obtain ⟨k1, k2, k3, k4, -⟩ := C74_accepted_block h P hfull cv s b hb u0 t0 f s0 bs z' hrun hpub
  have hp := cap_lt_p h
  have hz : (initState u0 t0 f s0).step.val + bs.flatten.length ≤ TX_CAP := by
    simp only [initState, ZMod.val_zero]; omega
  have h0 : ∀ k, (initState u0 t0 f s0).step.val + k = k := by intro k; simp [initState]
  constructor
  · rcases tx_sound h P cv _ z' bs hrun _ ht with ⟨-, hr⟩ | hc
    · left
      rw [k1, ← k4]
      convert hr using 1
      funext j
      obtain ⟨a1, a2⟩ := tx_applied hp bs.flatten (initState u0 t0 f s0).step hz (fun _ => Tx.default)
      rcases hj : bs.flatten[j]? with _ | i
      · have := List.getElem?_eq_none_iff.1 hj
        rw [a2 j (Or.inr (by rw [h0]; exact this))]
        rw [List.getElem?_map, hj]; rfl
      · have := a1 j i hj
        rw [h0] at this
        rw [this, List.getElem?_map, hj]; rfl
    · exact Or.inr hc
  · rw [k1]
    rcases signer_sound h P cv _ z' bs hrun _ hs with ⟨-, hr⟩ | hc
    · left
      rw [k3]
      convert hr using 1
      funext j
      obtain ⟨a1, a2⟩ := signer_applied hp P cv f bs.flatten (initState u0 t0 f s0).step hz (fun _ => (0 : G))
      show _ = applied _ (signerUpds P cv f _ bs.flatten) j
      rcases hj : bs.flatten[j]? with _ | i
      · have := List.getElem?_eq_none_iff.1 hj
        rw [a2 j (Or.inr (by rw [h0]; exact this))]
        rw [signerList, List.getElem?_map, hj]; rfl
      · have := a1 j i hj
        rw [h0] at this
        rw [this, signerList, List.getElem?_map, hj]; rfl
    · exact Or.inr hc

/-- **C74**, value: across an accepted block the ledger value grows exactly by the deposits of the block
minus what its authorised transactions pay to the contract, which is at most the withdrawals of the
block. -/
theorem C74_block_value (h : Sizes p q) (P : Params p G) (hfull : P.transferOnly = false)
    (cv : Curve p q G) (s : State G) (b : Block (ZMod p)) (hb : BlockAmounts b)
    (u0 t0 f s0 : ZMod p) (bs : List (List (CInputs p G))) (z' : CState p)
    (hrun : runSteps P cv (initState u0 t0 f s0) bs z')
    (hpub : derivePublicInputs cv P.sha s b = .ok z'.toList)
    (c : Nat → UTXO (ZMod p) G) (hc : RootOf P.hs (utxoEncVar cv) 32 c u0) (hh : Healthy P.contract c) :
    (∃ c', RootOf P.hs (utxoEncVar cv) 32 c' b.utxoRoot ∧ Healthy P.contract c' ∧
      valueOf c' UTXO_CAP + authorisedWithdrawals P cv f bs.flatten =
        valueOf c UTXO_CAP + sumAmounts b.deposits ∧
      authorisedWithdrawals P cv f bs.flatten ≤ sumAmounts b.withdrawals) ∨
    Collision P.hs (utxoEncVar cv) 32 c (ledgerUpds P cv f bs.flatten) ∨
    ∃ es es', ChainBreak (shaField p P.sha) (truncated p P.sha) (amountInput cv) 0 es es' ∧
      (b.deposits.map (entryOf s.pks) = es.map some ∧ es' = depositList P bs.flatten ∨
       b.withdrawals.map (entryOf s.pks) = es.map some ∧ es' = withdrawalList P bs.flatten) := by
  obtain ⟨hc1, hd, hw, hle⟩ := C53_full_mode_conservation h P hfull cv _ z' bs hrun c hc hh
  obtain ⟨k1, k2, k3, k4, k5, k6, k7⟩ := C74_accepted_block h P hfull cv s b hb u0 t0 f s0 bs z' hrun hpub
  rcases k6 with k6 | ⟨es, e1, e2⟩
  · rcases k7 with k7 | ⟨es, e1, e2⟩
    · rcases hc1 with ⟨c', a1, a2, a3⟩ | hcol
      · left
        refine ⟨c', by rw [k2]; exact a1, a2, ?_, ?_⟩
        · rw [sumAmounts_eq k6]; exact a3
        · rw [sumAmounts_eq k7]; exact hle
      · exact Or.inr (Or.inl hcol)
    · exact Or.inr (Or.inr ⟨es, _, e2, Or.inr ⟨e1, rfl⟩⟩)
  · exact Or.inr (Or.inr ⟨es, _, e2, Or.inl ⟨e1, rfl⟩⟩)

end
end PF.Props
