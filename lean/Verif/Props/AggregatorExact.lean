import Verif.Props.AggregatorProvable

/-!
# Property C91: exactly which executed epochs can be proved
-/
set_option linter.unusedSectionVars false

namespace PF.Props
open PF PF.MT PF.Agg PF.Spec PF.AggC PF.Contract
variable {p q : Nat} {G : Type} [AddCommGroup G] [Module (ZMod q) G] [DecidableEq G]

/-- Conditions on an epoch, in terms of its transactions, the pairs given for them, the transaction root
and the signer leaves at the start of the epoch. -/
structure ProvableEpoch (P : Params p G) (cv : Curve p q G) (txs : List (Tx Nat G)) (l : List (Pair q G))
    (f : ZMod p) (sc : Nat → G) : Prop where
  /-- the key of each pair owns the real inputs of its transaction, approved or not -/
  owned : ∀ y ∈ txs.zip l, OwnedBy y.2.1 y.1.inputs.toList
  /-- the totals agree, without reduction modulo `2^64` -/
  balanced : ∀ tx ∈ txs, totalOf tx.inputs.toList = totalOf tx.outputs.toList
  /-- what a transaction pays to the contract fits 64 bits -/
  fits : ∀ tx ∈ txs, tx.withdrawn P.contract < U64
  /-- transactions signed with the contract's key have no real inputs -/
  contract : ∀ y ∈ txs.zip l, y.2.1 = P.contract →
    Schnorr.verify cv P.hs.crh y.2.1 (txEnc cv y.1 ++ [f]) (y.2.2.getD (0, 0)) = true →
      ∀ u ∈ y.1.inputs.toList, u.isDummy = true
  /-- transactions without approval pay nothing to the contract -/
  rejected : ∀ y ∈ txs.zip l, Approves cv P.hs P.contract f y.1 y.2 = false → y.1.withdrawn P.contract = 0
  /-- approved transactions fall on positions of the signer tree that were never signed -/
  free : ∀ (k : Nat) (tx : Tx Nat G) (y : Pair q G), txs[k]? = some tx → l[k]? = some y →
    Approves cv P.hs P.contract f tx y = true → sc k = 0
  /-- every transaction is answered, except that default transactions at the end may be left out -/
  complete : ∀ (k : Nat) (tx : Tx Nat G), txs[k]? = some tx → l.length ≤ k → tx = Tx.default

/-- The recorded inputs, batched as `bs`, satisfy the circuit from `z`, and the final state is what the
contract derives from the block. -/
def Proves (P : Params p G) (cv : Curve p q G) (st : Contract.State G) (block : Block (ZMod p)) (z : CState p)
    (bs : List (List (CInputs p G))) : Prop :=
  ∃ z', runSteps P cv z bs z' ∧ derivePublicInputs cv P.sha st block = .ok z'.toList

/-- What a successfully executed epoch leaves behind. -/
theorem epoch_setup {b : Build} {cv : Curve p q G} {hs : Hashes p} {rollup : G}
    {s s1 s2 : Agg.State p q G} {sc : Nat → G} (hsc : SignerLeaves b cv hs s sc) (hstart : EpochStart s)
    {txs : List (G × Tx Nat G)} {l : List (Pair q G)} (hcap : txs.length ≤ TX_CAP)
    (hslots : s.ledger.next + TX_IO_SIZE * txs.length ≤ UTXO_CAP) (hll : l.length ≤ txs.length)
    (h1 : processTransactions b cv hs txs s = (s1, .ok ()))
    (h2 : processSignatures b cv hs rollup l s1 = (s2, .ok ())) :
    ∃ c c' sc', Inv cv hs s c sc ∧ Inv cv hs s1 c sc ∧ Inv cv hs s2 c' sc' ∧
      Runs b cv hs rollup (txRoot cv hs s1) 0 l s1 c sc s2 c' sc' ∧ Reach b cv hs s2 ∧
      s1.transactions = txs.map (·.2) ∧ s1.signers = [] ∧ s1.ivcInputs = [] ∧ s1.deposits = [] ∧
      s1.withdrawals = [] ∧ s1.ledger = s.ledger := by
  obtain ⟨hreach, _, c, hi⟩ := signerLeaves_inv hsc
  obtain ⟨done, rest, t, prs, e1, e2, e3, o, e4, e5⟩ := processTransactions_spec (b := b) txs s hi
    (by rw [hstart.transactions]; simpa using hcap)
  rw [h1] at e4
  obtain ⟨e6, rfl⟩ := Prod.mk.inj e4
  have hdone : done = txs := by
    rcases e5 with ⟨rfl, _⟩ | ⟨x, rest', _, hne, heq⟩
    · simpa using e1.symm
    · exact absurd heq.symm hne
  subst hdone
  rw [hstart.transactions, hstart.txProofs, List.nil_append, List.nil_append] at e6
  rw [hstart.transactions, hstart.txProofs, List.nil_append, List.nil_append] at e3
  rw [← e6] at e3
  have r1 : Reach b cv hs s1 := by
    refine reach_transactions hreach done ?_ h1 (by simp)
    show _ + _ ≤ _
    rw [hstart.transactions]; simpa using hcap
  have hf : (Op.signatures rollup l).Fits s1 := by
    constructor
    · rw [e6]; simp only; rw [hstart.signers]; simpa using le_trans hll hcap
    · rw [e6]; simp only
      exact le_trans (Nat.add_le_add_left (Nat.mul_le_mul_left _ hll) _) hslots
  obtain ⟨c', sc', k1, k2, k3⟩ := sig_ok e3 hf h2
  refine ⟨c, c', sc', hi, e3, k2, k1, reach_signatures r1 l hf h2 (by simp), ?_⟩
  rw [e6]
  exact ⟨rfl, hstart.signers, hstart.inputs, hstart.deposits, hstart.withdrawals, rfl⟩

/-- The start state in terms of the represented contents. -/
theorem startState_eq {cv : Curve p q G} {hs : Hashes p} {s : Agg.State p q G} {c : Nat → UTXO Nat G}
    {sc : Nat → G} (hi : Inv cv hs s c sc) {f : ZMod p} {z : CState p} (hz : StartState cv hs s f z) :
    z = initState (merkleRoot (utxoCRH cv hs.crh) hs.h2 32 c)
      (merkleRoot (txCRH cv hs.crh) hs.h2 13 (fun _ => Tx.default)) f
      (merkleRoot (pkCRH cv hs.crh) hs.h2 13 sc) := by
  obtain ⟨u, t0, g, z1, z2, z3, rfl⟩ := hz
  have q1 : u = merkleRoot (utxoCRH cv hs.crh) hs.h2 32 c := by
    have := hi.holds.tree.rootHash (ε := Unit)
    unfold HasRoot at z1
    rw [this] at z1; simp only [Outcome.ok.injEq] at z1; exact z1.symm
  have q2 : t0 = merkleRoot (txCRH cv hs.crh) hs.h2 13 (fun _ => Tx.default) := by
    have := (blankTree_rep (txTreeCfg cv hs)).rootHash (ε := Unit)
    unfold HasRoot at z2
    rw [this] at z2; simp only [Outcome.ok.injEq] at z2; exact z2.symm
  have q3 : g = merkleRoot (pkCRH cv hs.crh) hs.h2 13 sc := by
    have := hi.signer.rootHash (ε := Unit)
    unfold HasRoot at z3
    rw [this] at z3; simp only [Outcome.ok.injEq] at z3; exact z3.symm
  rw [q1, q2, q3]

/-- **C91**, sufficiency: whenever the conditions hold, the recorded inputs of the executed epoch, batched
in any way, prove the produced block. -/
theorem C91_provable_if (h : Sizes p q) (hpq : p ≤ q) (b : Build) (P : Params p G)
    (hfull : P.transferOnly = false) (cv : Curve p q G)
    (s s1 s2 : Agg.State p q G) (sc : Nat → G) (hsc : SignerLeaves b cv P.hs s sc) (hstart : EpochStart s)
    (txs : List (G × Tx Nat G)) (l : List (Pair q G)) (hcap : txs.length ≤ TX_CAP)
    (hslots : s.ledger.next + TX_IO_SIZE * txs.length ≤ UTXO_CAP) (hll : l.length ≤ txs.length)
    (hu64 : ∀ x ∈ txs, x.2.U64Amounts)
    (h1 : processTransactions b cv P.hs txs s = (s1, .ok ()))
    (h2 : processSignatures b cv P.hs P.contract l s1 = (s2, .ok ()))
    (b' : Build) (k : G) (calls : List (Call G)) (st : Contract.State G)
    (hst : Contract.run b' (Contract.new k) calls = .ok st) (hpks : st.pks.length ≤ 2 ^ 32)
    (block : Block (ZMod p)) (hb : produceBlock st s2 = .ok block)
    (z : CState p) (hz : StartState cv P.hs s (txRoot cv P.hs s1) z)
    (bs : List (List (CInputs p G))) (hbs : bs.flatten = s2.ivcInputs.map CInputs.alloc)
    (hok : ProvableEpoch P cv (txs.map (·.2)) l (txRoot cv P.hs s1) sc) : Proves P cv st block z bs := by
  obtain ⟨c, c', sc', hi, hi1, hi2, k1, r2, t1, w1, w2, w3, w4, w5⟩ :=
    epoch_setup hsc hstart hcap hslots hll h1 h2
  rw [← t1] at hok
  obtain ⟨z', g1, g2⟩ := honest_run h hpq P hfull cv hi1 k1 w1 w2 w3 w4 (by rw [t1]; simpa using hll)
    hok.complete
    (fun y hy => ⟨hok.owned y hy, fun hc => by
      cases hv : Schnorr.verify cv P.hs.crh y.2.1 (txEnc cv y.1 ++ [txRoot cv P.hs s1]) (y.2.2.getD (0, 0)) with
      | false => exact Or.inl rfl
      | true => exact Or.inr (hok.contract y hy hc hv)⟩)
    hok.rejected hok.free
    (fun tx ht => by
      rw [t1] at ht
      obtain ⟨x, hx, rfl⟩ := List.mem_map.1 ht
      exact hu64 x hx) hok.balanced hok.fits
  refine ⟨z', ?_, ?_⟩
  · rw [runSteps_flatten, hbs, startState_eq hi hz]; exact g1
  · have key := derive_block (cv := cv) P.sha r2 b' k calls st hst hpks block hb _ _
      (hi2.holds.tree.rootHash (ε := Unit)) (hi2.signer.rootHash (ε := Unit))
    have tr : txRoot cv P.hs s2 = txRoot cv P.hs s1 := by
      unfold txRoot; rw [k1.frame.1]
    rw [tr] at key
    rw [key, g2]
    rfl

theorem filter_flatMap_nil {A B : Type} (l : List A) (f : A → Bool) (g : A → List B)
    (h : l.flatMap g = (l.filter f).flatMap g) : ∀ a ∈ l, f a = false → g a = [] := by
  have le : ∀ l : List A, ((l.filter f).flatMap g).length ≤ (l.flatMap g).length := by
    intro l
    induction l with
    | nil => simp
    | cons a l ih =>
      rw [List.flatMap_cons, List.length_append]
      cases hf : f a with
      | true => rw [List.filter_cons_of_pos hf, List.flatMap_cons, List.length_append]; omega
      | false => rw [List.filter_cons_of_neg (by simp [hf])]; omega
  induction l with
  | nil => intro a ha; cases ha
  | cons a l ih =>
    have hl := congrArg List.length h
    have hle := le l
    cases hf : f a with
    | true =>
      rw [List.filter_cons_of_pos hf, List.flatMap_cons, List.flatMap_cons] at h
      have := ih (List.append_cancel_left h)
      intro x hx hfx
      rcases List.mem_cons.1 hx with rfl | hx
      · rw [hf] at hfx; cases hfx
      · exact this x hx hfx
    | false =>
      rw [List.filter_cons_of_neg (by simp [hf]), List.flatMap_cons] at h
      rw [List.filter_cons_of_neg (by simp [hf]), List.flatMap_cons, List.length_append] at hl
      have h0 : g a = [] := List.length_eq_zero_iff.1 (by omega)
      rw [h0, List.nil_append] at h
      intro x hx hfx
      rcases List.mem_cons.1 hx with rfl | hx
      · exact h0
      · exact ih h x hx hfx

/-- In a legal run from a ledger without UTXOs of the contract, no signed transaction has a real input that
belongs to the contract. -/
theorem signed_input_not_contract {P : Params p G} {cv : Curve p q G} {root : ZMod p}
    {is : List (CInputs p G)} {c : Nat → UTXO (ZMod p) G} (hc : ∀ j, (c j).isDummy = false → (c j).pk ≠ P.contract)
    (hsh : ∀ i ∈ is, Shape q i) (hl : Legal c (ledgerUpds P cv root is)) :
    ∀ i ∈ is, i.signed cv P.hs root = true → ∀ u ∈ i.tx.inputs.toList, u.isDummy = false →
      u.pk ≠ P.contract := by
  intro i hi hsg u hu hd
  obtain ⟨pre, post, rfl⟩ := List.append_of_mem hi
  have e : ledgerUpds P cv root (pre ++ i :: post) = ledgerUpds P cv root pre ++
      ((i.erases cv P.hs root ++ i.inserts P cv root) ++ ledgerUpds P cv root post) := by
    simp [ledgerUpds]
  rw [e, legal_append, legal_append, legal_append] at hl
  obtain ⟨j, hj⟩ := input_in_ledger (hsh i hi) hsg hl.2.1.1 hu hd
  rcases last_write (ledgerUpds P cv root pre) c j with hw | ⟨x, hx, _, hw⟩
  · rw [hw] at hj
    rw [← hj] at hd ⊢
    exact hc j hd
  · rw [hw] at hj
    rw [← hj] at hd ⊢
    rcases mem_ledgerUpds hx with ⟨i', hi', _, _, _, hn⟩ | ⟨i', hi', _, hm, ho, _⟩
    · rw [hn] at hd; simp [UTXO.dummy] at hd
    · simp only [UTXO.onLedger, Bool.and_eq_true, decide_eq_true_eq] at ho
      exact ho.2

/-- **C91**, necessity: if the recorded inputs of an executed epoch prove the produced block, the conditions
hold, unless the run exhibits a collision in the UTXO tree, in the signer tree or in the transaction tree, the
answered and the listed transactions exhibit a collision in the transaction tree, or the chain of the recorded
withdrawals breaks the truncated SHA-256. The ledger is assumed to hold no UTXO of the contract at the start
of the epoch. -/
theorem C91_provable_only_if (h : Sizes p q) (b : Build) (P : Params p G)
    (hfull : P.transferOnly = false) (cv : Curve p q G)
    (s s1 s2 : Agg.State p q G) (sc : Nat → G) (hsc : SignerLeaves b cv P.hs s sc) (hstart : EpochStart s)
    (hno : ∀ u : UTXO Nat G, u.isDummy = false → u.pk = P.contract → live s u = 0)
    (txs : List (G × Tx Nat G)) (l : List (Pair q G)) (hcap : txs.length ≤ TX_CAP)
    (hslots : s.ledger.next + TX_IO_SIZE * txs.length ≤ UTXO_CAP) (hll : l.length ≤ txs.length)
    (hu64 : ∀ x ∈ txs, x.2.U64Amounts)
    (h1 : processTransactions b cv P.hs txs s = (s1, .ok ()))
    (h2 : processSignatures b cv P.hs P.contract l s1 = (s2, .ok ()))
    (b' : Build) (k : G) (calls : List (Call G)) (st : Contract.State G)
    (hst : Contract.run b' (Contract.new k) calls = .ok st) (hpks : st.pks.length ≤ 2 ^ 32)
    (block : Block (ZMod p)) (hb : produceBlock st s2 = .ok block)
    (z : CState p) (hz : StartState cv P.hs s (txRoot cv P.hs s1) z)
    (bs : List (List (CInputs p G))) (hbs : bs.flatten = s2.ivcInputs.map CInputs.alloc)
    (hpr : Proves P cv st block z bs) (c : Nat → UTXO Nat G) (hc : Represents cv P.hs s c) :
    ProvableEpoch P cv (txs.map (·.2)) l (txRoot cv P.hs s1) sc ∨
    Collision P.hs (utxoEncVar cv) 32 (fun j => (c j).alloc p) (ledgerUpds P cv z.txRootFinal bs.flatten) ∨
    Collision P.hs (pkEncVar cv) 13 sc (signerUpds P cv z.txRootFinal z.step bs.flatten) ∨
    Collision P.hs (txEncVar cv) 13 (fun _ => Tx.default) (txUpds z.step bs.flatten) ∨
    RootClash P.hs (txEnc cv) 13
      (fun i => ((txs.map (·.2)).take l.length)[i]?.getD Tx.default)
      (fun i => (txs.map (·.2))[i]?.getD Tx.default) ∨
    ChainBreak (shaField p P.sha) (truncated p P.sha) (amountInput cv) 0 s2.withdrawals
      (withdrawalList P bs.flatten) := by
  obtain ⟨c0, c', sc', hi, hi1, hi2, k1, r2, t1, w1, w2, w3, w4, w5⟩ :=
    epoch_setup hsc hstart hcap hslots hll h1 h2
  obtain rfl : c0 = c := hi.represents.unique hc
  obtain ⟨z', hrun, hder⟩ := hpr
  have hp1 := one_lt_p h
  have hU : U64 ≤ p := le_trans (by unfold U64; decide) h.large
  have zeq := startState_eq hi hz
  have zf : z.txRootFinal = txRoot cv P.hs s1 := by rw [zeq]; rfl
  have f := run_facts h hrun
  rw [hbs] at f
  obtain ⟨ins, i1, i2, i3⟩ := k1.inputs
  rw [w2, List.nil_append] at i1
  rw [List.drop_zero, t1] at i2
  have hmem : ∀ y ∈ (txs.map (·.2)).zip l, ∃ v ∈ ins, v.tx = y.1 ∧ v.senderPk = y.2.1 ∧
      v.signature = y.2.2.getD (0, 0) := by
    intro y hy
    have : (y.1, y.2.1, y.2.2.getD (0, 0)) ∈ ins.map (fun y => (y.tx, y.senderPk, y.signature)) := by
      rw [i2]; exact List.mem_map.2 ⟨y, hy, rfl⟩
    obtain ⟨v, hv, hve⟩ := List.mem_map.1 this
    simp only [Prod.mk.injEq] at hve
    exact ⟨v, hv, hve.1, hve.2.1, hve.2.2⟩
  have hback : ∀ v ∈ ins, v.tx ∈ txs.map (·.2) := by
    intro v hv
    have : (v.tx, v.senderPk, v.signature) ∈ ins.map (fun y => (y.tx, y.senderPk, y.signature)) :=
      List.mem_map.2 ⟨v, hv, rfl⟩
    rw [i2] at this
    obtain ⟨y, hy, hye⟩ := List.mem_map.1 this
    simp only [Prod.mk.injEq] at hye
    rw [← hye.1]
    exact (List.of_mem_zip hy).1
  have hil : ins.length = l.length := by
    have := congrArg List.length i2
    simp only [List.length_map, List.length_zip] at this; omega
  have key := derive_block (cv := cv) P.sha r2 b' k calls st hst hpks block hb _ _
      (hi2.holds.tree.rootHash (ε := Unit)) (hi2.signer.rootHash (ε := Unit))
  rw [key] at hder
  have htxr : txRoot cv P.hs s2 = z'.txRoot := by
    have := Outcome.ok.inj hder
    simp only [CState.toList, List.cons.injEq, and_true] at this
    exact this.2.2.1
  have etx : ∀ d : Nat → Tx Nat G, merkleRoot (txCRH cv P.hs.crh) P.hs.h2 13 d =
      merkleRoot (fun l => P.hs.crh (txEncVar cv l)) P.hs.h2 13 (fun j => (d j).alloc p) := by
    intro d; unfold merkleRoot; simp only [txEncVar_alloc]; rfl
  rcases tx_sound h P cv z z' bs hrun (fun _ => Tx.default) (by
      unfold RootOf
      rw [zeq]
      show merkleRoot _ _ _ _ = _
      rw [etx, default_alloc]) with ⟨_, htr⟩ | hcol
  swap
  · right; right; right; left; exact hcol
  have hz0 : z.step.val = 0 := by rw [zeq]; simp [initState]
  have happ : applied (fun _ => Tx.default) (txUpds z.step bs.flatten) =
      fun i => (((txs.map (·.2)).take l.length)[i]?.getD Tx.default).alloc p := by
    have hlen : bs.flatten.length = l.length := by rw [hbs, i1, List.length_map, hil]
    obtain ⟨a1, a2⟩ := tx_applied (cap_lt_p h) bs.flatten z.step
      (by rw [hz0, hlen, Nat.zero_add]; omega) (fun _ => Tx.default)
    rw [hz0] at a1 a2
    funext j
    rw [List.getElem?_take]
    split
    · next hj =>
      have hv : ins[j]? = some ins[j] := List.getElem?_eq_getElem (by omega)
      have h3 := a1 j (CInputs.alloc ins[j]) (by rw [hbs, i1, List.getElem?_map, hv]; rfl)
      rw [Nat.zero_add] at h3
      rw [h3]
      have h4 := congrArg (·[j]?) i2
      simp only [List.getElem?_map, hv, Option.map_some] at h4
      cases hy : ((List.map (fun x => x.2) txs).zip l)[j]? with
      | none => rw [hy] at h4; cases h4
      | some y =>
        rw [hy] at h4
        simp only [Option.map_some, Option.some.injEq, Prod.mk.injEq] at h4
        obtain ⟨y1, y2⟩ := y
        rw [List.getElem?_zip_eq_some] at hy
        rw [hy.1, Option.getD_some]
        simp only at h4
        rw [← h4.1]; rfl
    · next hj =>
      rw [a2 j (Or.inr (by omega)), Option.getD_none, default_alloc]
  have hroots : merkleRoot (txCRH cv P.hs.crh) P.hs.h2 13
      (fun i => ((txs.map (·.2)).take l.length)[i]?.getD Tx.default) =
      merkleRoot (txCRH cv P.hs.crh) P.hs.h2 13 (fun i => (txs.map (·.2))[i]?.getD Tx.default) := by
    unfold RootOf at htr
    rw [← htxr, happ, ← etx] at htr
    rw [← htr, ← t1, ← k1.frame.1]; rfl
  rcases root_clash P.hs (txEnc cv) 13 _ _ hroots with hsame | hclash
  swap
  · right; right; right; right; left; exact hclash
  have complete : ∀ (k : Nat) (tx : Tx Nat G), (txs.map (·.2))[k]? = some tx → l.length ≤ k →
      tx = Tx.default := by
    intro k tx ht hk
    have hlt := (List.getElem?_eq_some_iff.1 ht).1
    rw [List.length_map] at hlt
    have := hsame k (lt_of_lt_of_le hlt hcap)
    rw [List.getElem?_take, if_neg (by omega), ht] at this
    obtain ⟨x, hx, rfl⟩ := List.mem_map.1 (List.mem_of_getElem? ht)
    refine (C17_tx_encoding_injective cv hp1 _ _ ?_ (fun u hu => lt_of_lt_of_le (hu64 x hx u hu) hU) this).symm
    intro u hu
    have : u = UTXO.dummy := by
      simp only [Option.getD_none, Tx.ios, Tx.default, List.mem_append, Vector.toList_replicate,
        List.mem_replicate] at hu
      tauto
    rw [this]; show 0 < p; omega
  have hfwd : ∀ tx ∈ txs.map (·.2), (∃ v ∈ ins, v.tx = tx) ∨ tx = Tx.default := by
    intro tx ht
    obtain ⟨j, hj⟩ := List.mem_iff_getElem?.1 ht
    by_cases hlt : l.length ≤ j
    · exact Or.inr (complete j tx hj hlt)
    rw [not_le] at hlt
    left
    have hz2 : (tx, l[j]) ∈ (txs.map (·.2)).zip l :=
      List.mem_iff_getElem?.2 ⟨j, by rw [List.getElem?_zip_eq_some]; exact ⟨hj, List.getElem?_eq_getElem hlt⟩⟩
    obtain ⟨v, hv, e, _⟩ := hmem _ hz2
    exact ⟨v, hv, e⟩
  have hu : ∀ tx ∈ txs.map (·.2), tx.U64Amounts := by
    intro tx ht
    obtain ⟨x, hx, rfl⟩ := List.mem_map.1 ht
    exact hu64 x hx
  have hsmall : ∀ v ∈ ins, ∀ u ∈ v.tx.ios, u.amount < p := fun v hv u hm =>
    lt_of_lt_of_le (hu _ (hback v hv) u hm) hU
  have ein : ∀ v : Inputs p q G, (CInputs.alloc v).tx.inputs.toList = v.tx.inputs.toList.map (UTXO.alloc p) :=
    fun v => inputs_alloc v.tx
  have eout : ∀ v : Inputs p q G, (CInputs.alloc v).tx.outputs.toList = v.tx.outputs.toList.map (UTXO.alloc p) :=
    fun v => outputs_alloc v.tx
  rw [i1] at f
  have hall : ∀ v ∈ ins, CInputs.alloc v ∈ ins.map (CInputs.alloc (p := p) (q := q) (G := G)) :=
    fun v hv => List.mem_map.2 ⟨v, hv, rfl⟩
  have owned : ∀ y ∈ (txs.map (·.2)).zip l, OwnedBy y.2.1 y.1.inputs.toList := by
    intro y hy
    obtain ⟨v, hv, e1, e2, e3⟩ := hmem y hy
    have := f.owned _ (hall v hv)
    rw [ein, e1, show (CInputs.alloc v : CInputs p G).senderPk = v.senderPk from rfl, e2] at this
    intro u hu hd
    exact this (u.alloc p) (List.mem_map.2 ⟨u, hu, rfl⟩) hd
  have balanced : ∀ tx ∈ txs.map (·.2), totalOf tx.inputs.toList = totalOf tx.outputs.toList := by
    intro tx ht
    rcases hfwd tx ht with ⟨v, hv, rfl⟩ | rfl
    swap
    · rfl
    have : NeZero p := ⟨by omega⟩
    have hv' : (v.tx.alloc p).enforceValid v.senderPk :=
      (enforceValid_iff _ _).2 ⟨f.owned _ (hall v hv), f.sums _ (hall v hv)⟩
    exact ((C22_circuit_validity_exact (lt_of_lt_of_le (by decide) h.large) v.tx v.senderPk (hu _ ht)).1.1 hv').2
  rcases f.books with ⟨t, _⟩ | ⟨_, bk1, bk2, bk3, bk4⟩
  · rw [hfull] at t; cases t
  have fits : ∀ tx ∈ txs.map (·.2), tx.withdrawn P.contract < U64 := by
    intro tx ht
    rcases hfwd tx ht with ⟨v, hv, rfl⟩ | rfl
    swap
    · have : (Tx.default : Tx Nat G).withdrawn P.contract = 0 := by
        unfold Tx.withdrawn
        have hle := totalOf_filter_le (Tx.default : Tx Nat G).outputs.toList
          (fun u : UTXO Nat G => decide (u.pk = P.contract))
        exact Nat.le_zero.1 (le_trans hle (by simp [Tx.default, totalOf, UTXO.dummy]))
      rw [this]; decide
    have := bk2 _ (hall v hv)
    rwa [withdrawn_alloc P (hsmall v hv) v rfl] at this
  by_cases hfree : ∀ (k : Nat) (tx : Tx Nat G) (y : Pair q G), (txs.map (·.2))[k]? = some tx → l[k]? = some y →
    Approves cv P.hs P.contract (txRoot cv P.hs s1) tx y = true → sc k = 0
  swap
  · right; right; left
    push Not at hfree
    obtain ⟨k, tx, y, g1, g2, g3, g4⟩ := hfree
    rw [List.getElem?_map] at g1
    cases hx : txs[k]? with
    | none => rw [hx] at g1; cases g1
    | some x =>
      rw [hx] at g1
      simp only [Option.map_some, Option.some.injEq] at g1
      subst g1
      exact C58_unprovable_on_signed_position h b P cv s s1 s2 sc hsc hstart txs l hcap hslots (by omega) h1 h2 k
        x y hx g2 g3 g4 z z' hz bs hbs hrun
  have hwd : chain (shaField p P.sha) (amountInput cv) 0 s2.withdrawals = z'.withdrawalAcc := by
    have := Outcome.ok.inj hder
    simp only [CState.toList, List.cons.injEq, and_true] at this
    exact this.2.2.2.2.2.2.2
  rw [show z.withdrawalAcc = 0 by rw [zeq]; rfl] at bk4
  rw [bk4] at hwd
  have nat : s2.withdrawals = withdrawalsBy P.contract
      (approvedTxs cv P.hs P.contract (txRoot cv P.hs s1) (txs.map (·.2)) l) := by
    rw [k1.withdrawals (Or.inr (by rw [t1]; exact fits)), w4, List.nil_append, List.drop_zero, t1]
  have circ : withdrawalList P (ins.map CInputs.alloc) =
      ((txs.map (·.2)).zip l).flatMap (fun y => y.1.withdrawalsOf P.contract y.2.1) := by
    have e : withdrawalList P (ins.map CInputs.alloc) =
        (ins.map (fun y => (y.tx, y.senderPk, y.signature))).flatMap
          (fun t => t.1.withdrawalsOf P.contract t.2.1) := by
      unfold withdrawalList
      rw [List.flatMap_map, List.flatMap_map]
      apply List.flatMap_congr
      intro y hy
      have := withdrawn_alloc (tx := y.tx) P (hsmall y hy) y rfl
      simp only [this]
      rfl
    rw [e, i2, List.flatMap_map]
  have bound : ∀ e ∈ withdrawalList P (ins.map (CInputs.alloc (p := p) (q := q) (G := G))), e.2 < 2 ^ 64 := by
    intro e he
    unfold withdrawalList at he
    obtain ⟨i, hi, he⟩ := List.mem_flatMap.1 he
    split at he
    · cases he
    · rw [List.mem_singleton] at he; subst he; exact bk2 i hi
  have bound' : ∀ e ∈ s2.withdrawals, e.2 < 2 ^ 64 := by
    rw [nat]
    intro e he
    unfold withdrawalsBy at he
    obtain ⟨a, ha, he⟩ := List.mem_flatMap.1 he
    unfold approvedTxs at ha
    obtain ⟨y, hy, rfl⟩ := List.mem_map.1 ha
    unfold Tx.withdrawalsOf at he
    split at he
    · cases he
    · rw [List.mem_singleton] at he; subst he
      exact fits _ (List.of_mem_zip (List.mem_of_mem_filter hy)).1
  rcases amount_chain_bind hp1 cv P.sha _ _ 0 bound' bound hwd with heq | hbr
  swap
  · right; right; right; right; right; rw [hbs, i1]; exact hbr
  have rejected : ∀ y ∈ (txs.map (·.2)).zip l,
      Approves cv P.hs P.contract (txRoot cv P.hs s1) y.1 y.2 = false → y.1.withdrawn P.contract = 0 := by
    rw [nat, circ] at heq
    unfold withdrawalsBy approvedTxs at heq
    rw [List.flatMap_map] at heq
    intro y hy ha
    have := filter_flatMap_nil _ _ _ heq.symm y hy ha
    unfold Tx.withdrawalsOf at this
    split at this
    · assumption
    · cases this
  rcases C50_runs_are_ledger_transitions h P cv z z' bs hrun (fun j => (c0 j).alloc p) (by
      unfold RootOf
      rw [zeq]
      show merkleRoot _ _ _ _ = _
      unfold merkleRoot; simp only [utxoEncVar_alloc]; rfl) with hleg | hcol
  swap
  · right; left; exact hcol
  left
  refine ⟨owned, balanced, fits, ?_, rejected, hfree, complete⟩
  intro y hy hk hv u hu
  obtain ⟨v, hvm, e1, e2, e3⟩ := hmem y hy
  by_contra hd
  have hnoc : ∀ j, ((c0 j).alloc p).isDummy = false → ((c0 j).alloc p).pk ≠ P.contract := by
    intro j hj hpk
    have := hno (c0 j) hj hpk
    unfold live at this
    have hin := (hc.slots (c0 j) hj j).2 rfl
    rw [List.length_eq_zero_iff.1 this] at hin
    cases hin
  have hl := hleg.1
  rw [hbs, i1, zf] at hl
  have hsg : (CInputs.alloc v).signed cv P.hs (txRoot cv P.hs s1) = true := by
    rw [signed_alloc h.pos, e1, e2, e3]; exact hv
  have := signed_input_not_contract hnoc f.shape hl _ (hall v hvm) hsg (u.alloc p) (by
    rw [ein, e1]; exact List.mem_map.2 ⟨u, hu, rfl⟩)
    (show u.isDummy = false by simpa using hd)
  apply this
  rw [← hk]
  exact owned y hy u hu (by simpa using hd)

/-! ### The contract never owns UTXOs of the ledger -/

/-- Histories of calls in which every `process_signatures` call names the same rollup key. -/
inductive ReachWith (b : Build) (cv : Curve p q G) (hs : Hashes p) (rollup : G) : Agg.State p q G → Prop
  | new : ReachWith b cv hs rollup (Agg.new q cv hs)
  | call (s : Agg.State p q G) (op : Op q G) (h : ReachWith b cv hs rollup s) (hf : op.Fits s)
      (hk : ∀ r l, op = .signatures r l → r = rollup)
      (hr : (op.run b cv hs s).2 ≠ .panic) : ReachWith b cv hs rollup (op.run b cv hs s).1

/-- **C91** (the side condition on the ledger holds): if every `process_signatures` call names the same
rollup key, the ledger never holds a UTXO of that key. -/
theorem C91_contract_holds_nothing (b : Build) (cv : Curve p q G) (hs : Hashes p) (rollup : G)
    (s : Agg.State p q G) (h : ReachWith b cv hs rollup s) :
    Reach b cv hs s ∧ ∀ u : UTXO Nat G, u.isDummy = false → u.pk = rollup → live s u = 0 := by
  induction h with
  | new => exact ⟨Reach.new, fun u _ _ => rfl⟩
  | call s op h hf hk hr ih =>
    refine ⟨Reach.call s op ih.1 hf hr, fun u hu hpk => ?_⟩
    have hnc : ∀ as : List (Tx Nat G × G), (createdBy rollup as).count u = 0 := by
      intro as
      apply List.count_eq_zero_of_not_mem
      intro hm
      obtain ⟨a, _, ha⟩ := List.mem_flatMap.1 hm
      unfold Tx.creates at ha
      exact (onLedger_iff.1 (List.mem_filter.1 ha).2).2 hpk
    cases op with
    | newEpoch => exact ih.2 u hu hpk
    | transactions l =>
      obtain ⟨c, sc, hi⟩ := reach_inv ih.1
      obtain ⟨done, rest, t, prs, e1, e2, e3, o, e4, e5⟩ := processTransactions_spec (b := b) l _ hi hf
      show live (processTransactions b cv hs l s).1 u = 0
      rw [e4]
      exact ih.2 u hu hpk
    | signatures r l =>
      obtain rfl := hk r l rfl
      cases hres : processSignatures b cv hs r l s with
      | mk s' o =>
        show live (processSignatures b cv hs r l s).1 u = 0
        have hr' : o ≠ .panic := by
          rintro rfl
          apply hr
          simp [Op.run, hres]
        rw [hres]
        show live s' u = 0
        have h0 := ih.2 u hu hpk
        cases o with
        | ok x =>
          have := C39_accounting b cv hs s s' ih.1 r l hf hres u hu
          rw [hnc] at this; omega
        | err e =>
          obtain ⟨done, x, rest, s1, tx, us, v, vs, L, S, e1, e2, e3, e4, e5, e6, e7, e8, e9, e10⟩ :=
            C45_signatures_failed b cv hs s s' ih.1 r l hf e hres
          have hf1 : (Op.signatures r done).Fits s := by
            apply fits_prefix (l' := x :: rest); rw [← e1]; exact hf
          have := C39_accounting b cv hs s s1 ih.1 r done hf1 e2 u hu
          rw [hnc] at this
          have := e10 u hu
          omega
        | panic => exact absurd rfl hr'

/-! ### The conditions are not checked by the aggregator -/

/-- The aggregator executes the single-transaction epoch, from a new state, without an error. -/
def Executes (b : Build) (cv : Curve p q G) (hs : Hashes p) (rollup : G) (sender : G) (tx : Tx Nat G)
    (y : Pair q G) (s1 s2 : Agg.State p q G) : Prop :=
  processTransactions b cv hs [(sender, tx)] (Agg.new q cv hs) = (s1, .ok ()) ∧
  processSignatures b cv hs rollup [y] s1 = (s2, .ok ())

theorem new_live (cv : Curve p q G) (hs : Hashes p) {s1 : Agg.State p q G}
    (h : s1.ledger = (Agg.new q cv hs).ledger) (v : UTXO Nat G) : live s1 v = 0 := by
  unfold live positions; rw [h]; rfl

theorem executes_unapproved (b : Build) (cv : Curve p q G) (hs : Hashes p) (rollup : G) (sender : G)
    (tx : Tx Nat G) (y : Pair q G) (hv : tx.isValid b (some sender) = .ok ())
    (ha : ∀ r, Approves cv hs rollup r tx y = false) :
    ∃ s1 s2, Executes b cv hs rollup sender tx y s1 s2 ∧ s2.ledger = s1.ledger ∧ s2.signers = [none] := by
  obtain ⟨s1, r1, q1, t1, l1, d1, w1, g1, _⟩ := tx_one (Reach.new (b := b) (cv := cv) (hs := hs)) sender tx
    (by simp [Agg.new, TX_CAP]) hv
  have t1' : s1.transactions[0]? = some tx := by rw [t1]; rfl
  obtain ⟨inp, e, _⟩ := C42_unsigned_no_effect b cv hs s1 s1 q1 rollup [] y tx
    ⟨by rw [g1]; simp [Agg.new, TX_CAP], by
      rw [l1]
      show 0 + _ ≤ _
      have cap : 2147483648 = UTXO_CAP := rfl
      rw [← cap]; simp [TX_IO_SIZE]⟩ rfl t1' (ha _)
  exact ⟨s1, _, ⟨r1, e⟩, rfl, by rw [g1]; rfl⟩

/-- **C91** (rejected): an unsigned payment of 5 to the contract — by a key that owns nothing — is executed
(as a transaction without effect), and makes the epoch unprovable. -/
theorem C91_unsigned_withdrawal_blocks (b : Build) (P : Params p G) (cv : Curve p q G) (owner : G)
    (hk : owner ≠ P.contract) (hz : ∀ m, Schnorr.verify cv P.hs.crh owner m (0, 0) = false) :
    ∃ s1 s2, Executes b cv P.hs P.contract owner (payTx owner P.contract 5) (owner, none) s1 s2 ∧
      s2.ledger = s1.ledger ∧ s2.signers = [none] ∧
      ∀ sc, ¬ ProvableEpoch P cv [payTx owner P.contract 5] [(owner, none)] (txRoot cv P.hs s1) sc := by
  have ha : ∀ r, Approves cv P.hs P.contract r (payTx owner P.contract 5) (owner, none) = false := by
    intro r; simp [Approves, hk, hz]
  obtain ⟨s1, s2, e1, e2, e3⟩ := executes_unapproved b cv P.hs P.contract owner (payTx owner P.contract 5)
    (owner, none) (payTx_valid b _ _ _ (by decide)) ha
  refine ⟨s1, s2, e1, e2, e3, fun sc h => ?_⟩
  have := h.rejected (payTx owner P.contract 5, owner, none) (by simp) (ha _)
  simp [payTx, Tx.withdrawn, totalOf, UTXO.new, UTXO.dummy] at this

/-- **C91** (complete): leaving out the answer to a transaction other than the default one is no error either:
`process_signatures` succeeds, `produce_block` succeeds for every contract state, and the epoch is
unprovable. -/
theorem C91_unanswered_blocks (b : Build) (P : Params p G) (cv : Curve p q G) (sender : G) (tx : Tx Nat G)
    (hv : tx.isValid b (some sender) = .ok ()) (hd : tx ≠ Tx.default) :
    ∃ s1 s2, processTransactions b cv P.hs [(sender, tx)] (Agg.new q cv P.hs) = (s1, .ok ()) ∧
      processSignatures b cv P.hs P.contract [] s1 = (s2, .ok ()) ∧ s2.transactions = [tx] ∧
      (∀ st : Contract.State G, ∃ block, produceBlock st s2 = .ok block) ∧
      ∀ sc, ¬ ProvableEpoch (q := q) P cv [tx] [] (txRoot cv P.hs s1) sc := by
  obtain ⟨s1, r1, q1, t1, l1, d1, w1, g1, _⟩ := tx_one (Reach.new (b := b) (cv := cv) (hs := P.hs)) sender tx
    (by simp [Agg.new, TX_CAP]) hv
  refine ⟨s1, s1, r1, rfl, t1, fun st => ?_, fun sc h => hd (h.complete 0 tx rfl (le_refl _))⟩
  obtain ⟨h1, h2⟩ := C48_produce_block b cv P.hs s1 q1 st
  obtain ⟨ur, sr, _, _, e3⟩ := h1 (by
    intro pk hpk
    rw [g1, d1, w1] at hpk
    simp [Agg.new] at hpk)
  exact ⟨_, e3⟩

/-- **C91** (owned): a payment answered, without approval, under a key other than the owner's is executed (as
a transaction without effect), and makes the epoch unprovable. -/
theorem C91_wrong_key_blocks (b : Build) (P : Params p G) (cv : Curve p q G) (owner receiver other : G)
    (hk : other ≠ P.contract) (ho : other ≠ owner)
    (hz : ∀ m, Schnorr.verify cv P.hs.crh other m (0, 0) = false) :
    ∃ s1 s2, Executes b cv P.hs P.contract owner (payTx owner receiver 5) (other, none) s1 s2 ∧
      s2.ledger = s1.ledger ∧ s2.signers = [none] ∧
      ∀ sc, ¬ ProvableEpoch P cv [payTx owner receiver 5] [(other, none)] (txRoot cv P.hs s1) sc := by
  have ha : ∀ r, Approves cv P.hs P.contract r (payTx owner receiver 5) (other, none) = false := by
    intro r; simp [Approves, hk, hz]
  obtain ⟨s1, s2, e1, e2, e3⟩ := executes_unapproved b cv P.hs P.contract owner (payTx owner receiver 5)
    (other, none) (payTx_valid b _ _ _ (by decide)) ha
  refine ⟨s1, s2, e1, e2, e3, fun sc h => ?_⟩
  have := h.owned (payTx owner receiver 5, other, none) (by simp) (UTXO.new owner 5) (by simp [payTx]) rfl
  exact ho this.symm

/-- Two inputs of `2^63`, no output. -/
def wrapTx (owner : G) : Tx Nat G :=
  { inputs := #v[UTXO.new owner (2 ^ 63), UTXO.new owner (2 ^ 63), UTXO.dummy, UTXO.dummy]
    outputs := #v[UTXO.dummy, UTXO.dummy, UTXO.dummy, UTXO.dummy] }

theorem wrapTx_valid (owner : G) : (wrapTx owner).isValid .release (some owner) = .ok () := by
  rw [C20_is_valid_decision]
  have h1 : OwnedBy owner (wrapTx owner).inputs.toList := by
    intro u hu hd
    simp [wrapTx] at hu
    rcases hu with rfl | rfl
    · rfl
    · simp [UTXO.dummy] at hd
  rw [if_neg (not_not.2 h1)]
  simp [wrapTx, totalOf, UTXO.new, UTXO.dummy, U64]

/-- **C91** (balanced): in release builds a transaction whose input total wraps to zero is accepted, and makes
the epoch unprovable. -/
theorem C91_overflow_blocks (P : Params p G) (cv : Curve p q G) (owner : G)
    (hk : owner ≠ P.contract) (hz : ∀ m, Schnorr.verify cv P.hs.crh owner m (0, 0) = false) :
    ∃ s1 s2, Executes .release cv P.hs P.contract owner (wrapTx owner) (owner, none) s1 s2 ∧
      s2.ledger = s1.ledger ∧ s2.signers = [none] ∧
      ∀ sc, ¬ ProvableEpoch P cv [wrapTx owner] [(owner, none)] (txRoot cv P.hs s1) sc := by
  have ha : ∀ r, Approves cv P.hs P.contract r (wrapTx owner) (owner, none) = false := by
    intro r; simp [Approves, hk, hz]
  obtain ⟨s1, s2, e1, e2, e3⟩ := executes_unapproved .release cv P.hs P.contract owner (wrapTx owner)
    (owner, none) (wrapTx_valid owner) ha
  refine ⟨s1, s2, e1, e2, e3, fun sc h => ?_⟩
  have := h.balanced (wrapTx owner) (by simp)
  simp [wrapTx, totalOf, UTXO.new, UTXO.dummy] at this

/-- **C91** (contract): a deposit that spends a UTXO naming the contract and is signed with the contract's
key — as opposed to one that carries no signature — is executed and recorded, and makes the epoch
unprovable. -/
theorem C91_signed_deposit_blocks [Fact q.Prime] (hp : 0 < p) (hpq : p ≤ q) (b : Build) (P : Params p G)
    (cv : Curve p q G) (owner : G) (sk : ZMod q) (hsk : P.contract = sk • cv.gen) (hk : owner ≠ P.contract) :
    ∃ s1 s2 sig, Executes b cv P.hs P.contract P.contract (depositTx P.contract owner 5)
        (P.contract, some sig) s1 s2 ∧
      s2.deposits = [(owner, 5)] ∧ live s2 (UTXO.new owner 5) = 1 ∧
      ∀ sc, ¬ ProvableEpoch P cv [depositTx P.contract owner 5] [(P.contract, some sig)]
        (txRoot cv P.hs s1) sc := by
  obtain ⟨s1, r1, q1, t1, l1, d1, w1, g1, _⟩ := tx_one (Reach.new (b := b) (cv := cv) (hs := P.hs)) P.contract
    (depositTx P.contract owner 5) (by simp [Agg.new, TX_CAP]) (depositTx_valid b P.contract owner 5 (by decide))
  have t1' : s1.transactions[0]? = some (depositTx P.contract owner 5) := by rw [t1]; rfl
  obtain ⟨sig, hsig⟩ := exists_sig cv hp hpq P.hs.crh sk
    (txEnc cv (depositTx P.contract owner 5) ++ [txRoot cv P.hs s1])
  rw [← hsk] at hsig
  have hsp : (depositTx P.contract owner 5).spends P.contract = [] := depositTx_spends _ _ _
  have hcr : (depositTx P.contract owner 5).creates P.contract = [UTXO.new owner 5] := depositTx_creates hk _
  obtain ⟨s2, e2, r2, a2, d2, w2, g2, _⟩ := sig_one (b := b) (rollup := P.contract) (x := (P.contract, some sig))
    q1 t1' (by rw [g1]; simp [Agg.new, TX_CAP])
    (by
      rw [l1]
      show 0 + _ ≤ _
      have cap : 2147483648 = UTXO_CAP := rfl
      rw [← cap]; simp [TX_IO_SIZE])
    (by simp [Approves])
    (by
      intro v
      rw [show (depositTx P.contract owner 5).inputs.toList.filter (·.onLedger P.contract) = [] from hsp]
      simp)
    (lt_of_le_of_lt (withdrawn_le _) (by simp [depositTx, payTx, totalOf, UTXO.new, UTXO.dummy, U64]))
  refine ⟨s1, s2, sig, ⟨r1, e2⟩, ?_, ?_, fun sc h => ?_⟩
  · rw [d2, d1]
    simp [Agg.new, Tx.depositsOf, depositTx, payTx, UTXO.new, UTXO.dummy]
  · have := a2 (UTXO.new owner 5) rfl
    rw [hsp, hcr, new_live cv P.hs l1] at this
    simpa using this
  · have := h.contract (depositTx P.contract owner 5, P.contract, some sig) (by simp) rfl hsig
      (UTXO.new P.contract 5) (by simp [depositTx, payTx])
    simp [UTXO.new] at this

/-! ### Examples -/

/-- The conditions of C91 follow from the honesty conditions of C58. -/
theorem honest_provable {b : Build} {P : Params p G} {cv : Curve p q G} {txs : List (G × Tx Nat G)}
    {l : List (Pair q G)} {f : ZMod p} {sc : Nat → G} (hon : HonestEpoch b P cv txs l f)
    (hv : ∀ x ∈ txs, x.2.isValid b (some x.1) = .ok ())
    (hfree : ∀ (k : Nat) (tx : Tx Nat G) (y : Pair q G), (txs.map (·.2))[k]? = some tx → l[k]? = some y →
      Approves cv P.hs P.contract f tx y = true → sc k = 0) :
    ProvableEpoch P cv (txs.map (·.2)) l f sc := by
  have hval : ∀ x ∈ txs, OwnedBy x.1 x.2.inputs.toList ∧
      totalOf x.2.inputs.toList = totalOf x.2.outputs.toList ∧ totalOf x.2.outputs.toList < U64 := fun x hx =>
    valid_facts (hv x hx) (hon.sums.imp id (fun hh => hh x hx))
  refine ⟨?_, ?_, ?_, fun y hy hk hs => ?_, hon.rejected, hfree, fun k tx ht hk => ?_⟩
  case refine_5 =>
    have h1 := congrArg List.length hon.answered
    have h2 := (List.getElem?_eq_some_iff.1 ht).1
    simp only [List.length_map] at h1 h2
    omega
  · intro y hy
    obtain ⟨j, hj⟩ := List.mem_iff_getElem?.1 hy
    rw [List.getElem?_zip_eq_some] at hj
    obtain ⟨j1, j2⟩ := hj
    rw [List.getElem?_map] at j1
    cases hx : txs[j]? with
    | none => rw [hx] at j1; simp at j1
    | some x =>
      rw [hx] at j1
      simp only [Option.map_some, Option.some.injEq] at j1
      have := congrArg (·[j]?) hon.answered
      simp only [List.getElem?_map, hx, j2, Option.map_some, Option.some.injEq] at this
      rw [← j1, this]
      exact (hval x (List.mem_of_getElem? hx)).1
  · intro tx ht
    obtain ⟨x, hx, rfl⟩ := List.mem_map.1 ht
    exact (hval x hx).2.1
  · intro tx ht
    obtain ⟨x, hx, rfl⟩ := List.mem_map.1 ht
    exact lt_of_le_of_lt (totalOf_filter_le _ _) (hval x hx).2.2
  · rcases hon.contract y hy hk with h | h
    · rw [h] at hs; cases hs
    · exact h

/-- Non-vacuity of both directions: the epoch of `example_epoch` satisfies the hypotheses, the conditions and
`Proves`. -/
theorem example_exact (h : Sizes p q) (hpq : p ≤ q) (bd : Build) (cv : Curve p q G) (P : Params p G)
    (hP : P.hs = oneHs p) (hfull : P.transferOnly = false) {a b : G} (ha : a ≠ P.contract) (hb : b ≠ P.contract)
    (hab : a ≠ b) :
    ∃ s1 s2 st block z,
      processTransactions bd cv P.hs (triTxs P.contract a b 5) (Agg.new q cv P.hs) = (s1, .ok ()) ∧
      processSignatures bd cv P.hs P.contract (triSigs q P.contract a b) s1 = (s2, .ok ()) ∧
      EpochStart (Agg.new q cv P.hs) ∧
      (∀ u : UTXO Nat G, u.isDummy = false → u.pk = P.contract → live (Agg.new q cv P.hs) u = 0) ∧
      ProvableEpoch P cv ((triTxs P.contract a b 5).map (·.2)) (triSigs q P.contract a b)
        (txRoot cv P.hs s1) (fun _ => 0) ∧
      Proves P cv st block z [s2.ivcInputs.map CInputs.alloc] := by
  have hp : 1 < p := lt_of_lt_of_le (by decide) h.large
  obtain ⟨s1, s2, st, block, z, e1, e2, hon, hst, hpk, hb', b1, b2, b3, hz⟩ :=
    example_epoch bd hp (lt_of_lt_of_le hp hpq) cv P hP ha hb hab
  have hpe : ProvableEpoch P cv ((triTxs P.contract a b 5).map (·.2)) (triSigs q P.contract a b)
      (txRoot cv P.hs s1) (fun _ => 0) := by
    refine honest_provable hon ?_ (fun _ _ _ _ _ _ => rfl)
    intro x hx
    simp only [triTxs, List.mem_cons, List.not_mem_nil, or_false] at hx
    rcases hx with rfl | rfl | rfl
    · exact depositTx_valid bd _ _ 5 (by decide)
    · exact payTx_valid bd _ _ 5 (by decide)
    · exact payTx_valid bd _ _ 5 (by decide)
  refine ⟨s1, s2, st, block, z, e1, e2, ⟨rfl, rfl, rfl, rfl, rfl, rfl⟩, fun _ _ _ => rfl, hpe, ?_⟩
  exact C91_provable_if h hpq bd P hfull cv _ s1 s2 (fun _ => 0) SignerLeaves.new ⟨rfl, rfl, rfl, rfl, rfl, rfl⟩
    _ _ (by show 3 ≤ 4096; omega)
    (by
      show 0 + 4 * 3 ≤ _
      have cap : 2147483648 = UTXO_CAP := rfl
      rw [← cap]; omega) (le_refl 3) hon.amounts e1 e2 bd _ _ st hst
    (by rw [hpk]; show 3 ≤ 4294967296; omega) block hb' z hz _ (by simp) hpe

/-- Non-vacuity of the three `(0, 0)` hypotheses. -/
example (hp : 1 < p) (hq : 1 < q) (cv : Curve p q G) (k : G) :
    ∀ m, Schnorr.verify cv (oneHs p).crh k m (0, 0) = false :=
  fun m => (oneHs_verify hp hq cv k m 0).2

end PF.Props
