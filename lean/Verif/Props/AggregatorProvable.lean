import Verif.Proof.AggregatorProvable
import Verif.Proof.AggregatorSigner
import Verif.Proof.AggregatorTri
import Verif.Proof.BnSizes
import Verif.Props.AggregatorCircuitRuns

/-!
# Properties C57 and C58: proving what the aggregator executed
-/

set_option linter.unusedSectionVars false

namespace PF.Props
open PF PF.MT PF.Agg PF.Spec PF.AggC PF.Contract
variable {p q : Nat} {G : Type} [AddCommGroup G] [Module (ZMod q) G] [DecidableEq G]

/-- The aggregator has just been created or reset. -/
structure EpochStart (s : Agg.State p q G) : Prop where
  transactions : s.transactions = []
  txProofs : s.txProofs = []
  signers : s.signers = []
  deposits : s.deposits = []
  withdrawals : s.withdrawals = []
  inputs : s.ivcInputs = []

/-- Root hash of a tree of the aggregator. -/
def HasRoot (t : STree (ZMod p)) (r : ZMod p) : Prop := (t.rootHash : Outcome Unit (ZMod p)) = .ok r

/-- State of the circuit at the start of the proof of an epoch: counter and accumulators zero, the current
UTXO and signer roots, the root of the empty transaction tree, and the root `f` of the transactions to
come. -/
def StartState (cv : Curve p q G) (hs : Hashes p) (s : Agg.State p q G) (f : ZMod p) (z : CState p) : Prop :=
  ∃ u t g, HasRoot s.ledger.tree u ∧ HasRoot (blankTree (txTreeCfg cv hs)) t ∧ HasRoot s.signerTree g ∧
    z = initState u t f g

/-- Conditions on the transactions of an epoch and the answers to them: amounts are 64-bit, sums do not
wrap, every transaction is answered by its sender, the contract does not sign transactions with real
inputs, and transactions without approval do not pay to the contract. -/
structure HonestEpoch (b : Build) (P : Params p G) (cv : Curve p q G) (txs : List (G × Tx Nat G))
    (l : List (Pair q G)) (f : ZMod p) : Prop where
  amounts : ∀ x ∈ txs, x.2.U64Amounts
  sums : b = .debug ∨ ∀ x ∈ txs, totalOf x.2.inputs.toList < U64 ∧ totalOf x.2.outputs.toList < U64
  answered : l.map (·.1) = txs.map (·.1)
  contract : ∀ y ∈ (txs.map (·.2)).zip l, y.2.1 = P.contract →
    Schnorr.verify cv P.hs.crh y.2.1 (txEnc cv y.1 ++ [f]) (y.2.2.getD (0, 0)) = false ∨
      ∀ u ∈ y.1.inputs.toList, u.isDummy = true
  rejected : ∀ y ∈ (txs.map (·.2)).zip l, Approves cv P.hs P.contract f y.1 y.2 = false →
    y.1.withdrawn P.contract = 0

theorem totalOf_filter_le (us : List (UTXO Nat G)) (f : UTXO Nat G → Bool) :
    totalOf (us.filter f) ≤ totalOf us := by
  induction us with
  | nil => exact le_refl _
  | cons u us ih =>
    rw [List.filter_cons]
    split
    · rw [totalOf_cons, totalOf_cons]; omega
    · rw [totalOf_cons]; omega

theorem valid_facts {b : Build} {t : Tx Nat G} {k : G} (h : t.isValid b (some k) = .ok ())
    (hb : b = .debug ∨ totalOf t.inputs.toList < U64 ∧ totalOf t.outputs.toList < U64) :
    OwnedBy k t.inputs.toList ∧ totalOf t.inputs.toList = totalOf t.outputs.toList ∧
      totalOf t.outputs.toList < U64 := by
  rw [C20_is_valid_decision] at h
  by_cases h1 : OwnedBy k t.inputs.toList
  · rw [if_neg (by simpa using h1)] at h
    by_cases h2 : totalOf t.inputs.toList < U64 ∧ totalOf t.outputs.toList < U64
    · rw [if_pos h2] at h
      split_ifs at h with h3
      exact ⟨h1, h3, h2.2⟩
    · rw [if_neg h2] at h
      rcases hb with rfl | hb
      · simp at h
      · exact absurd hb h2
  · rw [if_pos (by simpa using h1)] at h
    simp at h

/-- Public inputs derived from the block of a state. -/
theorem derive_block {b : Build} {cv : Curve p q G} {hs : Hashes p} (sha : Sha) {s : Agg.State p q G}
    (h : Reach b cv hs s) (b' : Build) (k : G) (calls : List (Call G)) (st : Contract.State G)
    (hst : Contract.run b' (Contract.new k) calls = .ok st) (hpks : st.pks.length ≤ 2 ^ 32)
    (block : Block (ZMod p)) (hb : produceBlock st s = .ok block) (u g : ZMod p)
    (hu : HasRoot s.ledger.tree u) (hg : HasRoot s.signerTree g) :
    derivePublicInputs cv sha st block =
      .ok [(s.signers.length : ZMod p), u, txRoot cv hs s, txRoot cv hs s, g,
        chain (shaField p sha) (signerInput cv) 0 (s.signers.map (·.getD 0)),
        chain (shaField p sha) (amountInput cv) 0 s.deposits,
        chain (shaField p sha) (amountInput cv) 0 s.withdrawals] := by
  obtain ⟨h1, h2⟩ := C48_produce_block b cv hs s h st
  have hall : ∀ pk, (some pk ∈ s.signers ∨ pk ∈ s.deposits.map (·.1) ∨ pk ∈ s.withdrawals.map (·.1)) →
      Registered st pk := by
    by_contra hc
    rw [h2 hc] at hb; simp at hb
  obtain ⟨ur, sr, e1, e2, e3⟩ := h1 hall
  rw [e3] at hb
  simp only [Outcome.ok.injEq] at hb
  subst hb
  have eu : ur = u := by unfold HasRoot at hu; rw [e1] at hu; simpa using hu
  have eg : sr = g := by unfold HasRoot at hg; rw [e2] at hg; simpa using hg
  subst eu; subst eg
  obtain ⟨_, _, _, _, _, hidx⟩ := C36_registry b' k calls st hst
  have hreg : ∀ pk, Registered st pk → st.pks[regIndex st pk]? = some pk := by
    intro pk hr
    unfold Registered at hr
    unfold regIndex
    cases hc : st.pkIndices.get pk with
    | none => rw [hc] at hr; cases hr
    | some i =>
      have hi := (hidx pk i hc).1
      have hlt := (List.getElem?_eq_some_iff.1 hi).1
      rw [Option.getD_some, Nat.mod_eq_of_lt (by omega)]
      exact hi
  have hS := (signerAcc_ok (p := p) cv sha st.pks (s.signers.map (Option.map (regIndex st))) 0 _).2
    ⟨s.signers.map (·.getD 0), by
      rw [List.map_map, List.map_map]
      apply List.map_congr_left
      intro a ha
      cases a with
      | none => rfl
      | some pk => exact hreg pk (hall pk (Or.inl ha)), rfl⟩
  have hA : ∀ ds : List (G × Nat), (∀ e ∈ ds, Registered st e.1) →
      (ds.map (fun e => (regIndex st e.1, e.2))).map (entryOf st.pks) = ds.map some := by
    intro ds hds
    rw [List.map_map]
    apply List.map_congr_left
    intro e he
    simp [entryOf, hreg _ (hds e he)]
  have hD := (amountAcc_ok (p := p) cv sha st.pks (s.deposits.map (fun e => (regIndex st e.1, e.2))) 0 _).2
    ⟨s.deposits, hA _ (fun e he => hall _ (Or.inr (Or.inl (List.mem_map.2 ⟨e, he, rfl⟩)))), rfl⟩
  have hW := (amountAcc_ok (p := p) cv sha st.pks (s.withdrawals.map (fun e => (regIndex st e.1, e.2))) 0 _).2
    ⟨s.withdrawals, hA _ (fun e he => hall _ (Or.inr (Or.inr (List.mem_map.2 ⟨e, he, rfl⟩)))), rfl⟩
  unfold derivePublicInputs
  rw [hS, hD, hW]
  simp

/-- **C58**: the signer tree commits to the leaves of the history, which `reset_for_new_epoch` leaves in
place. -/
theorem C58_signer_tree_over_epochs (b : Build) (cv : Curve p q G) (hs : Hashes p) :
    (∀ (s : Agg.State p q G) (sc : Nat → G), SignerLeaves b cv hs s sc →
      HasRoot s.signerTree (merkleRoot (pkCRH cv hs.crh) hs.h2 13 sc) ∧
      SignerLeaves b cv hs (reset cv hs s) sc) ∧
    (∀ s : Agg.State p q G, Reach b cv hs s ↔ ∃ sc, SignerLeaves b cv hs s sc) := by
  refine ⟨fun s sc h => ?_, fun s => ⟨fun h => ?_, fun ⟨sc, h⟩ => (signerLeaves_inv h).1⟩⟩
  · obtain ⟨_, _, c, hi⟩ := signerLeaves_inv h
    exact ⟨hi.signer.rootHash, SignerLeaves.call s .newEpoch sc h trivial (by simp [Op.run])⟩
  · induction h with
    | new => exact ⟨_, SignerLeaves.new⟩
    | call s op h hf hr ih =>
      obtain ⟨sc, hsc⟩ := ih
      exact ⟨_, SignerLeaves.call s op sc hsc hf hr⟩

/-- **C58** (what can be proved): in any epoch in which every approved transaction falls on a position of
the signer tree that was never signed before, the recorded circuit inputs, batched in any way, satisfy the
circuit, and the final state is what the contract derives from the produced block. -/
theorem C58_provable_on_free_positions (h : Sizes p q) (hpq : p ≤ q) (b : Build) (P : Params p G)
    (hfull : P.transferOnly = false) (cv : Curve p q G)
    (s s1 s2 : Agg.State p q G) (sc : Nat → G) (hsc : SignerLeaves b cv P.hs s sc) (hstart : EpochStart s)
    (txs : List (G × Tx Nat G)) (l : List (Pair q G)) (hcap : txs.length ≤ TX_CAP)
    (hslots : s.ledger.next + TX_IO_SIZE * txs.length ≤ UTXO_CAP)
    (h1 : processTransactions b cv P.hs txs s = (s1, .ok ()))
    (h2 : processSignatures b cv P.hs P.contract l s1 = (s2, .ok ()))
    (hon : HonestEpoch b P cv txs l (txRoot cv P.hs s1))
    (hfree : ∀ (k : Nat) (x : G × Tx Nat G) (y : Pair q G), txs[k]? = some x → l[k]? = some y →
      Approves cv P.hs P.contract (txRoot cv P.hs s1) x.2 y = true → sc k = 0)
    (b' : Build) (k : G) (calls : List (Call G)) (st : Contract.State G)
    (hst : Contract.run b' (Contract.new k) calls = .ok st) (hpks : st.pks.length ≤ 2 ^ 32)
    (block : Block (ZMod p)) (hb : produceBlock st s2 = .ok block)
    (z : CState p) (hz : StartState cv P.hs s (txRoot cv P.hs s1) z)
    (bs : List (List (CInputs p G))) (hbs : bs.flatten = s2.ivcInputs.map CInputs.alloc) :
    ∃ z', runSteps P cv z bs z' ∧ derivePublicInputs cv P.sha st block = .ok z'.toList := by
  obtain ⟨hreach, _, c, hi⟩ := signerLeaves_inv hsc
  obtain ⟨done, rest, t, prs, e1, e2, e3, o, e4, e5⟩ := processTransactions_spec (b := b) txs s hi
    (by rw [hstart.transactions]; simpa using hcap)
  rw [h1] at e4
  obtain ⟨e6, rfl⟩ := Prod.mk.inj e4
  have hdone : done = txs := by
    rcases e5 with ⟨rfl, _⟩ | ⟨x, rest', _, hne, heq⟩
    · simpa using e1.symm
    · exact absurd heq.symm hne
  subst hdone
  rw [hstart.transactions, hstart.txProofs, List.nil_append, List.nil_append] at e6
  rw [hstart.transactions, hstart.txProofs, List.nil_append, List.nil_append] at e3
  rw [← e6] at e3
  have r1 : Reach b cv P.hs s1 := by
    refine reach_transactions hreach done ?_ h1 (by simp)
    show _ + _ ≤ _
    rw [hstart.transactions]; simpa using hcap
  have t1 : s1.transactions = done.map (·.2) := by rw [e6]
  have hll : l.length = done.length := by
    have := congrArg List.length hon.answered
    simpa using this
  have hf : (Op.signatures P.contract l).Fits s1 := by
    constructor
    · rw [e6]; simp only; rw [hstart.signers, hll]; simpa using hcap
    · rw [e6]; simp only; rw [hll]; exact hslots
  obtain ⟨c', sc', k1, k2, k3⟩ := sig_ok e3 hf h2
  have r2 : Reach b cv P.hs s2 := reach_signatures r1 l hf h2 (by simp)
  have hval : ∀ x ∈ done, OwnedBy x.1 x.2.inputs.toList ∧
      totalOf x.2.inputs.toList = totalOf x.2.outputs.toList ∧ totalOf x.2.outputs.toList < U64 := fun x hx =>
    valid_facts (e2 x hx) (hon.sums.imp id (fun hh => hh x hx))
  have hpair : ∀ y ∈ (done.map (·.2)).zip l, ∃ x ∈ done, x.2 = y.1 ∧ x.1 = y.2.1 := by
    intro y hy
    obtain ⟨j, hj⟩ := List.mem_iff_getElem?.1 hy
    rw [List.getElem?_zip_eq_some] at hj
    obtain ⟨j1, j2⟩ := hj
    rw [List.getElem?_map] at j1
    cases hx : done[j]? with
    | none => rw [hx] at j1; simp at j1
    | some x =>
      rw [hx] at j1
      simp only [Option.map_some, Option.some.injEq] at j1
      refine ⟨x, List.mem_of_getElem? hx, j1, ?_⟩
      have := congrArg (·[j]?) hon.answered
      simp only [List.getElem?_map, hx, j2, Option.map_some, Option.some.injEq] at this
      exact this.symm
  obtain ⟨z', g1, g2⟩ := honest_run h hpq P hfull cv e3 k1 (by rw [e6]; exact hstart.signers)
    (by rw [e6]; exact hstart.inputs) (by rw [e6]; exact hstart.deposits)
    (by rw [e6]; exact hstart.withdrawals) (by rw [t1]; simpa using le_of_eq hll)
    (fun j tx ht hj => by
      have := (List.getElem?_eq_some_iff.1 ht).1
      rw [t1, List.length_map] at this; omega)
    (fun y hy => by
      rw [t1] at hy
      obtain ⟨x, hx, x1, x2⟩ := hpair y hy
      refine ⟨?_, hon.contract y hy⟩
      rw [← x1, ← x2]; exact (hval x hx).1)
    (fun y hy ha => by rw [t1] at hy; exact hon.rejected y hy ha)
    (fun j tx x ht hx ha => by
      rw [t1, List.getElem?_map] at ht
      cases hd : done[j]? with
      | none => rw [hd] at ht; simp at ht
      | some w =>
        rw [hd] at ht
        simp only [Option.map_some, Option.some.injEq] at ht
        subst ht
        exact hfree j w x hd hx ha)
    (fun tx ht => by
      rw [t1] at ht
      obtain ⟨x, hx, rfl⟩ := List.mem_map.1 ht
      exact hon.amounts x hx)
    (fun tx ht => by
      rw [t1] at ht
      obtain ⟨x, hx, rfl⟩ := List.mem_map.1 ht
      exact (hval x hx).2.1)
    (fun tx ht => by
      rw [t1] at ht
      obtain ⟨x, hx, rfl⟩ := List.mem_map.1 ht
      exact lt_of_le_of_lt (totalOf_filter_le _ _) (hval x hx).2.2)
  obtain ⟨u, t0, g, z1, z2, z3, rfl⟩ := hz
  have q1 : u = merkleRoot (utxoCRH cv P.hs.crh) P.hs.h2 32 c := by
    have := hi.holds.tree.rootHash (ε := Unit)
    unfold HasRoot at z1
    rw [this] at z1; simp only [Outcome.ok.injEq] at z1; exact z1.symm
  have q2 : t0 = merkleRoot (txCRH cv P.hs.crh) P.hs.h2 13 (fun _ => Tx.default) := by
    have := (blankTree_rep (txTreeCfg cv P.hs)).rootHash (ε := Unit)
    unfold HasRoot at z2
    rw [this] at z2; simp only [Outcome.ok.injEq] at z2; exact z2.symm
  have q3 : g = merkleRoot (pkCRH cv P.hs.crh) P.hs.h2 13 sc := by
    have := hi.signer.rootHash (ε := Unit)
    unfold HasRoot at z3
    rw [this] at z3; simp only [Outcome.ok.injEq] at z3; exact z3.symm
  refine ⟨z', ?_, ?_⟩
  · rw [runSteps_flatten, hbs, q1, q2, q3]; exact g1
  · have key := derive_block (cv := cv) P.sha r2 b' k calls st hst hpks block hb _ _
      (k2.holds.tree.rootHash (ε := Unit)) (k2.signer.rootHash (ε := Unit))
    have tr : txRoot cv P.hs s2 = txRoot cv P.hs s1 := by
      unfold txRoot; rw [k1.frame.1]
    rw [tr] at key
    rw [key, g2]
    rfl

/-- **C57**: in the first epoch, the recorded circuit inputs of an honest execution, batched in any way,
satisfy the circuit, and the final state is what the contract derives from the produced block. -/
theorem C57_first_epoch (h : Sizes p q) (hpq : p ≤ q) (b : Build) (P : Params p G)
    (hfull : P.transferOnly = false) (cv : Curve p q G) (s1 s2 : Agg.State p q G)
    (txs : List (G × Tx Nat G)) (l : List (Pair q G)) (hcap : txs.length ≤ TX_CAP)
    (h1 : processTransactions b cv P.hs txs (Agg.new q cv P.hs) = (s1, .ok ()))
    (h2 : processSignatures b cv P.hs P.contract l s1 = (s2, .ok ()))
    (hon : HonestEpoch b P cv txs l (txRoot cv P.hs s1))
    (b' : Build) (k : G) (calls : List (Call G)) (st : Contract.State G)
    (hst : Contract.run b' (Contract.new k) calls = .ok st) (hpks : st.pks.length ≤ 2 ^ 32)
    (block : Block (ZMod p)) (hb : produceBlock st s2 = .ok block)
    (z : CState p) (hz : StartState cv P.hs (Agg.new q cv P.hs) (txRoot cv P.hs s1) z)
    (bs : List (List (CInputs p G))) (hbs : bs.flatten = s2.ivcInputs.map CInputs.alloc) :
    ∃ z', runSteps P cv z bs z' ∧ derivePublicInputs cv P.sha st block = .ok z'.toList :=
  C58_provable_on_free_positions h hpq b P hfull cv (Agg.new q cv P.hs) s1 s2 (fun _ => 0) SignerLeaves.new
    ⟨rfl, rfl, rfl, rfl, rfl, rfl⟩ txs l hcap
    (by
      show 0 + _ ≤ _
      rw [show TX_CAP = 4096 from rfl] at hcap
      rw [show TX_IO_SIZE = 4 from rfl, show UTXO_CAP = 2147483648 from rfl]; omega)
    h1 h2 hon (fun _ _ _ _ _ _ => rfl) b' k calls st hst hpks block hb z hz bs hbs

/-- The start state of the first epoch exists. -/
theorem startState_exists {b : Build} {cv : Curve p q G} {hs : Hashes p} {s : Agg.State p q G}
    (h : Reach b cv hs s) (f : ZMod p) : ∃ z, StartState cv hs s f z := by
  obtain ⟨c, sc, hi⟩ := reach_inv h
  exact ⟨_, _, _, _, hi.holds.tree.rootHash, (blankTree_rep (txTreeCfg cv hs)).rootHash,
    hi.signer.rootHash, rfl⟩

theorem startState_signer {b : Build} {cv : Curve p q G} {hs : Hashes p} {s : Agg.State p q G} {sc : Nat → G}
    (hsc : SignerLeaves b cv hs s sc) {f : ZMod p} {z : CState p} (hz : StartState cv hs s f z) :
    RootOf hs (pkEncVar cv) 13 sc z.signerRoot ∧ z.step = 0 ∧ z.txRootFinal = f := by
  obtain ⟨_, _, c, hi⟩ := signerLeaves_inv hsc
  obtain ⟨u, t0, g, z1, z2, z3, rfl⟩ := hz
  refine ⟨?_, rfl, rfl⟩
  have := hi.signer.rootHash (ε := Unit)
  unfold HasRoot at z3
  rw [this] at z3; simp only [Outcome.ok.injEq] at z3
  unfold RootOf merkleRoot
  simp only [pkEncVar_eq]
  exact z3.symm

/-- **C58** (what cannot be proved): an epoch with an approved transaction at a position signed in an
earlier epoch has no accepted run on the recorded inputs, however batched, from the state of the
aggregator, unless the hash of the signer tree is broken. -/
theorem C58_unprovable_on_signed_position (h : Sizes p q) (b : Build) (P : Params p G) (cv : Curve p q G)
    (s s1 s2 : Agg.State p q G) (sc : Nat → G) (hsc : SignerLeaves b cv P.hs s sc) (hstart : EpochStart s)
    (txs : List (G × Tx Nat G)) (l : List (Pair q G)) (hcap : txs.length ≤ TX_CAP)
    (hslots : s.ledger.next + TX_IO_SIZE * txs.length ≤ UTXO_CAP) (hll : l.length ≤ txs.length)
    (h1 : processTransactions b cv P.hs txs s = (s1, .ok ()))
    (h2 : processSignatures b cv P.hs P.contract l s1 = (s2, .ok ()))
    (k : Nat) (x : G × Tx Nat G) (y : Pair q G) (hx : txs[k]? = some x) (hy : l[k]? = some y)
    (ha : Approves cv P.hs P.contract (txRoot cv P.hs s1) x.2 y = true) (hk : sc k ≠ 0)
    (z z' : CState p) (hz : StartState cv P.hs s (txRoot cv P.hs s1) z)
    (bs : List (List (CInputs p G))) (hbs : bs.flatten = s2.ivcInputs.map CInputs.alloc)
    (hrun : runSteps P cv z bs z') :
    Collision P.hs (pkEncVar cv) 13 sc (signerUpds P cv z.txRootFinal z.step bs.flatten) := by
  obtain ⟨c1, c2, c3⟩ := startState_signer hsc hz
  obtain ⟨hreach, _, c, hi⟩ := signerLeaves_inv hsc
  obtain ⟨done, rest, t, prs, e1, e2, e3, o, e4, e5⟩ := processTransactions_spec (b := b) txs s hi
    (by rw [hstart.transactions]; simpa using hcap)
  rw [h1] at e4
  obtain ⟨e6, rfl⟩ := Prod.mk.inj e4
  have hdone : done = txs := by
    rcases e5 with ⟨rfl, _⟩ | ⟨x, rest', _, hne, heq⟩
    · simpa using e1.symm
    · exact absurd heq.symm hne
  subst hdone
  rw [← e6] at e3
  have t1 : s1.transactions = done.map (·.2) := by rw [e6]; simp only; rw [hstart.transactions]; rfl
  have hf : (Op.signatures P.contract l).Fits s1 := by
    constructor
    · rw [e6]; simp only; rw [hstart.signers]; simp only [List.length_nil]; omega
    · rw [e6]; simp only
      rw [show TX_IO_SIZE = 4 from rfl] at hslots ⊢; omega
  obtain ⟨c', sc', k1, k2, k3⟩ := sig_ok e3 hf h2
  obtain ⟨ins, i1, i2, i3⟩ := k1.inputs
  rw [show s1.ivcInputs = [] by rw [e6]; exact hstart.inputs, List.nil_append] at i1
  rw [List.drop_zero, t1] at i2
  have hil : ins.length = l.length := by
    have := congrArg List.length i2
    simp only [List.length_map, List.length_zip] at this; omega
  have hklt : k < l.length := (List.getElem?_eq_some_iff.1 hy).1
  obtain ⟨v, hv⟩ : ∃ v, ins[k]? = some v := ⟨_, List.getElem?_eq_getElem (by omega)⟩
  have hvk : (v.tx, v.senderPk, v.signature) = (x.2, y.1, y.2.getD (0, 0)) := by
    have := congrArg (·[k]?) i2
    simp only [List.getElem?_map, hv, Option.map_some] at this
    have hz2 : ((done.map (·.2)).zip l)[k]? = some (x.2, y) := by
      rw [List.getElem?_zip_eq_some]
      exact ⟨by rw [List.getElem?_map, hx]; rfl, hy⟩
    rw [hz2] at this
    simpa using this
  simp only [Prod.mk.injEq] at hvk
  have hau : (CInputs.alloc v).authorised P cv z.txRootFinal = true := by
    rw [authorised_alloc h.pos, c3, hvk.1, hvk.2.1, hvk.2.2]; exact ha
  have hNZ : NeZero p := ⟨by have := h.large; omega⟩
  have hv0 : z.step.val = 0 := by rw [c2]; exact ZMod.val_zero
  have hlist := C56_signers_listed h P cv z z' bs hrun sc c1
    (by rw [hv0, hbs, List.length_map, i1, hil, Nat.zero_add]; omega)
  rcases hlist with ⟨cs', _, hl, _⟩ | hcol
  · exfalso
    apply hk
    have := (hl k (CInputs.alloc v) (by rw [hbs, i1, List.getElem?_map, hv]; rfl) hau).1
    rwa [hv0, Nat.zero_add] at this
  · exact hcol

/-! ## Examples: fields and group order of the repository's curves, a deposit, a transfer, a withdrawal -/

theorem tri_honest (bd : Build) (P : Params p G) (hP : P.hs = oneHs p) (hp : 1 < p) (hq : 1 < q)
    (cv : Curve p q G) {a b : G} (ha : a ≠ P.contract) (hb : b ≠ P.contract) {m : Nat} (hm : m < U64) (f : ZMod p)
    (hap : ∀ y ∈ (triTxs P.contract a b m).map (·.2) |>.zip (triSigs q P.contract a b),
        Approves cv (oneHs p) P.contract f y.1 y.2 = true) :
    HonestEpoch bd P cv (triTxs P.contract a b m) (triSigs q P.contract a b) f := by
  refine ⟨?_, Or.inr ?_, rfl, ?_, ?_⟩
  · intro x hx u hu
    simp only [triTxs, List.mem_cons, List.not_mem_nil, or_false] at hx
    rcases hx with rfl | rfl | rfl <;>
      (simp [Tx.ios, depositTx, payTx] at hu
       rcases hu with rfl | rfl | rfl | rfl <;> first | exact hm | (show 0 < U64; decide))
  · intro x hx
    simp only [triTxs, List.mem_cons, List.not_mem_nil, or_false] at hx
    rcases hx with rfl | rfl | rfl <;>
      simp [depositTx, payTx, totalOf, UTXO.new, UTXO.dummy, hm]
  · intro y hy hk
    simp only [triTxs, triSigs, List.map_cons, List.map_nil, List.zip_cons_cons, List.zip_nil_right,
      List.mem_cons, List.not_mem_nil, or_false] at hy
    rcases hy with rfl | rfl | rfl
    · left; rw [hP]; exact (oneHs_verify hp hq cv _ _ 0).2
    · exact absurd hk ha
    · exact absurd hk hb
  · intro y hy h
    rw [hP, hap y hy] at h; cases h

/-- Non-vacuity of C57: all its hypotheses hold of an epoch with a deposit, a transfer and a withdrawal,
for any curve and fields of the required sizes (and a hash that makes all challenges equal to one). -/
theorem example_epoch (bd : Build) (hp : 1 < p) (hq : 1 < q) (cv : Curve p q G) (P : Params p G)
    (hP : P.hs = oneHs p) {a b : G} (ha : a ≠ P.contract) (hb : b ≠ P.contract) (hab : a ≠ b) :
    ∃ s1 s2 st block z,
    processTransactions bd cv P.hs (triTxs P.contract a b 5) (Agg.new q cv P.hs) = (s1, .ok ()) ∧
    processSignatures bd cv P.hs P.contract (triSigs q P.contract a b) s1 = (s2, .ok ()) ∧
    HonestEpoch bd P cv (triTxs P.contract a b 5) (triSigs q P.contract a b) (txRoot cv P.hs s1) ∧
    Contract.run bd (Contract.new P.contract) [.join 0 a, .join 0 b] = .ok st ∧ st.pks = [P.contract, a, b] ∧
    produceBlock st s2 = .ok block ∧ block.deposits = [(1, 5)] ∧ block.withdrawals = [(2, 5)] ∧
    block.signers = [some 0, some 1, some 2] ∧
    StartState cv P.hs (Agg.new q cv P.hs) (txRoot cv P.hs s1) z := by
  obtain ⟨s1, s2, e1, e2, r1, r2, t1, d2, w2, g2, hap⟩ := tri_epoch bd hp hq cv (rollup := P.contract)
    ha hb (m := 5) (by decide) (by decide)
  rw [← hP] at e1 e2 r1 r2
  have hap' := hap
  rw [← hP] at hap'
  obtain ⟨z, hz⟩ := startState_exists (b := bd) (cv := cv) (hs := P.hs) Reach.new (txRoot cv P.hs s1)
  obtain ⟨st, hst, hpk, i1, i2, i3⟩ : ∃ st, Contract.run bd (Contract.new P.contract)
      [.join 0 a, .join 0 b] = .ok st ∧ st.pks = [P.contract, a, b] ∧ st.pkIndices.get P.contract = some 0 ∧
      st.pkIndices.get a = some 1 ∧ st.pkIndices.get b = some 2 := by
    refine ⟨_, rfl, rfl, ?_, ?_, ?_⟩ <;>
      simp [join, Contract.new, HMap.get_insert, ha, hb, hab, ha.symm, hb.symm, hab.symm]
  obtain ⟨ur, sr, _, _, hblock⟩ := (C48_produce_block bd cv P.hs s2 r2 st).1 (by
    intro pk hpk
    have : pk = P.contract ∨ pk = a ∨ pk = b := by
      rw [g2, d2, w2] at hpk
      simp at hpk
      tauto
    unfold Registered
    rcases this with rfl | rfl | rfl
    · rw [i1]; rfl
    · rw [i2]; rfl
    · rw [i3]; rfl)
  refine ⟨s1, s2, st, _, z, e1, e2, tri_honest bd P hP hp hq cv
    ha hb (by decide) _ (by rw [hP]; exact hap), hst, hpk, hblock, ?_, ?_, ?_, hz⟩
  · simp only [d2, List.map_cons, List.map_nil, regIndex, i2, Option.getD_some]
    rfl
  · simp only [w2, List.map_cons, List.map_nil, regIndex, i3, Option.getD_some]
    rfl
  · simp only [g2, List.map_cons, List.map_nil, Option.map_some, regIndex, i1, i2, i3, Option.getD_some]
    rfl

/-- An accepted run whose final state is what the contract derives from a block with a deposit, a
withdrawal and three signers. -/
theorem example_run (h : Sizes p q) (hpq : p ≤ q) (cv : Curve p q G) (P : Params p G)
    (hP : P.hs = oneHs p) (hfull : P.transferOnly = false) {a b : G} (ha : a ≠ P.contract) (hb : b ≠ P.contract)
    (hab : a ≠ b) :
    ∃ (z z' : CState p) (is : List (CInputs p G)) (st : Contract.State G) (block : Block (ZMod p)),
    runSteps P cv z [is] z' ∧ (∃ u t f g, z = initState u t f g) ∧
    derivePublicInputs cv P.sha st block = .ok z'.toList ∧
    block.deposits = [(1, 5)] ∧ block.withdrawals = [(2, 5)] ∧ block.signers = [some 0, some 1, some 2] := by
  have hp : 1 < p := lt_of_lt_of_le (by decide) h.large
  obtain ⟨s1, s2, st, block, z, e1, e2, hon, hst, hpk, hb, b1, b2, b3, hz⟩ :=
    example_epoch .release hp (lt_of_lt_of_le hp hpq) cv P hP ha hb hab
  obtain ⟨z', hrun, hder⟩ := C57_first_epoch h hpq .release P hfull cv s1 s2 _ _
    (by show 3 ≤ 4096; omega) e1 e2 hon .release _ _ st hst (by rw [hpk]; show 3 ≤ 4294967296; omega) block hb z hz
    [s2.ivcInputs.map CInputs.alloc] (by simp)
  obtain ⟨u, t, g, _, _, _, hz'⟩ := hz
  exact ⟨z, z', _, st, block, hrun, ⟨u, t, _, g, hz'⟩, hder, b1, b2, b3⟩

theorem bn_ne {i j : Nat} (h : i % grumpkinQ ≠ j % grumpkinQ) :
    ((i : ZMod grumpkinQ)) ≠ (j : ZMod grumpkinQ) := by
  rw [Ne, ZMod.natCast_eq_natCast_iff']; exact h

/-- Non-vacuity of C50–C60 and C74: an accepted run over the fields and the group order used in the
repository. -/
example : ∃ (z z' : CState bn254r) (is : List (CInputs bn254r (ZMod grumpkinQ)))
    (st : Contract.State (ZMod grumpkinQ)) (block : Block (ZMod bn254r)),
    runSteps ⟨oneHs bn254r, toySha, ((1 : Nat) : ZMod grumpkinQ), false⟩ bnCurve z [is] z' ∧
    (∃ u t f g, z = initState u t f g) ∧
    derivePublicInputs bnCurve toySha st block = .ok z'.toList ∧
    block.deposits = [(1, 5)] ∧ block.withdrawals = [(2, 5)] ∧ block.signers = [some 0, some 1, some 2] :=
  example_run sizes_bn254 bn254_le bnCurve ⟨oneHs bn254r, toySha, ((1 : Nat) : ZMod grumpkinQ), false⟩ rfl rfl
    (a := ((2 : Nat) : ZMod grumpkinQ)) (b := ((3 : Nat) : ZMod grumpkinQ))
    (bn_ne (by decide)) (bn_ne (by decide)) (bn_ne (by decide))

end PF.Props
