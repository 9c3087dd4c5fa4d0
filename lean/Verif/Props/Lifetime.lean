import Verif.Spec.Lifetime
import Verif.Props.AggregatorExact
import Verif.Props.BlockChain

/-!
# The lifetime of an aggregator (C109)
-/
set_option linter.unusedSectionVars false

namespace PF.Props
open PF PF.MT PF.Agg PF.Spec PF.AggC PF.Contract
variable {p q : Nat} {G : Type} [AddCommGroup G] [Module (ZMod q) G] [DecidableEq G]

theorem reset_start (cv : Curve p q G) (hs : Hashes p) (s : Agg.State p q G) : EpochStart (Agg.reset cv hs s) :=
  ⟨rfl, rfl, rfl, rfl, rfl, rfl⟩

theorem reset_leaves {b : Build} {cv : Curve p q G} {hs : Hashes p} {s : Agg.State p q G} {sc : Nat → G}
    (h : SignerLeaves b cv hs s sc) : SignerLeaves b cv hs (Agg.reset cv hs s) sc :=
  (C58_signer_tree_over_epochs b cv hs).1 s sc h |>.2

/-- Signer leaves after an epoch. -/
theorem epoch_leaves {b : Build} {cv : Curve p q G} {hs : Hashes p} {rollup : G} {s : Agg.State p q G}
    {d : Executed p q G} (hd : d.From b cv hs rollup s) {sc : Nat → G} (h : SignerLeaves b cv hs s sc) :
    SignerLeaves b cv hs d.start sc ∧ SignerLeaves b cv hs d.fin (overlay sc d.fin.signers) ∧
      d.fin.signers = ((d.txs.map (·.2)).zip d.answers).map fun y =>
        if Approves cv hs rollup (txRoot cv hs d.mid) y.1 y.2 then some y.2.1 else none := by
  have h0 : SignerLeaves b cv hs d.start sc := by rw [hd.reset]; exact reset_leaves h
  have hst : EpochStart d.start := by rw [hd.reset]; exact reset_start cv hs s
  obtain ⟨c, c', sc', -, i1, -, r, -, t1, t2, -, -, -, t6⟩ :=
    epoch_setup h0 hst hd.txCap hd.slots hd.answered hd.submit hd.sign
  have h1 := SignerLeaves.call d.start (.transactions d.txs) sc h0
    (by show _ + _ ≤ _; rw [hst.transactions]; simpa using hd.txCap)
    (by simp [Op.run, hd.submit])
  have e1 : ((Op.transactions d.txs : Op q G).run b cv hs d.start).1 = d.mid := by
    show (processTransactions b cv hs d.txs d.start).1 = _; rw [hd.submit]
  rw [e1, t2] at h1
  have e2 : overlay sc ([] : List (Option G)) = sc := rfl
  rw [e2] at h1
  have h2 := SignerLeaves.call d.mid (.signatures rollup d.answers) sc h1
    ⟨by rw [t2]; simpa using le_trans hd.answered hd.txCap, by
      rw [t6]; exact le_trans (Nat.add_le_add_left (Nat.mul_le_mul_left _ hd.answered) _) hd.slots⟩
    (by simp [Op.run, hd.sign])
  have e3 : ((Op.signatures rollup d.answers : Op q G).run b cv hs d.mid).1 = d.fin := by
    show (processSignatures b cv hs rollup d.answers d.mid).1 = _; rw [hd.sign]
  rw [e3] at h2
  refine ⟨h0, h2, ?_⟩
  rw [r.signers, t2, t1]
  simp

theorem countP_getElem {α : Type} (xs : List α) (f : α → Bool) (n : Nat) (h : xs.length ≤ n) :
    (List.range n).countP (fun j => match xs[j]? with | some x => f x | none => false) = xs.countP f := by
  induction xs generalizing n with
  | nil => simp
  | cons x xs ih =>
    cases n with
    | zero => simp at h
    | succ n =>
      have := ih n (by simpa using h)
      rw [List.range_succ_eq_map, List.countP_cons, List.countP_map, List.countP_cons]
      rw [← this]
      congr 1

theorem countP_or_disjoint {α : Type} (l : List α) (f g k : α → Bool) (h : ∀ a ∈ l, k a = (f a || g a))
    (hd : ∀ a ∈ l, ¬ (f a = true ∧ g a = true)) : l.countP k = l.countP f + l.countP g := by
  induction l with
  | nil => rfl
  | cons a l ih =>
    have i := ih (fun x hx => h x (by simp [hx])) (fun x hx => hd x (by simp [hx]))
    have h1 := h a (by simp)
    have h2 := hd a (by simp)
    rw [List.countP_cons, List.countP_cons, List.countP_cons, i, h1]
    revert h2
    cases f a <;> cases g a <;> simp <;> omega

/-- An epoch whose approved transactions all fall on free positions of the signer tree takes as many
positions as it has approved transactions. -/
theorem signed_after {cv : Curve p q G} {hs : Hashes p} {rollup : G} {d : Executed p q G} {sc : Nat → G}
    (hsig : d.fin.signers = ((d.txs.map (·.2)).zip d.answers).map fun y =>
        if Approves cv hs rollup (txRoot cv hs d.mid) y.1 y.2 then some y.2.1 else none)
    (hcap : d.txs.length ≤ TX_CAP) (hk : ∀ y ∈ d.answers, y.1 ≠ 0)
    (hfree : ∀ (k : Nat) (y : Tx Nat G × Pair q G), ((d.txs.map (·.2)).zip d.answers)[k]? = some y →
      Approves cv hs rollup (txRoot cv hs d.mid) y.1 y.2 = true → sc k = 0) :
    signedPositions (overlay sc d.fin.signers) = signedPositions sc + (d.executed cv hs rollup).length := by
  have hlen : ((d.txs.map (·.2)).zip d.answers).length ≤ TX_CAP := by
    rw [List.length_zip, List.length_map]; exact le_trans (min_le_left _ _) hcap
  unfold Executed.executed approvedTxs signedPositions
  rw [List.length_map, ← List.countP_eq_length_filter, ← countP_getElem _ _ TX_CAP hlen]
  apply countP_or_disjoint
  · intro j _
    unfold overlay
    rw [hsig, List.getElem?_map]
    rcases hj : ((d.txs.map (·.2)).zip d.answers)[j]? with _ | y
    · simp only [hj, Option.map_none]; simp
    · have hy : y.2.1 ≠ 0 := hk _ (List.of_mem_zip (List.mem_of_getElem? hj)).2
      cases ha : Approves cv hs rollup (txRoot cv hs d.mid) y.1 y.2 <;>
        simp only [hj, Option.map_some, ha] <;> simp [hy]
  · rintro j _ ⟨h1, h2⟩
    rcases hj : ((d.txs.map (·.2)).zip d.answers)[j]? with _ | y
    · rw [hj] at h2; simp at h2
    · rw [hj] at h2
      simp [hfree j y hj h2] at h1

/-- The recorded inputs of the epoch are accepted by the circuit, in some batching, from the state of the
aggregator at the start of the epoch. -/
def RecordedRun (P : Params p G) (cv : Curve p q G) (d : Executed p q G) : Prop :=
  ∃ (z z' : CState p) (bs : List (List (CInputs p G))), StartState cv P.hs d.start (txRoot cv P.hs d.mid) z ∧
    bs.flatten = d.fin.ivcInputs.map CInputs.alloc ∧ runSteps P cv z bs z'

/-- **C109** (finding): an aggregator can prove at most 4096 executed transactions in its whole lifetime.
Whatever the number of epochs, if the recorded inputs of all of them are accepted by the circuit, the executed
transactions of all epochs together are at most as many as the signer tree has free leaves at the start (4096
for a new aggregator), since the signer tree is never reset; or a collision of the signer-tree hash is
exhibited. Keys of answers are assumed not to be the identity. -/
theorem C109_lifetime_bound (h : Sizes p q) (b : Build) (P : Params p G) (cv : Curve p q G)
    (ds : List (Executed p q G)) (s s' : Agg.State p q G) (hl : Lifetime b cv P.hs P.contract s ds s')
    (sc : Nat → G) (hsc : SignerLeaves b cv P.hs s sc) (hk : ∀ d ∈ ds, ∀ y ∈ d.answers, y.1 ≠ 0)
    (hr : ∀ d ∈ ds, RecordedRun P cv d) :
    signedPositions sc + (ds.map fun d => (d.executed cv P.hs P.contract).length).sum ≤ TX_CAP ∨
    ∃ d ∈ ds, ∃ sc', SignerLeaves b cv P.hs d.start sc' ∧ Collision P.hs (pkEncVar cv) 13 sc'
      (signerUpds P cv (txRoot cv P.hs d.mid) 0 (d.fin.ivcInputs.map CInputs.alloc)) := by
  induction ds generalizing s sc with
  | nil =>
    left
    simp only [List.map_nil, List.sum_nil, Nat.add_zero]
    exact le_trans List.countP_le_length (by simp)
  | cons d ds ih =>
    obtain ⟨hd, hl⟩ := hl
    obtain ⟨h0, h1, h2⟩ := epoch_leaves hd hsc
    obtain ⟨z, z', bs, hz, hbs, hrun⟩ := hr d (by simp)
    by_cases hfree : ∀ (k : Nat) (y : Tx Nat G × Pair q G), ((d.txs.map (·.2)).zip d.answers)[k]? = some y →
        Approves cv P.hs P.contract (txRoot cv P.hs d.mid) y.1 y.2 = true → sc k = 0
    · have e := signed_after h2 hd.txCap (hk d (by simp)) hfree
      rcases ih d.fin hl _ h1 (fun x hx => hk x (by simp [hx])) (fun x hx => hr x (by simp [hx])) with g | ⟨x, hx, g⟩
      · left
        rw [e] at g
        simp only [List.map_cons, List.sum_cons]
        omega
      · exact Or.inr ⟨x, by simp [hx], g⟩
    · push_neg at hfree
      obtain ⟨k, y, hy, ha, hne⟩ := hfree
      right
      refine ⟨d, by simp, sc, h0, ?_⟩
      rw [List.getElem?_zip_eq_some, List.getElem?_map, Option.map_eq_some_iff] at hy
      obtain ⟨⟨x, hx, hxy⟩, hy⟩ := hy
      have hst : EpochStart d.start := by rw [hd.reset]; exact reset_start cv P.hs s
      rw [← hxy] at ha
      have := C58_unprovable_on_signed_position h b P cv d.start d.mid d.fin sc h0 hst d.txs d.answers hd.txCap
        hd.slots hd.answered hd.submit hd.sign k x y.2 hx hy ha hne z z' hz bs hbs hrun
      rw [hbs] at this
      obtain ⟨u, t, g, -, -, -, rfl⟩ := hz
      exact this

/-- **C109**: in particular for a new aggregator. -/
theorem C109_at_most_4096 (h : Sizes p q) (b : Build) (P : Params p G) (cv : Curve p q G)
    (ds : List (Executed p q G)) (s' : Agg.State p q G)
    (hl : Lifetime b cv P.hs P.contract (Agg.new q cv P.hs) ds s')
    (hk : ∀ d ∈ ds, ∀ y ∈ d.answers, y.1 ≠ 0) (hr : ∀ d ∈ ds, RecordedRun P cv d) :
    (ds.map fun d => (d.executed cv P.hs P.contract).length).sum ≤ 4096 ∨
    ∃ d ∈ ds, ∃ sc', SignerLeaves b cv P.hs d.start sc' ∧ Collision P.hs (pkEncVar cv) 13 sc'
      (signerUpds P cv (txRoot cv P.hs d.mid) 0 (d.fin.ivcInputs.map CInputs.alloc)) := by
  rcases C109_lifetime_bound h b P cv ds _ s' hl _ SignerLeaves.new hk hr with g | g
  · left
    exact le_trans (Nat.le_add_left _ _) g
  · exact Or.inr g

/-- The epoch executes its `k`-th transaction. -/
def ExecutesAt (cv : Curve p q G) (hs : Hashes p) (rollup : G) (k : Nat) (d : Executed p q G) : Bool :=
  match ((d.txs.map (·.2)).zip d.answers)[k]? with
  | some y => Approves cv hs rollup (txRoot cv hs d.mid) y.1 y.2
  | none => false

/-- **C109** (finding): for every `k`, at most one epoch of the whole lifetime of an aggregator can execute its
`k`-th transaction and be proved; if the leaf `k` of the signer tree is taken at the start, none can. In
particular an aggregator that proved an epoch with an executed first transaction proves no other such epoch. -/
theorem C109_position_once (h : Sizes p q) (b : Build) (P : Params p G) (cv : Curve p q G) (k : Nat)
    (ds : List (Executed p q G)) (s s' : Agg.State p q G) (hl : Lifetime b cv P.hs P.contract s ds s')
    (sc : Nat → G) (hsc : SignerLeaves b cv P.hs s sc) (hk : ∀ d ∈ ds, ∀ y ∈ d.answers, y.1 ≠ 0)
    (hr : ∀ d ∈ ds, RecordedRun P cv d) :
    ds.countP (ExecutesAt cv P.hs P.contract k) ≤ (if sc k = 0 then 1 else 0) ∨
    ∃ d ∈ ds, ∃ sc', SignerLeaves b cv P.hs d.start sc' ∧ Collision P.hs (pkEncVar cv) 13 sc'
      (signerUpds P cv (txRoot cv P.hs d.mid) 0 (d.fin.ivcInputs.map CInputs.alloc)) := by
  induction ds generalizing s sc with
  | nil => exact Or.inl (by simp)
  | cons d ds ih =>
    obtain ⟨hd, hl⟩ := hl
    obtain ⟨h0, h1, h2⟩ := epoch_leaves hd hsc
    obtain ⟨z, z', bs, hz, hbs, hrun⟩ := hr d (by simp)
    rcases ih d.fin hl _ h1 (fun x hx => hk x (by simp [hx])) (fun x hx => hr x (by simp [hx])) with g | ⟨x, hx, g⟩
    · rw [List.countP_cons]
      rcases hy : ((d.txs.map (·.2)).zip d.answers)[k]? with _ | y
      · left
        have e1 : ExecutesAt cv P.hs P.contract k d = false := by unfold ExecutesAt; rw [hy]
        have e2 : overlay sc d.fin.signers k = sc k := by
          unfold overlay; rw [h2, List.getElem?_map, hy]; rfl
        rw [e1]; rw [e2] at g; simpa using g
      · rcases ha : Approves cv P.hs P.contract (txRoot cv P.hs d.mid) y.1 y.2 with _ | _
        · left
          have e1 : ExecutesAt cv P.hs P.contract k d = false := by unfold ExecutesAt; rw [hy]; exact ha
          have e2 : overlay sc d.fin.signers k = sc k := by
            unfold overlay; rw [h2, List.getElem?_map, hy]; simp [ha]
          rw [e1]; rw [e2] at g; simpa using g
        · have hy1 : y.2.1 ≠ 0 := hk d (by simp) _ (List.of_mem_zip (List.mem_of_getElem? hy)).2
          have e2 : overlay sc d.fin.signers k = y.2.1 := by
            unfold overlay; rw [h2, List.getElem?_map, hy]; simp [ha]
          rw [e2, if_neg hy1] at g
          by_cases hs0 : sc k = 0
          · left
            rw [if_pos hs0]
            have : (if ExecutesAt cv P.hs P.contract k d = true then 1 else 0) ≤ 1 := by split <;> omega
            omega
          · right
            refine ⟨d, by simp, sc, h0, ?_⟩
            rw [List.getElem?_zip_eq_some, List.getElem?_map, Option.map_eq_some_iff] at hy
            obtain ⟨⟨x, hx, hxy⟩, hy⟩ := hy
            have hst : EpochStart d.start := by rw [hd.reset]; exact reset_start cv P.hs s
            rw [← hxy] at ha
            have := C58_unprovable_on_signed_position h b P cv d.start d.mid d.fin sc h0 hst d.txs d.answers
              hd.txCap hd.slots hd.answered hd.submit hd.sign k x y.2 hx hy ha hs0 z z' hz bs hbs hrun
            rw [hbs] at this
            obtain ⟨u, t, g, -, -, -, rfl⟩ := hz
            exact this
    · exact Or.inr ⟨x, by simp [hx], g⟩

/-- What makes an executed epoch provable: 64-bit amounts, a registry filled by calls of the contract, and the
exact conditions of C91. -/
structure ProvableFrom (b : Build) (P : Params p G) (cv : Curve p q G) (d : Executed p q G) : Prop where
  amounts : ∀ x ∈ d.txs, x.2.U64Amounts
  registry : ∃ (b' : Build) (k : G) (calls : List (Call G)),
    Contract.run b' (Contract.new k) calls = .ok d.reg ∧ d.reg.pks.length ≤ 2 ^ 32
  conditions : ∃ sc, SignerLeaves b cv P.hs d.start sc ∧
    ProvableEpoch P cv (d.txs.map (·.2)) d.answers (txRoot cv P.hs d.mid) sc

/-- The block produced in a reachable state. -/
theorem produced_shape {b : Build} {cv : Curve p q G} {hs : Hashes p} {s : Agg.State p q G}
    (h : Reach b cv hs s) {ct : Contract.State G} {blk : Block (ZMod p)} (hb : produceBlock ct s = .ok blk) :
    HasRoot s.ledger.tree blk.utxoRoot ∧
      blk.deposits = s.deposits.map (fun e => (regIndex ct e.1, e.2)) ∧
      blk.withdrawals = s.withdrawals.map (fun e => (regIndex ct e.1, e.2)) := by
  have h48 := C48_produce_block b cv hs s h ct
  by_cases hreg : ∀ pk, (some pk ∈ s.signers ∨ pk ∈ s.deposits.map (·.1) ∨ pk ∈ s.withdrawals.map (·.1)) →
      Registered ct pk
  · obtain ⟨ur, sr, h1, h2, h3⟩ := h48.1 hreg
    rw [hb] at h3
    cases h3
    exact ⟨h1, rfl, rfl⟩
  · rw [h48.2 hreg] at hb
    cases hb

/-- The recorded amounts of a provable epoch fit 64 bits. -/
theorem block_amounts {b : Build} {P : Params p G} {cv : Curve p q G} {s : Agg.State p q G}
    {d : Executed p q G} (hd : d.From b cv P.hs P.contract s)
    (hp : ProvableFrom b P cv d) : BlockAmounts d.block := by
  obtain ⟨sc, hsc, hok⟩ := hp.conditions
  have hstart : EpochStart d.start := by rw [hd.reset]; exact reset_start cv P.hs s
  obtain ⟨c, c', sc', -, -, -, r, r2, t1, -, -, t4, t5, -⟩ :=
    epoch_setup hsc hstart hd.txCap hd.slots hd.answered hd.submit hd.sign
  obtain ⟨-, e2, e3⟩ := produced_shape r2 hd.produce
  have hall : ∀ tx ∈ d.txs.map (·.2), tx.U64Amounts := by
    intro tx htx
    obtain ⟨x, hx, rfl⟩ := List.mem_map.1 htx
    exact hp.amounts x hx
  have hmem : ∀ a ∈ approvedTxs cv P.hs P.contract (txRoot cv P.hs d.mid) (d.txs.map (·.2)) d.answers,
      a.1 ∈ d.txs.map (·.2) := by
    intro a ha
    obtain ⟨y, hy, rfl⟩ := List.mem_map.1 ha
    exact (List.of_mem_zip (List.mem_filter.1 hy).1).1
  have hdep := r.deposits
  have hwit := r.withdrawals (Or.inr (by rw [t1]; exact hok.fits))
  rw [t4, t1, List.drop_zero, List.nil_append] at hdep
  rw [t5, t1, List.drop_zero, List.nil_append] at hwit
  constructor
  · intro x hx
    rw [e2, hdep] at hx
    obtain ⟨y, hy, rfl⟩ := List.mem_map.1 hx
    obtain ⟨a, ha, hy⟩ := List.mem_flatMap.1 hy
    unfold Tx.depositsOf at hy
    split at hy
    · obtain ⟨w, hw, rfl⟩ := List.mem_map.1 hy
      exact hall _ (hmem a ha) w (by unfold Tx.ios; simp [List.mem_filter.1 hw])
    · cases hy
  · intro x hx
    rw [e3, hwit] at hx
    obtain ⟨y, hy, rfl⟩ := List.mem_map.1 hx
    obtain ⟨a, ha, hy⟩ := List.mem_flatMap.1 hy
    unfold Tx.withdrawalsOf at hy
    split at hy
    · cases hy
    · rw [List.mem_singleton.1 hy]
      exact hok.fits _ (hmem a ha)

/-- **C109** (completeness over a lifetime): if every epoch of an aggregator's lifetime meets the exact
conditions of C91, the blocks it produced form a chain of accepted blocks (C102) proved by the recorded inputs,
from the UTXO root at the start to the UTXO root at the end. -/
theorem C109_chain (h : Sizes p q) (hpq : p ≤ q) (b : Build) (P : Params p G)
    (hfull : P.transferOnly = false) (cv : Curve p q G) (ds : List (Executed p q G)) (s s' : Agg.State p q G)
    (hs : Reach b cv P.hs s) (hl : Lifetime b cv P.hs P.contract s ds s')
    (hp : ∀ d ∈ ds, ProvableFrom b P cv d) :
    ∃ (u u' : ZMod p) (es : List (Epoch p G)), HasRoot s.ledger.tree u ∧ HasRoot s'.ledger.tree u' ∧
      Chain P cv u es u' ∧ es.map (·.block) = ds.map (·.block) ∧ es.map (·.reg) = ds.map (·.reg) ∧
      es.map (·.txs) = ds.map fun d => d.fin.ivcInputs.map CInputs.alloc := by
  induction ds generalizing s with
  | nil =>
    cases hl
    obtain ⟨c, sc, hi⟩ := reach_inv hs
    exact ⟨_, _, [], hi.holds.tree.rootHash, hi.holds.tree.rootHash, rfl, rfl, rfl, rfl⟩
  | cons d ds ih =>
    obtain ⟨hd, hl⟩ := hl
    have hpd := hp d (by simp)
    obtain ⟨b', k, calls, hst, hpks⟩ := hpd.registry
    obtain ⟨sc, hsc, hok⟩ := hpd.conditions
    have hstart : EpochStart d.start := by rw [hd.reset]; exact reset_start cv P.hs s
    obtain ⟨c, c', sc', i0, i1, i2, r, r2, -⟩ :=
      epoch_setup hsc hstart hd.txCap hd.slots hd.answered hd.submit hd.sign
    obtain ⟨u', u'', es, q1, q2, q3, q4, q5, q6⟩ := ih d.fin r2 hl (fun x hx => hp x (by simp [hx]))
    have hz : StartState cv P.hs d.start (txRoot cv P.hs d.mid) (initState _ _ _ _) :=
      ⟨_, _, _, i0.holds.tree.rootHash, (blankTree_rep (txTreeCfg cv P.hs)).rootHash, i0.signer.rootHash, rfl⟩
    obtain ⟨z', hrun, hder⟩ := C91_provable_if h hpq b P hfull cv d.start d.mid d.fin sc hsc hstart d.txs d.answers hd.txCap
      hd.slots hd.answered hpd.amounts hd.submit hd.sign b' k calls d.reg hst hpks d.block hd.produce _ hz
      [d.fin.ivcInputs.map CInputs.alloc] (by simp) hok
    refine ⟨_, u'', ⟨d.reg, d.block, [d.fin.ivcInputs.map CInputs.alloc], _, _, _⟩ :: es, ?_, q2, ⟨⟨block_amounts hd hpd, z', hrun, hder⟩, ?_⟩,
      by simp [q4], by simp [q5], by rw [List.map_cons, List.map_cons, q6]; simp [Epoch.txs]⟩
    · have : s.ledger = d.start.ledger := by rw [hd.reset]; rfl
      rw [this]; exact i0.holds.tree.rootHash
    · have : d.block.utxoRoot = u' := by
        have := (produced_shape r2 hd.produce).1
        unfold HasRoot at this q1
        rw [this] at q1
        exact Outcome.ok.inj q1
      show Chain P cv d.block.utxoRoot es u''
      rw [this]; exact q3

/-- A lifetime of one epoch with a deposit, a transfer and a withdrawal: it meets all hypotheses of C109. -/
theorem example_lifetime (h : Sizes p q) (hpq : p ≤ q) (cv : Curve p q G) (P : Params p G)
    (hP : P.hs = oneHs p) (hfull : P.transferOnly = false) (bd : Build) {a b : G} (ha : a ≠ P.contract)
    (hb : b ≠ P.contract) (hab : a ≠ b) (h0 : P.contract ≠ 0) (ha0 : a ≠ 0) (hb0 : b ≠ 0) :
    ∃ d : Executed p q G, Lifetime bd cv P.hs P.contract (Agg.new q cv P.hs) [d] d.fin ∧
      (∀ y ∈ d.answers, y.1 ≠ 0) ∧ ProvableFrom bd P cv d ∧ RecordedRun P cv d ∧
      (d.executed cv P.hs P.contract).length = 3 ∧ d.block.deposits = [(1, 5)] ∧
      d.block.withdrawals = [(2, 5)] := by
  have hp : 1 < p := lt_of_lt_of_le (by decide) h.large
  obtain ⟨s1, s2, st, block, z, e1, e2, hon, hst, hpk, hbl, b1, b2, b3, hz⟩ :=
    example_epoch bd hp (lt_of_lt_of_le hp hpq) cv P hP ha hb hab
  have hreset : Agg.reset cv P.hs (Agg.new q cv P.hs) = Agg.new q cv P.hs := rfl
  let d : Executed p q G := ⟨Agg.new q cv P.hs, s1, s2, triTxs P.contract a b 5, triSigs q P.contract a b, st, block⟩
  have hd : d.From bd cv P.hs P.contract (Agg.new q cv P.hs) :=
    ⟨hreset.symm, e1, e2, hbl, by show 3 ≤ 4096; omega, by show 0 + 4 * 3 ≤ 2147483648; omega,
      by show 3 ≤ 3; omega⟩
  obtain ⟨z', hrun, -⟩ := C57_first_epoch h hpq bd P hfull cv s1 s2 _ _
    (by show 3 ≤ 4096; omega) e1 e2 hon bd _ _ st hst (by rw [hpk]; show 3 ≤ 4294967296; omega) block hbl z hz
    [s2.ivcInputs.map CInputs.alloc] (by simp)
  have hlv := epoch_leaves hd SignerLeaves.new
  refine ⟨d, ⟨hd, rfl⟩, ?_, ⟨hon.amounts, ⟨bd, _, _, hst, by show st.pks.length ≤ _; rw [hpk]; show 3 ≤ 4294967296; omega⟩,
    _, SignerLeaves.new, honest_provable hon ?_ (fun _ _ _ _ _ _ => rfl)⟩, ⟨z, z', _, hz, by simp [d], hrun⟩, ?_, b1, b2⟩
  · intro y hy
    simp only [d, triSigs, List.mem_cons, List.not_mem_nil, or_false] at hy
    rcases hy with rfl | rfl | rfl <;> assumption
  · intro x hx
    simp only [d, triTxs, List.mem_cons, List.not_mem_nil, or_false] at hx
    rcases hx with rfl | rfl | rfl
    · exact depositTx_valid bd _ a 5 (by decide)
    · exact payTx_valid bd a b 5 (by decide)
    · exact payTx_valid bd b _ 5 (by decide)
  · have ap0 : ∀ r tx, Approves cv P.hs P.contract r tx (P.contract, none) = true := by
      intro r tx; simp [Approves]
    have ap1 : ∀ r tx k (s : ZMod q), Approves cv P.hs P.contract r tx (k, some (s, 1)) = true := by
      intro r tx k s
      unfold Approves
      rw [hP]
      simp [(oneHs_verify hp (lt_of_lt_of_le hp hpq) cv k _ s).1]
    simp [Executed.executed, approvedTxs, d, triTxs, triSigs, ap0, ap1]

/-- Non-vacuity of C109 over the fields and the group order used in the repository. -/
example : ∃ d : Executed bn254r grumpkinQ (ZMod grumpkinQ),
    Lifetime .release bnCurve (Agg.oneHs bn254r) ((1 : Nat) : ZMod grumpkinQ)
      (Agg.new grumpkinQ bnCurve (Agg.oneHs bn254r)) [d] d.fin ∧
    ProvableFrom .release ⟨Agg.oneHs bn254r, toySha, ((1 : Nat) : ZMod grumpkinQ), false⟩ bnCurve d ∧
    RecordedRun ⟨Agg.oneHs bn254r, toySha, ((1 : Nat) : ZMod grumpkinQ), false⟩ bnCurve d := by
  have ne : ∀ i : Nat, i % grumpkinQ ≠ 0 % grumpkinQ → ((i : Nat) : ZMod grumpkinQ) ≠ 0 := by
    intro i hi; have := bn_ne hi; rwa [Nat.cast_zero] at this
  obtain ⟨d, h1, -, h3, h4, -⟩ := example_lifetime sizes_bn254 bn254_le bnCurve
    ⟨Agg.oneHs bn254r, toySha, ((1 : Nat) : ZMod grumpkinQ), false⟩ rfl rfl .release
    (a := ((2 : Nat) : ZMod grumpkinQ)) (b := ((3 : Nat) : ZMod grumpkinQ))
    (bn_ne (by decide)) (bn_ne (by decide)) (bn_ne (by decide)) (ne _ (by decide)) (ne _ (by decide))
    (ne _ (by decide))
  exact ⟨d, h1, h3, h4⟩

end PF.Props
