import Verif.Props.Lifetime
import Verif.Props.Padding
import Verif.Props.Withheld

/-!
# Property C114: what can still be executed and proved
-/
set_option linter.unusedSectionVars false

namespace PF.Props
open PF PF.MT PF.Agg PF.Spec PF.AggC PF.Contract
variable {p q : Nat} {G : Type} [AddCommGroup G] [Module (ZMod q) G] [DecidableEq G]

/-- Requests of users, each a transaction with its sender, that an aggregator in the state `s` may serve in this
order with the contract `st`: they are valid and free of overflow, the sender is the contract or holds a secret
key, all keys are registered, and each finds its inputs among the UTXOs in the ledger and those created before. -/
structure Requests (b : Build) (P : Params p G) (cv : Curve p q G) (s : Agg.State p q G) (st : Contract.State G)
    (ts : List (G × Tx Nat G)) : Prop where
  valid : ∀ x ∈ ts, x.2.isValid b (some x.1) = .ok ()
  amounts : ∀ x ∈ ts, x.2.U64Amounts
  sums : ∀ x ∈ ts, totalOf x.2.inputs.toList < U64 ∧ totalOf x.2.outputs.toList < U64
  keys : ∀ x ∈ ts, x.1 = P.contract ∨ ∃ sk : ZMod q, x.1 = sk • cv.gen
  registered : ∀ x ∈ ts, Registered st x.1 ∧ ∀ u ∈ x.2.outputs.toList, u.isDummy = false → Registered st u.pk
  affordable : Affordable P.contract (live s) (ts.map (·.2))

/-- Placing items on free positions, with gaps. -/
theorem spread {α : Type} (free : Nat → Bool) (n : Nat) : ∀ (i : Nat) (ts : List α),
    ts.length ≤ (List.range' i n).countP free →
    ∃ L : List (Option α), L.length ≤ n ∧ (L.filterMap fun o => o) = ts ∧
      ∀ (k : Nat) (x : α), L[k]? = some (some x) → free (i + k) = true := by
  induction n with
  | zero =>
    intro i ts h
    have : ts = [] := by simpa using h
    exact ⟨[], by simp, by simp [this], by simp⟩
  | succ n ih =>
    intro i ts h
    rcases ts with _ | ⟨t, ts⟩
    · exact ⟨[], by simp, by simp, by simp⟩
    rw [List.range'_succ, List.countP_cons] at h
    by_cases hf : free i = true
    · obtain ⟨L, h1, h2, h3⟩ := ih (i + 1) ts (by simpa [hf] using h)
      refine ⟨some t :: L, by simp [h1], by simp [h2], fun k x hk => ?_⟩
      rcases k with _ | k
      · exact hf
      · have := h3 k x (by simpa using hk)
        rwa [show i + 1 + k = i + (k + 1) by omega] at this
    · obtain ⟨L, h1, h2, h3⟩ := ih (i + 1) (t :: ts) (by simpa [hf] using h)
      refine ⟨none :: L, by simp [h1], by simp [h2], fun k x hk => ?_⟩
      rcases k with _ | k
      · simp at hk
      · have := h3 k x (by simpa using hk)
        rwa [show i + 1 + k = i + (k + 1) by omega] at this

theorem free_count (sc : Nat → G) :
    (List.range' 0 TX_CAP).countP (fun j => decide (sc j = 0)) = TX_CAP - signedPositions sc := by
  have h := List.length_eq_countP_add_countP (fun j => decide (sc j ≠ 0)) (l := List.range TX_CAP)
  unfold signedPositions
  rw [← List.range_eq_range']
  rw [List.length_range] at h
  have e : (fun a => !decide (sc a ≠ 0)) = fun j => decide (sc j = 0) := by funext a; simp
  have e' : (List.range TX_CAP).countP (fun a => decide ¬ (decide (sc a ≠ 0)) = true) =
      (List.range TX_CAP).countP (fun j => decide (sc j = 0)) := by
    congr 1; funext a; simp
  rw [e'] at h
  omega

/-- Submitting valid transactions at the start of an epoch. -/
theorem submit_valid {b : Build} {cv : Curve p q G} {hs : Hashes p} {s : Agg.State p q G} (hr : Reach b cv hs s)
    (hstart : EpochStart s) (txs : List (G × Tx Nat G)) (hcap : txs.length ≤ TX_CAP)
    (hv : ∀ x ∈ txs, x.2.isValid b (some x.1) = .ok ()) :
    ∃ s1, processTransactions b cv hs txs s = (s1, .ok ()) ∧ Reach b cv hs s1 ∧
      s1.transactions = txs.map (·.2) ∧ s1.ledger = s.ledger ∧ s1.signers = [] ∧ s1.deposits = [] ∧
      s1.withdrawals = [] := by
  obtain ⟨c, sc, hi⟩ := reach_inv hr
  have hf1 : (Op.transactions txs : Op q G).Fits s := by
    show s.transactions.length + txs.length ≤ TX_CAP
    rw [hstart.transactions]; simpa using hcap
  obtain ⟨done, rest, t, prs, e1, e2, _, o, e4, e5⟩ := processTransactions_spec (b := b) txs _ hi hf1
  rcases e5 with ⟨rfl, rfl⟩ | ⟨x, rest', rfl, hx, rfl⟩
  · rw [List.append_nil] at e1
    subst e1
    refine ⟨_, e4, reach_transactions hr _ hf1 e4 (by simp), ?_, rfl, hstart.signers, hstart.deposits,
      hstart.withdrawals⟩
    simp [hstart.transactions]
  · exact absurd (hv x (by rw [e1]; simp)) hx

/-- What is approved when exactly the items that are not gaps are approved. -/
theorem approved_items {cv : Curve p q G} {hs : Hashes p} {rollup : G} {f : ZMod p} (k0 : G)
    (ans : Option (G × Tx Nat G) → Pair q G) (hkey : ∀ x, (ans (some x)).1 = x.1) :
    ∀ L : List (Option (G × Tx Nat G)),
    (∀ x, some x ∈ L → Approves cv hs rollup f x.2 (ans (some x)) = true) →
    (none ∈ L → Approves cv hs rollup f Tx.default (ans none) = false) →
    approvedTxs cv hs rollup f (L.map fun o => (o.getD (k0, Tx.default)).2) (L.map ans) =
      (L.filterMap fun o => o).map fun x => (x.2, x.1) := by
  intro L
  induction L with
  | nil => intro _ _; simp [approvedTxs]
  | cons o L ih =>
    intro h1 h2
    have ih := ih (fun x hx => h1 x (List.mem_cons_of_mem _ hx)) (fun h => h2 (List.mem_cons_of_mem _ h))
    rcases o with _ | x
    · simp only [List.map_cons, Option.getD_none, List.filterMap_cons]
      rw [approvedTxs_cons_neg (h2 (by simp)), ih]
    · simp only [List.map_cons, Option.getD_some, List.filterMap_cons]
      rw [approvedTxs_cons_pos (h1 x (by simp)), ih, hkey]

/-- **C114** (a free leaf is all it takes): from every reachable state, any requests, at most as many as the
signer tree has free leaves, can be executed in the next epoch, all of them and in this order, and the recorded
inputs prove the block produced: the aggregator lists them at the free positions, with default transactions in
between, and the senders answer. The only exception is that the pair `(0, 0)`, which stands for a missing
signature, is a valid signature of one of the transactions sent without signature and the transaction root of
the epoch. -/
theorem C114_can_execute [Fact q.Prime] (h : Sizes p q) (hpq : p ≤ q) (b : Build) (P : Params p G)
    (hfull : P.transferOnly = false) (cv : Curve p q G) (s : Agg.State p q G) (sc : Nat → G)
    (hsc : SignerLeaves b cv P.hs s sc) (hslots : s.ledger.next + TX_IO_SIZE * TX_CAP ≤ UTXO_CAP)
    (b' : Build) (k : G) (calls : List (Call G)) (st : Contract.State G)
    (hst : Contract.run b' (Contract.new k) calls = .ok st) (hpks : st.pks.length ≤ 2 ^ 32)
    (k0 : G) (hk0 : k0 ≠ P.contract) (ts : List (G × Tx Nat G)) (hts : Requests b P cv s st ts)
    (hfree : ts.length ≤ TX_CAP - signedPositions sc) :
    (∃ d : Agg.Executed p q G, d.From b cv P.hs P.contract s ∧ d.reg = st ∧
      d.executed cv P.hs P.contract = ts.map (fun x => (x.2, x.1)) ∧
      (∀ x ∈ d.txs, x ∈ ts ∨ x = (k0, Tx.default)) ∧ d.answers.map (·.1) = d.txs.map (·.1) ∧ ProvableFrom b P cv d ∧
      ProvableEpoch P cv (d.txs.map (·.2)) d.answers (txRoot cv P.hs d.mid) sc ∧
      ∀ z bs, StartState cv P.hs d.start (txRoot cv P.hs d.mid) z →
        bs.flatten = d.fin.ivcInputs.map CInputs.alloc → Proves P cv st d.block z bs) ∨
    ∃ (txs : List (G × Tx Nat G)) (s1 : Agg.State p q G) (x : G × Tx Nat G),
      processTransactions b cv P.hs txs (Agg.reset cv P.hs s) = (s1, .ok ()) ∧ x ∈ txs ∧
      (x = (k0, Tx.default) ∨ x ∈ ts ∧ x.1 = P.contract) ∧
      Schnorr.verify cv P.hs.crh x.1 (txEnc cv x.2 ++ [txRoot cv P.hs s1]) (0, 0) = true := by
  have hp0 : 0 < p := lt_of_lt_of_le (by decide) h.large
  obtain ⟨L, l1, l2, l3⟩ := spread (fun j => decide (sc j = 0)) TX_CAP 0 ts (by rw [free_count]; exact hfree)
  simp only [Nat.zero_add, decide_eq_true_eq] at l3
  have hin : ∀ x, some x ∈ L → x ∈ ts := fun x hx => by
    rw [← l2]; exact List.mem_filterMap.2 ⟨some x, hx, rfl⟩
  have hsc0 := reset_leaves hsc
  obtain ⟨hR, _⟩ := signerLeaves_inv hsc0
  have hstart := reset_start cv P.hs s
  obtain ⟨txs, htxs⟩ : ∃ txs, txs = L.map fun o => o.getD (k0, Tx.default) := ⟨_, rfl⟩
  have hmem : ∀ x ∈ txs, x ∈ ts ∨ x = (k0, Tx.default) := by
    intro x hx
    rw [htxs] at hx
    obtain ⟨o, ho, rfl⟩ := List.mem_map.1 hx
    rcases o with _ | y
    · exact .inr rfl
    · exact .inl (hin y ho)
  have hlen : txs.length ≤ TX_CAP := by rw [htxs]; simpa using l1
  obtain ⟨s1, h1, hR1, t1, t2, t3, t4, t5⟩ := submit_valid hR hstart txs hlen (by
    intro x hx
    rcases hmem x hx with hx | rfl
    · exact hts.valid x hx
    · exact default_valid b k0)
  by_cases hz : ∃ x ∈ txs, (x = (k0, Tx.default) ∨ x ∈ ts ∧ x.1 = P.contract) ∧
      Schnorr.verify cv P.hs.crh x.1 (txEnc cv x.2 ++ [txRoot cv P.hs s1]) (0, 0) = true
  · obtain ⟨x, a1, a2, a3⟩ := hz
    exact .inr ⟨txs, s1, x, h1, a1, a2, a3⟩
  left
  push_neg at hz
  have hsig : ∀ x : G × Tx Nat G, ∃ y : Pair q G, y.1 = x.1 ∧ (x ∈ ts →
      Approves cv P.hs P.contract (txRoot cv P.hs s1) x.2 y = true ∧ (x.1 = P.contract → y.2 = none)) := by
    intro x
    by_cases hx : x.1 = P.contract
    · exact ⟨(x.1, none), rfl, fun _ => ⟨by simp [Approves, hx], fun _ => rfl⟩⟩
    · by_cases hm : x ∈ ts
      · rcases hts.keys x hm with e | ⟨sk, e⟩
        · exact absurd e hx
        · obtain ⟨sig, hs⟩ := exists_sig cv hp0 hpq P.hs.crh sk (txEnc cv x.2 ++ [txRoot cv P.hs s1])
          rw [← e] at hs
          exact ⟨(x.1, some sig), rfl, fun _ => ⟨by simp [Approves, hs], fun e => absurd e hx⟩⟩
      · exact ⟨(x.1, none), rfl, fun e => absurd e hm⟩
  choose ans hans1 hans2 using hsig
  obtain ⟨l, hl⟩ : ∃ l, l = L.map fun o => o.elim (k0, none) ans := ⟨_, rfl⟩
  have hnone : none ∈ L → Approves cv P.hs P.contract (txRoot cv P.hs s1) Tx.default (k0, none) = false := by
    intro hn
    have := hz (k0, Tx.default) (by rw [htxs]; exact List.mem_map.2 ⟨none, hn, rfl⟩) (.inl rfl)
    simp only [ne_eq, Bool.not_eq_true] at this
    unfold Approves
    simp only [Option.getD_none]
    rw [this]; simpa using hk0
  have happ : approvedTxs cv P.hs P.contract (txRoot cv P.hs s1) (txs.map (·.2)) l =
      ts.map fun x => (x.2, x.1) := by
    have := approved_items (cv := cv) (hs := P.hs) (rollup := P.contract) (f := txRoot cv P.hs s1) k0
      (fun o => o.elim (k0, none) ans) (fun x => hans1 x) L (fun x hx => (hans2 x (hin x hx)).1) hnone
    rw [l2] at this
    rw [htxs, hl, List.map_map]
    exact this
  have hll : l.length = txs.length := by rw [hl, htxs]; simp
  have hbal : ∀ x ∈ txs, OwnedBy x.1 x.2.inputs.toList ∧
      totalOf x.2.inputs.toList < U64 ∧ totalOf x.2.outputs.toList < U64 := by
    intro x hx
    rcases hmem x hx with hx | rfl
    · exact ⟨(valid_facts (hts.valid x hx) (.inr (hts.sums x hx))).1, hts.sums x hx⟩
    · exact ⟨default_owned k0, by simp [Tx.default, totalOf, UTXO.dummy, U64],
        by simp [Tx.default, totalOf, UTXO.dummy, U64]⟩
  have ham : ∀ x ∈ txs, x.2.U64Amounts := by
    intro x hx
    rcases hmem x hx with hx | rfl
    · exact hts.amounts x hx
    · intro u hu
      have hu : u = UTXO.dummy := by
        simp only [Tx.ios, Tx.default, Vector.toList_replicate, List.mem_append, List.mem_replicate] at hu
        exact hu.elim And.right And.right
      rw [hu]; show 0 < U64; decide
  have hzip : ∀ y ∈ (txs.map (·.2)).zip l, ∃ o ∈ L, y = ((o.getD (k0, Tx.default)).2, o.elim (k0, none) ans) := by
    intro y hy
    rw [htxs, hl, List.map_map, List.zip_map'] at hy
    obtain ⟨o, ho, rfl⟩ := List.mem_map.1 hy
    exact ⟨o, ho, rfl⟩
  have hslots' : (Agg.reset cv P.hs s).ledger.next + TX_IO_SIZE * txs.length ≤ UTXO_CAP :=
    le_trans (Nat.add_le_add_left (Nat.mul_le_mul_left _ hlen) _) hslots
  have hf : (Op.signatures P.contract l).Fits s1 := by
    refine ⟨?_, ?_⟩
    · rw [t3, hll]; simpa using hlen
    · rw [t2, hll]; exact hslots'
  have hlive : live s1 = live s := by
    funext u; unfold live positions; rw [t2]; rfl
  have hok : (processSignatures b cv P.hs P.contract l s1).2 = .ok () := by
    rw [C112_executes_iff b cv P.hs s1 hR1 P.contract l hf, t1, happ, hlive]
    refine ⟨by simp [hll], ?_, fun _ a ha => ?_⟩
    · rw [List.map_map]
      exact hts.affordable
    · obtain ⟨x, hx, rfl⟩ := List.mem_map.1 ha
      exact lt_of_le_of_lt (totalOf_filter_le _ _) (hts.sums x hx).2
  obtain ⟨s2, h2⟩ : ∃ s2, processSignatures b cv P.hs P.contract l s1 = (s2, .ok ()) := ⟨_, Prod.ext rfl hok⟩
  have hR2 := reach_signatures hR1 l hf h2 (by simp)
  have hsg := (C43_appends b cv P.hs s1 s2 hR1 P.contract l hf h2).2.1
  obtain ⟨hde, hwi⟩ := C42_records b cv P.hs s1 s2 hR1 P.contract l hf h2
  have hwi := hwi (.inr (by
    rw [t1]; intro t ht
    obtain ⟨x, hx, rfl⟩ := List.mem_map.1 ht
    exact lt_of_le_of_lt (totalOf_filter_le _ _) (hbal x hx).2.2))
  rw [t1, t4, happ, List.nil_append] at hde
  rw [t1, t5, happ, List.nil_append] at hwi
  rw [t3, t1, List.nil_append] at hsg
  obtain ⟨ur, sr, _, _, hblock⟩ := (C48_produce_block b cv P.hs s2 hR2 st).1 (by
    intro pk hpk
    rcases hpk with hm | hm | hm
    · rw [hsg] at hm
      obtain ⟨y, hy, e⟩ := List.mem_map.1 hm
      by_cases ha : Approves cv P.hs P.contract (txRoot cv P.hs s1) y.1 y.2 = true
      · rw [if_pos ha] at e
        have : (y.1, y.2.1) ∈ approvedTxs cv P.hs P.contract (txRoot cv P.hs s1) (txs.map (·.2)) l :=
          List.mem_map.2 ⟨y, List.mem_filter.2 ⟨hy, ha⟩, rfl⟩
        rw [happ] at this
        obtain ⟨x, hx, e'⟩ := List.mem_map.1 this
        have := (hts.registered x hx).1
        simp only [Prod.mk.injEq] at e'
        simp only [Option.some.injEq] at e
        rw [e'.2, e] at this; exact this
      · rw [if_neg ha] at e; simp at e
    · rw [hde] at hm
      obtain ⟨d, hd, e⟩ := List.mem_map.1 hm
      obtain ⟨a, ha, hd⟩ := List.mem_flatMap.1 hd
      obtain ⟨x, hx, rfl⟩ := List.mem_map.1 ha
      unfold Tx.depositsOf at hd
      split at hd
      · obtain ⟨u, hu, rfl⟩ := List.mem_map.1 hd
        obtain ⟨hu1, hu2⟩ := List.mem_filter.1 hu
        have hd : u.isDummy = false := by
          simpa using hu2
        rw [← e]; exact (hts.registered x hx).2 u hu1 hd
      · cases hd
    · rw [hwi] at hm
      obtain ⟨d, hd, e⟩ := List.mem_map.1 hm
      obtain ⟨a, ha, hd⟩ := List.mem_flatMap.1 hd
      obtain ⟨x, hx, rfl⟩ := List.mem_map.1 ha
      unfold Tx.withdrawalsOf at hd
      split at hd
      · cases hd
      · rw [← e, List.mem_singleton.1 hd]; exact (hts.registered x hx).1)
  have hkeys : l.map (·.1) = txs.map (·.1) := by
    rw [hl, htxs, List.map_map, List.map_map]
    refine List.map_congr_left fun o ho => ?_
    rcases o with _ | x
    · rfl
    · exact hans1 x
  have hpe : ProvableEpoch P cv (txs.map (·.2)) l (txRoot cv P.hs s1) sc := by
    refine honest_provable (b := b) ⟨?_, .inr fun x hx => (hbal x hx).2, ?_, ?_, ?_⟩ ?_ ?_
    · intro x hx
      exact ham x hx
    · exact hkeys
    · intro y hy hk
      obtain ⟨o, ho, rfl⟩ := hzip y hy
      rcases o with _ | x
      · exact absurd hk hk0
      · have hx := hin x ho
        have hk : x.1 = P.contract := (hans1 x).symm.trans hk
        left
        have := hz x (by rw [htxs]; exact List.mem_map.2 ⟨_, ho, rfl⟩) (.inr ⟨hx, hk⟩)
        simp only [ne_eq, Bool.not_eq_true] at this
        show Schnorr.verify cv P.hs.crh (ans x).1 (txEnc cv x.2 ++ _) ((ans x).2.getD (0, 0)) = false
        rw [(hans2 x hx).2 hk, hans1]
        exact this
    · intro y hy hk
      obtain ⟨o, ho, rfl⟩ := hzip y hy
      rcases o with _ | x
      · exact default_withdrawn _
      · have := (hans2 x (hin x ho)).1
        have hk : Approves cv P.hs P.contract (txRoot cv P.hs s1) x.2 (ans x) = false := hk
        rw [this] at hk; cases hk
    · intro x hx
      rcases hmem x hx with hx | rfl
      · exact hts.valid x hx
      · exact default_valid b k0
    · intro j tx y h3 h4 ha
      rw [htxs, List.map_map, List.getElem?_map] at h3
      rw [hl, List.getElem?_map] at h4
      cases ho : L[j]? with
      | none => rw [ho] at h3; simp at h3
      | some o =>
        rw [ho] at h3 h4
        rcases o with _ | x
        · simp at h3 h4
          subst h3; subst h4
          rw [hnone (List.mem_of_getElem? ho)] at ha; cases ha
        · exact l3 j x ho
  exact ⟨⟨Agg.reset cv P.hs s, s1, s2, txs, l, st, _⟩, ⟨rfl, h1, h2, hblock, hlen, hslots', le_of_eq hll⟩, rfl, happ,
    hmem, hkeys, ⟨ham, ⟨b', k, calls, hst, hpks⟩, sc, hsc0, hpe⟩, hpe, fun z bs hz' hbs =>
      C91_provable_if h hpq b P hfull cv _ s1 s2 sc hsc0 hstart txs l hlen hslots' (le_of_eq hll) ham h1 h2 b' k calls st
        hst hpks _ hblock z hz' bs hbs hpe⟩

/-- **C114** (finding, and then nothing): once all 4096 leaves of the signer tree are taken, no epoch of the
aggregator whose recorded inputs are accepted executes any transaction, however many epochs follow; or a
collision of the signer-tree hash is exhibited. -/
theorem C114_frozen (h : Sizes p q) (b : Build) (P : Params p G) (cv : Curve p q G)
    (ds : List (Agg.Executed p q G)) (s s' : Agg.State p q G) (hl : Lifetime b cv P.hs P.contract s ds s')
    (sc : Nat → G) (hsc : SignerLeaves b cv P.hs s sc) (hfull : ∀ j < 4096, sc j ≠ 0)
    (hk : ∀ d ∈ ds, ∀ y ∈ d.answers, y.1 ≠ 0) (hr : ∀ d ∈ ds, RecordedRun P cv d) :
    (∀ d ∈ ds, d.executed cv P.hs P.contract = []) ∨
    ∃ d ∈ ds, ∃ sc', SignerLeaves b cv P.hs d.start sc' ∧ Collision P.hs (pkEncVar cv) 13 sc'
      (signerUpds P cv (txRoot cv P.hs d.mid) 0 (d.fin.ivcInputs.map CInputs.alloc)) := by
  rcases C109_lifetime_bound h b P cv ds s s' hl sc hsc hk hr with hb | hc
  · left
    have e : signedPositions sc = TX_CAP := by
      unfold signedPositions
      rw [List.countP_eq_length.2, List.length_range]
      intro j hj
      simpa using hfull j (List.mem_range.1 hj)
    rw [e] at hb
    have : (ds.map fun d => (d.executed cv P.hs P.contract).length).sum = 0 := by omega
    intro d hd
    have := List.sum_eq_zero_iff.1 this _ (List.mem_map_of_mem hd)
    exact List.length_eq_zero_iff.1 this
  · exact .inr hc

/-- What an executed epoch does to the copies of a UTXO. -/
theorem epoch_live {b : Build} {cv : Curve p q G} {hs : Hashes p} {rollup : G} {s : Agg.State p q G}
    {d : Agg.Executed p q G} {sc : Nat → G} (hsc : SignerLeaves b cv hs s sc) (hd : d.From b cv hs rollup s)
    (u : UTXO Nat G) (hu : u.isDummy = false) :
    live d.fin u + (spentBy rollup (d.executed cv hs rollup)).count u =
      live s u + (createdBy rollup (d.executed cv hs rollup)).count u := by
  have h0 : SignerLeaves b cv hs d.start sc := by rw [hd.reset]; exact reset_leaves hsc
  have hst : EpochStart d.start := by rw [hd.reset]; exact reset_start cv hs s
  obtain ⟨c, c', sc', -, i1, i2, r, -, t1, t2, -, -, -, t6⟩ :=
    epoch_setup h0 hst hd.txCap hd.slots hd.answered hd.submit hd.sign
  have := Runs.live i1 i2 r u hu
  rw [List.drop_zero, t1] at this
  have e : live d.mid u = live s u := by
    unfold live positions; rw [t6, hd.reset]; rfl
  rw [e] at this
  exact this

/-- **C114** (the bound of C109 is met): from every reachable state, as many deposits as the signer tree has free
leaves — 4096 for a new aggregator — can be executed and proved in one epoch, after which no leaf is free (unless `(0, 0)` is a valid
signature, as in `C114_can_execute`). -/
theorem C114_capacity [Fact q.Prime] (h : Sizes p q) (hpq : p ≤ q) (b : Build) (P : Params p G)
    (hfull : P.transferOnly = false) (cv : Curve p q G) (s : Agg.State p q G) (sc : Nat → G)
    (hsc : SignerLeaves b cv P.hs s sc) (hslots : s.ledger.next + TX_IO_SIZE * TX_CAP ≤ UTXO_CAP)
    (b' : Build) (calls : List (Call G)) (st : Contract.State G)
    (hst : Contract.run b' (Contract.new P.contract) calls = .ok st) (hpks : st.pks.length ≤ 2 ^ 32)
    (owner : G) (ho : owner ≠ P.contract) (hreg : Registered st owner) (a : Nat) (ha : a < 2 ^ 64)
    (hz : ∀ m, Schnorr.verify cv P.hs.crh owner m (0, 0) = false)
    (hz' : ∀ m, Schnorr.verify cv P.hs.crh P.contract m (0, 0) = false) :
    ∃ d : Agg.Executed p q G, d.From b cv P.hs P.contract s ∧
      (d.executed cv P.hs P.contract).length = 4096 - signedPositions sc ∧
      live d.fin (UTXO.new owner a) = live s (UTXO.new owner a) + (4096 - signedPositions sc) ∧
      (P.contract ≠ 0 → owner ≠ 0 →
        ∃ sc', SignerLeaves b cv P.hs d.fin sc' ∧ ∀ j < 4096, sc' j ≠ 0) ∧
      ∀ z bs, StartState cv P.hs d.start (txRoot cv P.hs d.mid) z →
        bs.flatten = d.fin.ivcInputs.map CInputs.alloc → Proves P cv st d.block z bs := by
  have hsp := depositTx_spends P.contract owner a
  have hcr := depositTx_creates ho a
  have hregc : Registered st P.contract := by
    obtain ⟨r1, _, _, _, r2, _⟩ := C36_registry b' P.contract calls st hst
    unfold Registered
    by_contra hno
    have := (r2 P.contract).1 (by simpa using hno)
    rw [r1] at this; simp at this
  obtain ⟨n, hn⟩ : ∃ n, n = TX_CAP - signedPositions sc := ⟨_, rfl⟩
  have hmem : ∀ x ∈ List.replicate n (P.contract, depositTx P.contract owner a),
      x = (P.contract, depositTx P.contract owner a) := fun x hx => (List.mem_replicate.1 hx).2
  have hout : ∀ u ∈ (depositTx P.contract owner a).outputs.toList, u.isDummy = false → u = UTXO.new owner a := by
    intro u hu hd
    simp [depositTx] at hu
    rcases hu with rfl | rfl
    · rfl
    · simp [UTXO.dummy] at hd
  have hreq : Requests b P cv s st (List.replicate n (P.contract, depositTx P.contract owner a)) := by
    refine ⟨fun x hx => ?_, fun x hx => ?_, fun x hx => ?_, fun x hx => ?_, fun x hx => ?_, ?_⟩
    · rw [hmem x hx]; exact depositTx_valid b _ _ a ha
    · rw [hmem x hx]
      intro u hu
      simp [Tx.ios, depositTx] at hu
      rcases hu with rfl | rfl | rfl | rfl
      · exact ha
      · show 0 < U64; decide
      · exact ha
      · show 0 < U64; decide
    · rw [hmem x hx]
      constructor <;> (simp only [depositTx, totalOf, UTXO.new, UTXO.dummy]; simpa [U64] using ha)
    · rw [hmem x hx]; exact .inl rfl
    · rw [hmem x hx]
      exact ⟨hregc, fun u hu hd => by rw [hout u hu hd]; exact hreg⟩
    · rw [List.map_replicate]
      refine affordable_no_spends fun t ht => ?_
      rw [(List.mem_replicate.1 ht).2]; exact hsp
  rcases C114_can_execute h hpq b P hfull cv s sc hsc hslots b' P.contract calls st hst hpks owner ho _ hreq
    (by rw [List.length_replicate, hn]) with ⟨d, d1, d2, d3, d4, dk, d5, de, d6⟩ | ⟨txs, s1, x, x1, x2, x3, x4⟩
  · refine ⟨d, d1, by rw [d3]; simp [hn, TX_CAP], ?_, fun z1 z2 => ?_, d6⟩
    case refine_2 =>
      obtain ⟨-, e1, e2⟩ := epoch_leaves d1 hsc
      have hkey : ∀ y ∈ d.answers, y.1 ≠ 0 := by
        intro y hy
        have : y.1 ∈ d.txs.map (·.1) := dk ▸ List.mem_map_of_mem hy
        obtain ⟨x, hx, e⟩ := List.mem_map.1 this
        rw [← e]
        rcases d4 x hx with hx | rfl
        · rw [hmem x hx]; exact z1
        · exact z2
      refine ⟨_, e1, fun j hj => ?_⟩
      have hsp := signed_after e2 d1.txCap hkey (sc := sc) (fun k y hy ha =>
        have hy := List.getElem?_zip_eq_some.1 hy
        de.free k y.1 y.2 hy.1 hy.2 ha)
      have hle : signedPositions sc ≤ TX_CAP := by
        unfold signedPositions
        exact le_trans List.countP_le_length (by rw [List.length_range])
      rw [d3, List.length_map, List.length_replicate, hn, Nat.add_sub_cancel' hle] at hsp
      unfold signedPositions at hsp
      have := List.countP_eq_length.1 (hsp.trans List.length_range.symm) j (List.mem_range.2 hj)
      simpa using this
    have := epoch_live hsc d1 (UTXO.new owner a) rfl
    rw [d3] at this
    have e1 : spentBy P.contract ((List.replicate n (P.contract, depositTx P.contract owner a)).map
        fun x => (x.2, x.1)) = [] := by
      rw [List.map_replicate, spentBy, List.flatMap_eq_nil_iff]
      intro x hx
      rw [(List.mem_replicate.1 hx).2]; exact hsp
    have e2 : ∀ n, createdBy P.contract ((List.replicate n (P.contract, depositTx P.contract owner a)).map
        fun x => (x.2, x.1)) = List.replicate n (UTXO.new owner a) := by
      intro n
      rw [List.map_replicate, createdBy]
      induction n with
      | zero => rfl
      | succ n ih => rw [List.replicate_succ, List.flatMap_cons, ih, hcr, List.replicate_succ]; rfl
    rw [e1, e2, List.count_replicate_self, List.count_nil, Nat.add_zero, hn] at this
    exact this
  · rcases x3 with rfl | ⟨_, e⟩
    · rw [hz] at x4; cases x4
    · rw [e, hz'] at x4; cases x4

/-- **C114** (no UTXO is stuck while a leaf is free): from every reachable state in which the signer tree has a
free leaf, the holder of any UTXO can have it paid to any registered key, or withdrawn, in an epoch that executes
and is proved (unless `(0, 0)` is a valid signature of the default transaction used as padding). -/
theorem C114_spend [Fact q.Prime] (h : Sizes p q) (hpq : p ≤ q) (b : Build) (P : Params p G)
    (hfull : P.transferOnly = false) (cv : Curve p q G) (s : Agg.State p q G) (sc : Nat → G)
    (hsc : SignerLeaves b cv P.hs s sc) (hslots : s.ledger.next + TX_IO_SIZE * TX_CAP ≤ UTXO_CAP)
    (b' : Build) (k : G) (calls : List (Call G)) (st : Contract.State G)
    (hst : Contract.run b' (Contract.new k) calls = .ok st) (hpks : st.pks.length ≤ 2 ^ 32)
    (sk : ZMod q) (owner : G) (hsk : owner = sk • cv.gen) (ho : owner ≠ P.contract) (hreg : Registered st owner)
    (a : Nat) (ha : a < 2 ^ 64) (hlive : 0 < live s (UTXO.new owner a))
    (receiver : G) (hr : Registered st receiver) (j : Nat) (hj : j < 4096) (hfree : sc j = 0) :
    (∃ d : Agg.Executed p q G, d.From b cv P.hs P.contract s ∧
      d.executed cv P.hs P.contract = [(payTx owner receiver a, owner)] ∧
      (receiver ≠ P.contract → receiver ≠ owner → live d.fin (UTXO.new owner a) + 1 = live s (UTXO.new owner a) ∧
        live d.fin (UTXO.new receiver a) = live s (UTXO.new receiver a) + 1) ∧
      (receiver = P.contract → a ≠ 0 → live d.fin (UTXO.new owner a) + 1 = live s (UTXO.new owner a) ∧
        d.block.withdrawals = [(regIndex st owner, a)]) ∧
      ∀ z bs, StartState cv P.hs d.start (txRoot cv P.hs d.mid) z →
        bs.flatten = d.fin.ivcInputs.map CInputs.alloc → Proves P cv st d.block z bs) ∨
    ∃ (txs : List (G × Tx Nat G)) (s1 : Agg.State p q G),
      processTransactions b cv P.hs txs (Agg.reset cv P.hs s) = (s1, .ok ()) ∧ (owner, Tx.default) ∈ txs ∧
      Schnorr.verify cv P.hs.crh owner (txEnc cv Tx.default ++ [txRoot cv P.hs s1]) (0, 0) = true := by
  have hpay : (payTx owner receiver a).spends P.contract = [UTXO.new owner a] := by
    simp [payTx, Tx.spends, UTXO.onLedger, UTXO.dummy, UTXO.new, ho]
  have hreq : Requests b P cv s st [(owner, payTx owner receiver a)] := by
    refine ⟨fun x hx => ?_, fun x hx => ?_, fun x hx => ?_, fun x hx => ?_, fun x hx => ?_, ?_⟩
    · rw [List.mem_singleton.1 hx]; exact payTx_valid b _ _ a ha
    · rw [List.mem_singleton.1 hx]
      intro u hu
      simp [Tx.ios, payTx] at hu
      rcases hu with rfl | rfl | rfl | rfl
      · exact ha
      · show 0 < U64; decide
      · exact ha
      · show 0 < U64; decide
    · rw [List.mem_singleton.1 hx]
      constructor <;> (simp only [payTx, totalOf, UTXO.new, UTXO.dummy]; simpa [U64] using ha)
    · rw [List.mem_singleton.1 hx]; exact .inr ⟨sk, hsk⟩
    · rw [List.mem_singleton.1 hx]
      refine ⟨hreg, fun u hu hd => ?_⟩
      simp [payTx] at hu
      rcases hu with rfl | rfl
      · exact hr
      · simp [UTXO.dummy] at hd
    · rw [List.map_singleton, affordable_cons]
      refine ⟨fun u => ?_, affordable_nil _ _⟩
      rw [hpay, List.count_singleton]
      split
      · rename_i e
        rw [← eq_of_beq e]; exact hlive
      · exact Nat.zero_le _
  have hn : 1 ≤ TX_CAP - signedPositions sc := by
    rw [← free_count, List.one_le_countP_iff]
    refine ⟨j, ?_, by simpa using hfree⟩
    rw [← List.range_eq_range']
    exact List.mem_range.2 hj
  rcases C114_can_execute h hpq b P hfull cv s sc hsc hslots b' k calls st hst hpks owner ho _ hreq hn with
    ⟨d, d1, d2, d3, d4, _, d5, _, d6⟩ | ⟨txs, s1, x, x1, x2, x3, x4⟩
  · left
    have acc : ∀ u : UTXO Nat G, u.isDummy = false → live d.fin u + [UTXO.new owner a].count u =
        live s u + ((payTx owner receiver a).creates P.contract).count u := by
      intro u hu
      have := epoch_live hsc d1 u hu
      rw [d3] at this
      simpa [spentBy, createdBy, hpay] using this
    refine ⟨d, d1, by rw [d3]; rfl, fun h1 h2 => ?_, fun h1 h2 => ?_, d6⟩
    · have hc : (payTx owner receiver a).creates P.contract = [UTXO.new receiver a] := by
        simp [payTx, Tx.creates, UTXO.onLedger, UTXO.dummy, UTXO.new, h1]
      have hne : UTXO.new owner a ≠ UTXO.new receiver a := by
        simp [UTXO.new]; exact fun e => h2 e.symm
      have e1 := acc (UTXO.new owner a) rfl
      have e2 := acc (UTXO.new receiver a) rfl
      rw [hc] at e1 e2
      simp [List.count_singleton, hne, hne.symm] at e1 e2
      exact ⟨e1, e2⟩
    · subst h1
      have hc : (payTx owner P.contract a).creates P.contract = [] := by
        simp [payTx, Tx.creates, UTXO.onLedger, UTXO.dummy, UTXO.new]
      have e1 := acc (UTXO.new owner a) rfl
      rw [hc] at e1
      simp at e1
      refine ⟨e1, ?_⟩
      obtain ⟨sc', hsc', hok⟩ := d5.conditions
      have hstart : EpochStart d.start := by rw [d1.reset]; exact reset_start cv P.hs s
      obtain ⟨c, c', sc', -, -, -, r, r2, t1, -, -, t4, t5, -⟩ :=
        epoch_setup hsc' hstart d1.txCap d1.slots d1.answered d1.submit d1.sign
      obtain ⟨-, e2, e3⟩ := produced_shape r2 d1.produce
      have hwit := r.withdrawals (Or.inr (by rw [t1]; exact hok.fits))
      rw [t5, t1, List.drop_zero, List.nil_append] at hwit
      have hex : approvedTxs cv P.hs P.contract (txRoot cv P.hs d.mid) (d.txs.map (·.2)) d.answers =
        [(payTx owner P.contract a, owner)] := d3
      rw [hex] at hwit
      rw [e3, hwit, d2]
      have hw : (payTx owner P.contract a).withdrawn P.contract = a := by
        simp [payTx, Tx.withdrawn, totalOf, UTXO.dummy, UTXO.new, List.filter_cons]
        split <;> simp
      simp [withdrawalsBy, Tx.withdrawalsOf, hw, h2]
  · right
    rcases x3 with rfl | ⟨e, e'⟩
    · exact ⟨txs, s1, x1, x2, x4⟩
    · rw [List.mem_singleton.1 e] at e'
      exact absurd e' ho

end PF.Props
