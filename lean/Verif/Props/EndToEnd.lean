import Verif.Proof.EndToEnd
import Verif.Proof.LedgerBalance
import Verif.Proof.DepositsEpoch

/-!
# Properties C76–C80: aggregator, contract and client together
-/

set_option linter.unusedSectionVars false

namespace PF.Props
open PF PF.MT PF.Agg PF.Spec PF.Client PF.Schnorr
variable {p q : Nat} {G : Type} [AddCommGroup G] [Module (ZMod q) G] [DecidableEq G]

/-! ## C76 -/

/-- **C76**: a successful `process_signatures` changes the amount held by a key other than the contract's by
exactly what the authorised transactions pay to the key minus what they take from it. -/
theorem C76_call (b : Build) (cv : Curve p q G) (hs : Hashes p) (s s' : Agg.State p q G) (h : Reach b cv hs s)
    (rollup : G) (l : List (Pair q G)) (hf : (Op.signatures rollup l).Fits s)
    (hr : processSignatures b cv hs rollup l s = (s', .ok ())) (k : G) (hk : k ≠ rollup)
    (c c' : Nat → UTXO Nat G) (hc : Represents cv hs s c) (hc' : Represents cv hs s' c') :
    heldBy c' UTXO_CAP k +
        ((approvedTxs cv hs rollup (txRoot cv hs s) s.transactions l).map fun x => paidBy k x.1).sum =
      heldBy c UTXO_CAP k +
        ((approvedTxs cv hs rollup (txRoot cv hs s) s.transactions l).map fun x => paidTo k x.1).sum := by
  obtain ⟨d, sc, hi⟩ := reach_inv h
  obtain ⟨d', sc', hi'⟩ := reach_inv (reach_signatures h l hf hr (by simp))
  cases hc.unique hi.represents
  cases hc'.unique hi'.represents
  rw [← paidBy_spentBy hk, ← paidTo_createdBy hk]
  refine held_of_counts k spentBy_real createdBy_real fun u hu => ?_
  rw [live_copies hi u hu, live_copies hi' u hu]
  exact C39_accounting b cv hs s s' h rollup l hf hr u hu

theorem history_real {b : Build} {cv : Curve p q G} {hs : Hashes p} {s : Agg.State p q G}
    {a m : List (UTXO Nat G)} (h : History b cv hs s a m) :
    (∀ u ∈ a, u.isDummy = false) ∧ ∀ u ∈ m, u.isDummy = false := by
  induction h with
  | new => simp
  | newEpoch h ih => exact ih
  | transactions l h hf hr ih => exact ih
  | signatures rollup l h hf hr ih =>
    constructor <;> intro u hu <;> rcases List.mem_append.1 hu with hu | hu
    · exact ih.1 u hu
    · exact spentBy_real u hu
    · exact ih.2 u hu
    · exact createdBy_real u hu
  | failed rollup done x rest e tx us u vs h hf hr hr1 hr2 htx hus hc hnc ih =>
    constructor <;> intro v hv <;> rcases List.mem_append.1 hv with hv | hv
    · rcases List.mem_append.1 hv with hv | hv
      · exact ih.1 v hv
      · exact spentBy_real v hv
    · have := (List.mem_filter.1 hv).2
      unfold UTXO.onLedger at this
      have := (Bool.and_eq_true _ _ ▸ this : (!v.isDummy) = true ∧ _).1
      simpa using this
    · exact ih.2 v hv
    · exact createdBy_real v hv

/-- **C76** over every history, including failed calls: what a key holds plus what was consumed from it is
what was created for it. -/
theorem C76_history (b : Build) (cv : Curve p q G) (hs : Hashes p) (s : Agg.State p q G)
    (a m : List (UTXO Nat G)) (h : History b cv hs s a m) (k : G) (c : Nat → UTXO Nat G)
    (hc : Represents cv hs s c) :
    heldBy c UTXO_CAP k + totalOf (a.filter fun u => u.pk = k) = totalOf (m.filter fun u => u.pk = k) := by
  have hR := (C39_history_iff_reach b cv hs s).2 ⟨a, m, h⟩
  obtain ⟨d, sc, hi⟩ := reach_inv hR
  cases hc.unique hi.represents
  obtain ⟨h1, h2⟩ := history_real h
  have := held_of_counts (c := fun _ => UTXO.dummy) (c' := c) (n := UTXO_CAP) k h1 h2 (fun u hu => by
    rw [live_copies hi u hu, C39_history b cv hs s a m h u hu]
    have : copies (fun _ => (UTXO.dummy : UTXO Nat G)) UTXO_CAP u = 0 := by
      unfold copies
      rw [List.countP_eq_zero]
      intro i _
      simp only [decide_eq_true_eq]
      rintro rfl
      simp [UTXO.dummy] at hu
    rw [this, Nat.zero_add])
  rw [this, heldBy_real]
  have : realSlots (fun _ => (UTXO.dummy : UTXO Nat G)) UTXO_CAP = [] := by
    unfold realSlots
    rw [List.filter_eq_nil_iff]
    intro u hu
    obtain ⟨i, _, rfl⟩ := List.mem_map.1 hu
    simp [UTXO.dummy]
  rw [this]
  simp [totalOf]

/-- **C76** over histories without failed calls: what a key holds is what the authorised transactions paid
to it minus what they took from it. -/
theorem C76_balance (b : Build) (cv : Curve p q G) (hs : Hashes p) (rollup : G) (s : Agg.State p q G)
    (ts : List (Tx Nat G)) (h : Executed b cv hs rollup s ts) (k : G) (hk : k ≠ rollup)
    (c : Nat → UTXO Nat G) (hc : Represents cv hs s c) :
    heldBy c UTXO_CAP k + (ts.map (paidBy k)).sum = (ts.map (paidTo k)).sum := by
  have key : ∃ a m, History b cv hs s a m ∧
      totalOf (a.filter fun u => u.pk = k) = (ts.map (paidBy k)).sum ∧
      totalOf (m.filter fun u => u.pk = k) = (ts.map (paidTo k)).sum := by
    clear hc
    induction h with
    | new => exact ⟨[], [], History.new, rfl, rfl⟩
    | newEpoch h ih => obtain ⟨a, m, h1, h2⟩ := ih; exact ⟨a, m, h1.newEpoch, h2⟩
    | transactions l h hf hr ih =>
      obtain ⟨a, m, h1, h2⟩ := ih; exact ⟨a, m, History.transactions l h1 hf hr, h2⟩
    | signatures l h hf hr ih =>
      obtain ⟨a, m, h1, h2, h3⟩ := ih
      refine ⟨_, _, History.signatures rollup l h1 hf hr, ?_, ?_⟩
      · rw [List.filter_append, Agg.totalOf_append, h2, paidBy_spentBy hk, List.map_append, List.sum_append,
          List.map_map]; rfl
      · rw [List.filter_append, Agg.totalOf_append, h3, paidTo_createdBy hk, List.map_append, List.sum_append,
          List.map_map]; rfl
  obtain ⟨a, m, h1, h2, h3⟩ := key
  rw [← h2, ← h3]
  exact C76_history b cv hs s a m h1 k c hc

/-! ## C77 -/

theorem clean_total {us : List (UTXO Nat G)} (h : ∀ u ∈ us, u.isDummy = true → u.amount = 0) :
    (us.map (·.amount)).sum = totalOf us := by
  unfold totalOf
  congr 1
  apply List.map_congr_left
  intro u hu
  split
  · next hd => exact h u hu hd
  · rfl

theorem clean_received {t : Tx Nat G} (h : CleanTx t) (k : G) : receivedNat k t = paidTo k t :=
  clean_total fun u hu => h u (by
    unfold Tx.ios; exact List.mem_append_right _ (List.mem_filter.1 hu).1)

theorem clean_spent {t : Tx Nat G} (h : CleanTx t) (k : G) : spentNat k t = paidBy k t :=
  clean_total fun u hu => h u (by
    unfold Tx.ios; exact List.mem_append_left _ (List.mem_filter.1 hu).1)

theorem not_involved {k : G} {t : Tx Nat G} (h : Involves k t = false) : paidTo k t = 0 ∧ paidBy k t = 0 := by
  have h' : ∀ u ∈ t.ios, u.pk ≠ k := by
    intro u hu he
    have : Involves k t = true := List.any_eq_true.2 ⟨u, hu, by simpa using he⟩
    rw [h] at this; cases this
  constructor
  · unfold paidTo
    rw [List.filter_eq_nil_iff.2 fun u hu => by
      simpa using h' u (by unfold Tx.ios; exact List.mem_append_right _ hu)]
    rfl
  · unfold paidBy
    rw [List.filter_eq_nil_iff.2 fun u hu => by
      simpa using h' u (by unfold Tx.ios; exact List.mem_append_left _ hu)]
    rfl

theorem sum_involved {f : Tx Nat G → Int} (k : G) (hf : ∀ t, Involves k t = false → f t = 0)
    (ts : List (Tx Nat G)) : (ts.map f).sum = ((ts.filter (Involves k)).map f).sum := by
  induction ts with
  | nil => rfl
  | cons t ts ih =>
    cases h : Involves k t
    · simp [h, hf t h, ih]
    · simp [h, ih]

theorem sum_flat {α : Type} (l : List α) (f : α → List Int) :
    (l.flatMap f).sum = (l.map fun a => (f a).sum).sum := by
  induction l with
  | nil => rfl
  | cons a l ih => rw [List.flatMap_cons, List.sum_append, ih]; rfl

/-- **C77**: suppose all `process_signatures` calls of a history succeeded, and a client that starts with
balance 0 has shown to the circuit exactly the authorised transactions that involve its key `k`, in any order
and distribution over steps (together with any number of transactions that do not involve `k`), and their
dummies carry no amounts. Then its balance is what the ledger holds for `k`. -/
theorem C77_balance_is_ledger (h : FieldOk p) (b : Build) (P : Client.Params p) (cv : Curve p q G)
    (rollup : G) (s : Agg.State p q G) (ts : List (Tx Nat G)) (hx : Executed b cv P.hs rollup s ts)
    (c : Nat → UTXO Nat G) (hc : Represents cv P.hs s c) (k : G) (hk : k ≠ rollup) (n : Nat)
    (z z' : UState p) (hz : z.balance = 0) (as : List (UserAux p G)) (hpk : ∀ a ∈ as, a.pk = k)
    (hrun : Client.runSteps P cv n z (as.map UserAux.alloc) z')
    (hclean : ∀ t ∈ shownTxs as, CleanTx t)
    (hsame : ((shownTxs as).filter (Involves k)).Perm (ts.filter (Involves k))) :
    z'.balance = (heldBy c UTXO_CAP k : ZMod p) ∧
    (heldBy c UTXO_CAP k < p → z'.balance.val = heldBy c UTXO_CAP k) := by
  have hp : 0 < p := lt_of_lt_of_le (by norm_num) h.large
  have : NeZero p := ⟨by omega⟩
  have h1 := (C61_exact_integers h P cv n z z' as hrun).1
  rw [hz, ZMod.val_zero] at h1
  have h2 : exactBalance ((0 : Nat) : Int) as =
      ((shownTxs as).map fun t => (paidTo k t : Int) - (paidBy k t : Int)).sum := by
    unfold exactBalance shownTxs
    rw [List.map_flatMap, sum_flat]
    simp only [Nat.cast_zero, zero_add]
    congr 1
    apply List.map_congr_left
    intro a ha
    rw [List.map_map]
    congr 1
    apply List.map_congr_left
    intro t ht
    have := hclean t.1 (List.mem_flatMap.2 ⟨a, ha, List.mem_map_of_mem ht⟩)
    rw [hpk a ha, clean_received this, clean_spent this]
    rfl
  have h3 : ((shownTxs as).map fun t => (paidTo k t : Int) - (paidBy k t : Int)).sum =
      (ts.map fun t => (paidTo k t : Int) - (paidBy k t : Int)).sum := by
    have hf : ∀ t, Involves k t = false → (paidTo k t : Int) - (paidBy k t : Int) = 0 := by
      intro t ht
      obtain ⟨e1, e2⟩ := not_involved ht
      rw [e1, e2]; rfl
    rw [sum_involved k hf, sum_involved k hf ts]
    exact (hsame.map _).sum_eq
  have h4 : (ts.map fun t => (paidTo k t : Int) - (paidBy k t : Int)).sum = (heldBy c UTXO_CAP k : Int) := by
    have := C76_balance b cv P.hs rollup s ts hx k hk c hc
    have e : ∀ us : List (Tx Nat G), (us.map fun t => (paidTo k t : Int) - (paidBy k t : Int)).sum =
        ((us.map (paidTo k)).sum : Int) - ((us.map (paidBy k)).sum : Nat) := by
      intro us
      induction us with
      | nil => rfl
      | cons t us ih => simp only [List.map_cons, List.sum_cons] at ih ⊢; rw [ih]; push_cast; ring
    rw [e]
    have : ((heldBy c UTXO_CAP k + (ts.map (paidBy k)).sum : Nat) : Int) = ((ts.map (paidTo k)).sum : Nat) := by
      rw [this]
    push_cast at this ⊢
    linarith
  have h5 : z'.balance = (heldBy c UTXO_CAP k : ZMod p) := by
    rw [h1, h2, h3, h4, Int.cast_natCast]
  refine ⟨h5, fun hlt => ?_⟩
  rw [h5, ZMod.val_natCast, Nat.mod_eq_of_lt hlt]

/-! ## C78 -/

/-- What a produced block commits to. -/
theorem produced_commits {b : Build} {cv : Curve p q G} {hs : Hashes p} (h : FieldOk p) {s : Agg.State p q G}
    {sc : Nat → G} (hs' : SignerLeaves b cv hs s sc) {ct : Contract.State G} {blk : Block (ZMod p)}
    (hb : produceBlock ct s = .ok blk) : Commits cv hs blk.alloc (txVars p s) sc := by
  have hp : 2 ^ 67 ≤ p := h.large
  obtain ⟨hR, -, c, hi⟩ := signerLeaves_inv hs'
  have h48 := C48_produce_block b cv hs s hR ct
  by_cases hreg : ∀ pk, (some pk ∈ s.signers ∨ pk ∈ s.deposits.map (·.1) ∨ pk ∈ s.withdrawals.map (·.1)) →
      Registered ct pk
  · obtain ⟨ur, sr, h1, h2, h3⟩ := h48.1 hreg
    rw [hb] at h3
    cases h3
    refine ⟨?_, ?_, ?_⟩
    · show RootOf hs (txEncVar cv) 13 (txVars p s) (txRoot cv hs s)
      rw [← tx_root_var]
      rfl
    · have := hi.signer.rootHash (ε := Unit)
      rw [h2] at this
      cases this
      show RootOf hs (pkEncVar cv) 13 sc (merkleRoot (pkCRH cv hs.crh) hs.h2 13 sc)
      rw [← signer_root_var]
      rfl
    · show ((s.height : Nat) : ZMod p).val + 1 ≤ (p - 1) / 2
      rw [reach_height hR, Nat.cast_zero, ZMod.val_zero]
      omega
  · rw [h48.2 hreg] at hb
    cases hb

theorem txVars_some {s : Agg.State p q G} {i : Nat} {t : Tx Nat G} (h : s.transactions[i]? = some t) :
    txVars p s i = t.alloc p := by
  unfold txVars; rw [h]; rfl

theorem alloc_getSigner (t : Tx Nat G) : (t.alloc p).getSigner = t.getSigner := by
  unfold Tx.getSigner
  have : (t.alloc p).inputs.toList = t.inputs.toList.map (UTXO.alloc p) := by simp [Tx.alloc, vmap]
  rw [this, List.foldl_map]
  rfl

/-- **C78**: a client that takes paths for transactions of a produced block from the aggregator's two trees,
in the order of the block and after the position it has already processed, showing for each of them a position
at which the signer tree holds the sender's key, is always accepted, with any number of padding entries up to
the step size, and its balance and nonce change as the transactions say. -/
theorem C78_honest_client (h : FieldOk p) (b : Build) (P : Client.Params p) (cv : Curve p q G)
    (s : Agg.State p q G) (sc : Nat → G) (hs : SignerLeaves b cv P.hs s sc) (ct : Contract.State G)
    (blk : Block (ZMod p)) (hb : produceBlock ct s = .ok blk) (k : G) (hk : k ≠ 0) (z : UState p)
    (hz : ReadyFor cv P.hs k blk.alloc.height z) (n : Nat) (xs : List (Nat × Nat)) (hn : xs.length ≤ n)
    (hx : ∀ x ∈ xs, (if P.hs.crh (blockEncVar blk.alloc) = z.prevBlockHash then z.prevTxIndex.val else 0) < x.1 ∧
      x.2 < CAP ∧ ∃ t, s.transactions[x.1]? = some t ∧ sc x.2 = t.getSigner)
    (hinc : xs.Pairwise fun x y => x.1 < y.1) :
    ∃ aux z', assemble cv P.hs s blk k n xs = .ok aux ∧ aux.block = blk ∧ aux.pk = k ∧
      updateBalance P cv n z aux.alloc z' ∧
      z'.balance = z.balance + (xs.map fun x =>
        ((receivedNat k (s.transactions[x.1]?.getD Tx.default) : ZMod p) -
          (spentNat k (s.transactions[x.1]?.getD Tx.default) : ZMod p))).sum ∧
      z'.nonce = z.nonce +
        (xs.countP fun x => decide (k = (s.transactions[x.1]?.getD Tx.default).getSigner) : Nat) ∧
      ReadyFor cv P.hs k blk.alloc.height z' := by
  have hp : 2 ^ 67 ≤ p := h.large
  obtain ⟨hR, -, c, hi⟩ := signerLeaves_inv hs
  have hcap : s.transactions.length ≤ CAP := hi.txCap
  have hlt : ∀ x ∈ xs, x.1 < CAP := by
    intro x hxm
    obtain ⟨-, -, t, ht, -⟩ := hx x hxm
    have := (List.getElem?_eq_some_iff.1 ht).1
    exact lt_of_lt_of_le this hcap
  obtain ⟨aux, e1, e2, e3, e4⟩ := assemble_eq hi blk k n xs fun x hxm => ⟨hlt x hxm, (hx x hxm).2.1⟩
  obtain ⟨z', f1, f2, f3, f4, f5, f6, f7⟩ := picks_step h P cv blk.alloc (txVars p s) sc
    (produced_commits h hs hb) k z hz (xs.map (pickOf s)) (by
      refine ⟨?_, ?_, ?_, ?_, ?_⟩
      · intro y hy
        obtain ⟨x, hxm, rfl⟩ := List.mem_map.1 hy
        exact nat_lt_half h (hlt x hxm)
      · intro y hy _
        obtain ⟨x, hxm, rfl⟩ := List.mem_map.1 hy
        show txVars p s (x.1 % CAP) = txVars p s x.1
        rw [Nat.mod_eq_of_lt (hlt x hxm)]
      · intro y hy _
        obtain ⟨x, hxm, rfl⟩ := List.mem_map.1 hy
        obtain ⟨-, h2, t, h3, h4⟩ := hx x hxm
        refine ⟨h2, ?_⟩
        show sc x.2 = (txVars p s x.1).getSigner
        rw [h4, txVars_some h3, alloc_getSigner]
      · intro y hy _
        obtain ⟨x, hxm, rfl⟩ := List.mem_map.1 hy
        exact (hx x hxm).1
      · rw [List.pairwise_map]
        exact hinc.imp fun hlt _ _ => hlt)
  refine ⟨aux, z', e1, e2, e3, ?_, ?_, ?_, ?_⟩
  · rw [e4]
    have e5 : (xs.map fun x => (pickOf s x).shown cv P.hs (txVars p s) sc) =
        (xs.map (pickOf s)).map (Pick.shown cv P.hs (txVars p s) sc) := by rw [List.map_map]; rfl
    have e6 : n = xs.length + (n - xs.length) := by omega
    have := (pads_inert h P cv xs.length (n - xs.length) blk.alloc k hk
      ((xs.map (pickOf s)).map (Pick.shown cv P.hs (txVars p s) sc)) z z' hz.index).2
      (by simpa using f1)
    rw [← e6, ← e5] at this
    exact this
  · rw [f2, List.map_map]
    congr 2
    apply List.map_congr_left
    intro x _
    show delta k (txVars p s x.1) = _
    unfold delta txVars
    rw [received_alloc, spent_alloc]
  · rw [f3]
    congr 2
    unfold signedBy
    rw [List.countP_map, List.countP_map]
    congr 1
    funext x
    show decide (k = (txVars p s x.1).getSigner) = _
    unfold txVars
    rw [alloc_getSigner]
  · exact ⟨f4.trans hz.key, by rw [f6], f7⟩

/-- **C78**: for every list of positions after the first one whose transactions were accepted with the
sender's own pair, in block order, a user without progress on this block can process them all. -/
theorem C78_accepted_transactions (h : FieldOk p) (b : Build) (P : Client.Params p) (cv : Curve p q G)
    (s : Agg.State p q G) (sc : Nat → G) (hs : SignerLeaves b cv P.hs s sc) (ct : Contract.State G)
    (blk : Block (ZMod p)) (hb : produceBlock ct s = .ok blk) (k : G) (hk : k ≠ 0) (z : UState p)
    (hz : ReadyFor cv P.hs k blk.alloc.height z)
    (hnew : P.hs.crh (blockEncVar blk.alloc) = z.prevBlockHash → z.prevTxIndex = 0)
    (n : Nat) (is : List Nat) (hn : is.length ≤ n)
    (hx : ∀ i ∈ is, 0 < i ∧ ∃ t, s.transactions[i]? = some t ∧ s.signers[i]? = some (some t.getSigner))
    (hinc : is.Pairwise (· < ·)) :
    ∃ aux z', assemble cv P.hs s blk k n (is.map fun i => (i, i)) = .ok aux ∧ aux.block = blk ∧ aux.pk = k ∧
      updateBalance P cv n z aux.alloc z' ∧
      z'.balance = z.balance + (is.map fun i =>
        ((receivedNat k (s.transactions[i]?.getD Tx.default) : ZMod p) -
          (spentNat k (s.transactions[i]?.getD Tx.default) : ZMod p))).sum := by
  obtain ⟨hR, ho, c, hi⟩ := signerLeaves_inv hs
  obtain ⟨aux, z', e1, e2, e3, e4, e5, -⟩ := C78_honest_client h b P cv s sc hs ct blk hb k hk z hz n
    (is.map fun i => (i, i)) (by simpa using hn) (by
      intro x hxm
      obtain ⟨i, him, rfl⟩ := List.mem_map.1 hxm
      obtain ⟨h0, t, ht, hsg⟩ := hx i him
      refine ⟨?_, ?_, t, ht, ?_⟩
      · split
        · next he => rw [hnew he, ZMod.val_zero]; exact h0
        · exact h0
      · exact lt_of_lt_of_le (List.getElem?_eq_some_iff.1 ht).1 hi.txCap
      · show sc i = _
        rw [← ho]
        unfold overlay
        rw [hsg]) (by rw [List.pairwise_map]; exact hinc)
  exact ⟨aux, z', e1, e2, e3, e4, by rw [e5, List.map_map]; rfl⟩

/-! ## C79 -/

/-- **C79** (soundness): a transaction counted in an accepted step about a produced block is one of the
transactions the aggregator accepted into the epoch, at the position claimed for it, and the key of its
sender is a leaf of the signer tree, or a collision of a hash function is exhibited. -/
theorem C79_counted_listed (h : FieldOk p) (b : Build) (P : Client.Params p) (cv : Curve p q G)
    (s : Agg.State p q G) (sc : Nat → G) (hs : SignerLeaves b cv P.hs s sc) (ct : Contract.State G)
    (blk : Block (ZMod p)) (hb : produceBlock ct s = .ok blk) (n : Nat) (z z' : UState p)
    (a : UserAuxVar p G) (ha : a.block = blk.alloc) (hstep : updateBalance P cv n z a z')
    (x : Shown p G) (hx : x ∈ a.shown) (hcnt : x.counts cv P.hs = true) :
    (∃ t j, s.transactions[x.position]? = some t ∧ x.tx = t.alloc p ∧ j < CAP ∧ sc j = t.getSigner) ∨
    Collides P.hs.crh (txEncVar cv x.tx)
      (txEncVar cv ((s.transactions[x.position]?.getD Tx.default).alloc p)) ∨
    PathCollision P.hs.h2 x.txPath (truePath (fun t => P.hs.crh (txEncVar cv t)) P.hs.h2 13
      (fun i => (s.transactions[i]?.getD Tx.default).alloc p) x.position) ∨
    ∃ j, j < CAP ∧ (Collides P.hs.crh (pkEncVar cv x.tx.getSigner) (pkEncVar cv (sc j)) ∨
      PathCollision P.hs.h2 x.signerPath
        (truePath (fun k => P.hs.crh (pkEncVar cv k)) P.hs.h2 13 sc j)) := by
  have hcm := produced_commits h hs hb
  rw [← ha] at hcm
  obtain ⟨-, -, hinc⟩ := C66_inclusion h P cv n z z' a hstep
  rcases hinc (txVars p s) hcm.txs x hx hcnt with e | e | e
  · obtain ⟨j, hj, e'⟩ := C67_signer_somewhere h P cv n z z' a hstep sc hcm.signers x hx hcnt
    rcases e' with e' | e' | e'
    · left
      cases ht : s.transactions[x.position]? with
      | none =>
        exfalso
        have : txVars p s x.position = Tx.default := by
          unfold txVars; rw [ht]; exact AggC.default_alloc
        rw [this] at e
        unfold Shown.counts at hcnt
        rw [e] at hcnt
        simp at hcnt
      | some t =>
        rw [txVars_some ht] at e
        exact ⟨t, j, rfl, e, hj, by rw [e', e, alloc_getSigner]⟩
    · right; right; right; exact ⟨j, hj, Or.inl e'⟩
    · right; right; right; exact ⟨j, hj, Or.inr e'⟩
  · right; left; exact e
  · right; right; left; exact e

/-- **C79** (completeness): conversely every transaction after the first one whose sender's key is a leaf of
the signer tree, wherever and whyever, can be counted by every user that has made no progress on the block. -/
theorem C79_listed_countable (h : FieldOk p) (b : Build) (P : Client.Params p) (cv : Curve p q G)
    (s : Agg.State p q G) (sc : Nat → G) (hs : SignerLeaves b cv P.hs s sc) (ct : Contract.State G)
    (blk : Block (ZMod p)) (hb : produceBlock ct s = .ok blk) (k : G) (hk : k ≠ 0) (z : UState p)
    (hz : ReadyFor cv P.hs k blk.alloc.height z)
    (hnew : P.hs.crh (blockEncVar blk.alloc) = z.prevBlockHash → z.prevTxIndex = 0)
    (i j : Nat) (t : Tx Nat G) (hi : 0 < i) (ht : s.transactions[i]? = some t) (hj : j < CAP)
    (hsig : sc j = t.getSigner) (n : Nat) (hn : 0 < n) :
    ∃ aux z', assemble cv P.hs s blk k n [(i, j)] = .ok aux ∧ aux.block = blk ∧ aux.pk = k ∧
      updateBalance P cv n z aux.alloc z' ∧
      z'.balance = z.balance + ((receivedNat k t : ZMod p) - (spentNat k t : ZMod p)) ∧
      (NotPadding cv P.hs (t.alloc p) →
        ∃ x ∈ aux.alloc.shown, x.tx = t.alloc p ∧ x.position = i ∧ x.counts cv P.hs = true) := by
  have hp : 2 ^ 67 ≤ p := h.large
  obtain ⟨hR, -, c, hiv⟩ := signerLeaves_inv hs
  have hic : i < CAP := lt_of_lt_of_le (List.getElem?_eq_some_iff.1 ht).1 hiv.txCap
  obtain ⟨aux, z', e1, e2, e3, e4, e5, -⟩ := C78_honest_client h b P cv s sc hs ct blk hb k hk z hz n [(i, j)]
    (show 1 ≤ n from hn) (by
      intro x hx
      rw [List.mem_singleton.1 hx]
      refine ⟨?_, hj, t, ht, hsig⟩
      split
      · next he => rw [hnew he, ZMod.val_zero]; exact hi
      · exact hi) (List.pairwise_singleton _ _)
  refine ⟨aux, z', e1, e2, e3, e4, ?_, fun hnp => ?_⟩
  · rw [e5]
    simp [ht]
  · obtain ⟨aux', f1, -, -, f4⟩ := assemble_eq hiv blk k n [(i, j)] (by simpa using ⟨hic, hj⟩)
    rw [e1] at f1
    cases f1
    refine ⟨(pickOf s (i, j)).shown cv P.hs (txVars p s) sc, ?_, txVars_some ht, ?_, ?_⟩
    · rw [f4, mkAux_shown]; simp
    · show ((i : ZMod p)).val % CAP = i
      rw [ZMod.val_natCast, Nat.mod_eq_of_lt (show i < p by have : i < 4096 := hic; omega), Nat.mod_eq_of_lt hic]
    · rw [shown_counts]
      unfold Pick.real
      show P.hs.crh (txEncVar cv (txVars p s i)) ≠ _
      rw [txVars_some ht]
      exact hnp

/-- A user with key `k` and no history. -/
def freshUser (cv : Curve p q G) (hs : Hashes p) (k : G) : UState p := ⟨0, 0, hs.crh (pkEncVar cv k), 0, 0, 0, 0⟩

theorem fresh_ready (cv : Curve p q G) (hs : Hashes p) (k : G) (m : ZMod p) :
    ReadyFor cv hs k m (freshUser cv hs k) :=
  ⟨rfl, by simp [freshUser], by simp [freshUser]⟩

theorem deposit_getSigner (rollup k : G) (m : Nat) : (depositTx rollup k m).getSigner = rollup := by
  simp [depositTx, Tx.getSigner, UTXO.new, UTXO.dummy, Circuit.select]

theorem paidTo_deposit (rollup k k' : G) (m : Nat) : paidTo k (depositTx rollup k' m) = if k' = k then m else 0 := by
  unfold paidTo depositTx
  by_cases h : k' = k <;> by_cases h0 : (0 : G) = k <;>
    simp [List.filter_cons, UTXO.new, UTXO.dummy, totalOf, h, h0]

theorem paidBy_deposit {rollup k : G} (hk : k ≠ rollup) (k' : G) (m : Nat) :
    paidBy k (depositTx rollup k' m) = 0 := by
  unfold paidBy depositTx
  by_cases h0 : (0 : G) = k <;> simp [List.filter_cons, UTXO.new, UTXO.dummy, totalOf, hk.symm, h0]

theorem receivedNat_deposit (rollup k : G) (m : Nat) : receivedNat k (depositTx rollup k m) = m := by
  unfold receivedNat depositTx
  by_cases h0 : (0 : G) = k <;> simp [List.filter_cons, UTXO.new, UTXO.dummy, h0]

theorem spentNat_deposit {rollup k : G} (hk : k ≠ rollup) (m : Nat) : spentNat k (depositTx rollup k m) = 0 := by
  unfold spentNat depositTx
  by_cases h0 : (0 : G) = k <;> simp [List.filter_cons, UTXO.new, UTXO.dummy, hk.symm, h0]

end PF.Props
