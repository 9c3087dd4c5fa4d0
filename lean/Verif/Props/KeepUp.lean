import Verif.Spec.KeepUp
import Verif.Props.Lifetime
import Verif.Props.EndToEndDemo

/-!
# Property C115: an honest client keeps up with an honest aggregator
-/
set_option linter.unusedSectionVars false

namespace PF.Props
open PF PF.MT PF.Agg PF.Spec PF.Client
variable {p q : Nat} {G : Type} [AddCommGroup G] [Module (ZMod q) G] [DecidableEq G]

/-- The loop ends with the index it started with or that of a transaction shown. -/
theorem loop_last_index (cv : Curve p q G) (hs : Hashes p) (k : G) (xs : List (Shown p G)) (s : Loop p) :
    (loopAt cv hs k s xs).prevTxIndex = s.prevTxIndex ∨ ∃ x ∈ xs, (loopAt cv hs k s xs).prevTxIndex = x.index := by
  induction xs generalizing s with
  | nil => exact .inl rfl
  | cons x xs ih =>
    have e : loopAt cv hs k s (x :: xs) = loopAt cv hs k (s.after cv hs k x) xs := rfl
    rw [e]
    rcases ih (s.after cv hs k x) with h | ⟨y, hy, h⟩
    · rw [h]
      by_cases hc : x.counts cv hs = true
      · exact .inr ⟨x, by simp, by simp [Loop.after, hc]⟩
      · exact .inl (by simp [Loop.after, hc])
    · exact .inr ⟨y, by simp [hy], h⟩

/-- Indices shown in a step. -/
theorem shown_index {a : UserAux p G} {x : Shown p G} (hx : x ∈ a.alloc.shown) :
    ∃ t j, (t, j) ∈ a.transactions ∧ x.index = ((j : Nat) : ZMod p) := by
  unfold UserAuxVar.shown at hx
  obtain ⟨y, hy, rfl⟩ := List.mem_map.1 hx
  have h1 := (List.of_mem_zip (show (y.1, y.2) ∈ _ from hy)).1
  have h2 := (List.of_mem_zip (show (y.1.1, y.1.2) ∈ _ from h1)).1
  obtain ⟨w, hw, e⟩ := List.mem_map.1 (show y.1.1 ∈ a.transactions.map _ from h2)
  exact ⟨w.1, w.2, hw, by rw [← e]⟩

/-- All steps about one block. -/
theorem epoch_steps (h : FieldOk p) (b : Build) (P : Client.Params p) (cv : Curve p q G)
    {s : Agg.State p q G} {sc : Nat → G} (hsc : SignerLeaves b cv P.hs s sc) {ct : Contract.State G}
    {blk : Block (ZMod p)} (hb : produceBlock ct s = .ok blk) {k : G} (hk : k ≠ 0) (n : Nat)
    (pl : List (List Nat)) (z : UState p) (hz : ReadyFor cv P.hs k blk.alloc.height z)
    (hn : ∀ c ∈ pl, c.length ≤ n) (hinc : pl.flatten.Pairwise (· < ·))
    (hlo : ∀ i ∈ pl.flatten,
      (if P.hs.crh (blockEncVar blk.alloc) = z.prevBlockHash then z.prevTxIndex.val else 0) < i)
    (hx : ∀ i : Nat, i ∈ pl.flatten → ∃ t, s.transactions[i]? = some t ∧ s.signers[i]? = some (some t.getSigner)) :
    ∃ (as : List (UserAux p G)) (z' : UState p),
      List.Forall₂ (fun c a => assemble cv P.hs s blk k n (c.map fun i => (i, i)) = .ok a ∧ a.block = blk ∧ a.pk = k)
        pl as ∧
      Client.runSteps P cv n z (as.map UserAux.alloc) z' ∧
      z'.balance = z.balance + (pl.flatten.map fun i =>
        ((receivedNat k (s.transactions[i]?.getD Tx.default) : ZMod p) -
          (spentNat k (s.transactions[i]?.getD Tx.default) : ZMod p))).sum ∧
      z'.nonce = z.nonce +
        (pl.flatten.countP fun i => decide (k = (s.transactions[i]?.getD Tx.default).getSigner) : Nat) ∧
      z'.acc = (pl.map fun _ => P.hs.crh (blockEncVar blk.alloc)).foldl P.acc z.acc ∧
      ReadyFor cv P.hs k blk.alloc.height z' ∧
      (pl ≠ [] → z'.prevBlockHash = P.hs.crh (blockEncVar blk.alloc)) ∧ (pl = [] → z' = z) := by
  obtain ⟨hR, ho, c0, hi⟩ := signerLeaves_inv hsc
  induction pl generalizing z with
  | nil =>
    exact ⟨[], z, List.Forall₂.nil, rfl, by simp, by simp, rfl, hz, fun h => absurd rfl h, fun _ => rfl⟩
  | cons c pl ih =>
    rw [List.flatten_cons] at hinc hlo hx
    rw [List.pairwise_append] at hinc
    obtain ⟨hi1, hi2, hi3⟩ := hinc
    obtain ⟨a, z1, e1, e2, e3, e4, e5, e6, e7⟩ := C78_honest_client h b P cv s sc hsc ct blk hb k hk z hz n
      (c.map fun i => (i, i)) (by simpa using hn c (by simp)) (by
        intro x hxm
        obtain ⟨i, him, rfl⟩ := List.mem_map.1 hxm
        obtain ⟨t, ht, hsg⟩ := hx i (by simp [him])
        refine ⟨hlo i (by simp [him]), lt_of_lt_of_le (List.getElem?_eq_some_iff.1 ht).1 hi.txCap, t, ht, ?_⟩
        show sc i = _
        rw [← ho]
        unfold overlay
        rw [hsg]) (by rw [List.pairwise_map]; exact hi1)
    have hz1 := ((step_iff h P cv n z a.alloc z1).1 e4).2
    have hh : a.alloc.hash P.hs = P.hs.crh (blockEncVar blk.alloc) := by rw [← e2]; rfl
    have hprev : z1.prevBlockHash = P.hs.crh (blockEncVar blk.alloc) := by rw [hz1, ← hh]; rfl
    have hacc : z1.acc = P.acc z.acc (P.hs.crh (blockEncVar blk.alloc)) := by rw [hz1, ← hh]; rfl
    have hidx : ∀ i ∈ pl.flatten, z1.prevTxIndex.val < i := by
      intro i hii
      have hlow := hlo i (by simp [hii])
      have hz1i : z1.prevTxIndex = (loopAt cv P.hs a.alloc.pk (loopStart P.hs z a.alloc) a.alloc.shown).prevTxIndex := by
        rw [hz1]; rfl
      rcases loop_last_index cv P.hs a.alloc.pk a.alloc.shown (loopStart P.hs z a.alloc) with e | ⟨x, hxm, e⟩
      · rw [hz1i, e]
        show (startIndex P.hs z a.alloc).val < i
        unfold startIndex
        rw [hh]
        split at hlow
        · next h' => rw [if_pos h']; exact hlow
        · next h' => rw [if_neg h', ZMod.val_zero]; exact hlow
      · rw [hz1i, e]
        obtain ⟨t, j, hj, ej⟩ := shown_index hxm
        rw [ej, ZMod.val_natCast]
        refine lt_of_le_of_lt (Nat.mod_le _ _) ?_
        rw [assemble_txs e1] at hj
        rcases List.mem_append.1 hj with hj | hj
        · rw [List.map_map] at hj
          obtain ⟨j', hj', e'⟩ := List.mem_map.1 hj
          have : j' = j := congrArg Prod.snd e'
          rw [← this]
          exact hi3 j' hj' i hii
        · have : j = 0 := congrArg Prod.snd (List.eq_of_mem_replicate hj)
          rw [this]; omega
    obtain ⟨as, z', f1, f2, f3, f4, f5, f6, f7, f8⟩ := ih z1 e7 (fun c' hc => hn c' (by simp [hc])) hi2 (by
        intro i hii
        rw [if_pos hprev.symm]
        exact hidx i hii) (fun i hii => hx i (by simp [hii]))
    refine ⟨a :: as, z', List.Forall₂.cons ⟨e1, e2, e3⟩ f1, ⟨z1, e4, f2⟩, ?_, ?_, ?_, f6, ?_, fun he => by cases he⟩
    · rw [f3, e5, List.flatten_cons, List.map_append, List.sum_append, List.map_map, ← add_assoc]; rfl
    · rw [f4, e6, List.flatten_cons, List.countP_append, List.countP_map]
      push_cast
      rw [← add_assoc]; rfl
    · rw [f5, hacc]; rfl
    · intro _
      by_cases hp : pl = []
      · rw [f8 hp]; exact hprev
      · exact f7 hp

theorem range_filter {α : Type} (L : List α) (f : α → Bool) :
    ((List.range L.length).filter fun i => L[i]?.any f).map (fun i => L[i]?) = (L.filter f).map some := by
  induction L with
  | nil => rfl
  | cons a L ih =>
    rw [List.length_cons, List.range_succ_eq_map, List.filter_cons, List.filter_map]
    have e : ((fun i => (a :: L)[i]?.any f) ∘ Nat.succ) = fun i : Nat => L[i]?.any f := by
      funext i; simp
    rw [e]
    have e2 : ((List.map Nat.succ ((List.range L.length).filter fun i => L[i]?.any f)).map
        fun i : Nat => (a :: L)[i]?) = (L.filter f).map some := by
      rw [List.map_map, ← ih]
      apply List.map_congr_left
      intro i _
      simp
    rw [List.filter_cons]
    by_cases h : f a = true
    · simp only [List.getElem?_cons_zero, Option.any_some, h, if_true, List.map_cons]
      rw [e2]
    · simp only [List.getElem?_cons_zero, Option.any_some, h]
      exact e2

variable {b : Build} {cv : Curve p q G} {hs : Hashes p} {rollup : G}

theorem epoch_transactions {s : Agg.State p q G} {d : Agg.Executed p q G} {sc : Nat → G}
    (hsc : SignerLeaves b cv hs s sc) (hd : d.From b cv hs rollup s) :
    d.mid.transactions = d.txs.map (·.2) ∧ d.fin.transactions = d.txs.map (·.2) := by
  have h0 : SignerLeaves b cv hs d.start sc := by rw [hd.reset]; exact reset_leaves hsc
  have hst : EpochStart d.start := by rw [hd.reset]; exact reset_start cv hs s
  obtain ⟨c, c', sc', -, i1, i2, r, -, t1, -⟩ :=
    epoch_setup h0 hst hd.txCap hd.slots hd.answered hd.submit hd.sign
  exact ⟨t1, r.frame.1.trans t1⟩

/-- An epoch adds the transactions it executes to those executed before. -/
theorem executed_epoch {s : Agg.State p q G} {d : Agg.Executed p q G} {sc : Nat → G} {ts : List (Tx Nat G)}
    (hsc : SignerLeaves b cv hs s sc) (hd : d.From b cv hs rollup s) (hx : Spec.Executed b cv hs rollup s ts) :
    Spec.Executed b cv hs rollup d.fin (ts ++ (d.executed cv hs rollup).map (·.1)) := by
  have h0 : SignerLeaves b cv hs d.start sc := by rw [hd.reset]; exact reset_leaves hsc
  have hst : EpochStart d.start := by rw [hd.reset]; exact reset_start cv hs s
  obtain ⟨c, c', sc', -, i1, i2, r, -, t1, t2, -, -, -, t6⟩ :=
    epoch_setup h0 hst hd.txCap hd.slots hd.answered hd.submit hd.sign
  have x1 := Spec.Executed.newEpoch hx
  rw [← hd.reset] at x1
  have x2 := Spec.Executed.transactions d.txs x1
    (by show _ + _ ≤ _; rw [hst.transactions]; simpa using hd.txCap) (by rw [hd.submit]; simp)
  rw [hd.submit] at x2
  have x3 := Spec.Executed.signatures d.answers x2
    ⟨by show d.mid.signers.length + _ ≤ _; rw [t2]; simpa using le_trans hd.answered hd.txCap, by
      show d.mid.ledger.next + _ ≤ _
      rw [t6]; exact le_trans (Nat.add_le_add_left (Nat.mul_le_mul_left _ hd.answered) _) hd.slots⟩ hd.sign
  have e : (d.mid, (Outcome.ok () : Outcome AggError Unit)).1.transactions = d.txs.map (·.2) := t1
  rw [e] at x3
  exact x3

theorem mine_tx {s : Agg.State p q G} {d : Agg.Executed p q G} {sc : Nat → G}
    (hsc : SignerLeaves b cv hs s sc) (hd : d.From b cv hs rollup s) {k : G} {i : Nat}
    (hi : i ∈ mine cv hs rollup k d) :
    ∃ y, (answeredTxs d)[i]? = some y ∧ y ∈ answeredTxs d ∧ Approves cv hs rollup (txRoot cv hs d.mid) y.1 y.2 = true ∧
      Involves k y.1 = true ∧ d.fin.transactions[i]? = some y.1 ∧ d.fin.signers[i]? = some (some y.2.1) := by
  unfold mine at hi
  obtain ⟨-, h2⟩ := List.mem_filter.1 hi
  cases hy : (answeredTxs d)[i]? with
  | none => rw [hy] at h2; simp at h2
  | some y =>
    rw [hy] at h2
    simp only [Option.any_some, Bool.and_eq_true] at h2
    refine ⟨y, rfl, List.mem_of_getElem? hy, h2.1, h2.2, ?_, ?_⟩
    · rw [(epoch_transactions hsc hd).2]
      exact (List.getElem?_zip_eq_some.1 hy).1
    · rw [(epoch_leaves hd hsc).2.2]
      show (List.map _ (answeredTxs d))[i]? = _
      rw [List.getElem?_map, hy]
      simp [h2.1]

theorem mine_map {β : Type} {s : Agg.State p q G} {d : Agg.Executed p q G} {sc : Nat → G}
    (hsc : SignerLeaves b cv hs s sc) (hd : d.From b cv hs rollup s) (k : G) (F : Tx Nat G → β) :
    ((mine cv hs rollup k d).map fun i => F (d.fin.transactions[i]?.getD Tx.default)) =
      (((d.executed cv hs rollup).map (·.1)).filter (Involves k)).map F := by
  have e1 : ((mine cv hs rollup k d).map fun i => F (d.fin.transactions[i]?.getD Tx.default)) =
      ((mine cv hs rollup k d).map fun i => (answeredTxs d)[i]?).map
        fun o => F ((o.map (·.1)).getD Tx.default) := by
    rw [List.map_map]
    apply List.map_congr_left
    intro i hi
    obtain ⟨y, h1, -, -, -, h2, -⟩ := mine_tx hsc hd hi
    simp [h1, h2]
  rw [e1]
  unfold mine
  rw [range_filter, List.map_map]
  unfold Agg.Executed.executed approvedTxs
  rw [List.map_map, List.filter_map, List.map_map, List.filter_filter]
  show List.map _ (List.filter _ (answeredTxs d)) = _
  have e2 : (fun y : Tx Nat G × Pair q G => Approves cv hs rollup (txRoot cv hs d.mid) y.1 y.2 && Involves k y.1) =
      fun y => (Involves k ∘ (fun x : Tx Nat G × G => x.1) ∘ fun y : Tx Nat G × Pair q G => (y.1, y.2.1)) y &&
        Approves cv hs rollup (txRoot cv hs d.mid) y.1 y.2 := by
    funext y
    simp [Bool.and_comm]
  rw [e2]
  rfl

theorem mine_sorted (k : G) (d : Agg.Executed p q G) : (mine cv hs rollup k d).Pairwise (· < ·) :=
  List.Pairwise.filter _ List.pairwise_lt_range

/-- Root and height of a produced block. -/
theorem produced_root {s : Agg.State p q G} {sc : Nat → G} (hsc : SignerLeaves b cv hs s sc)
    {ct : Contract.State G} {blk : Block (ZMod p)} (hb : produceBlock ct s = .ok blk) {c : Nat → UTXO Nat G}
    (hc : Represents cv hs s c) :
    blk.alloc.utxoRoot = merkleRoot (utxoCRH cv hs.crh) hs.h2 32 c ∧ blk.alloc.height = 0 := by
  obtain ⟨hR, -, -⟩ := signerLeaves_inv hsc
  have h48 := C48_produce_block b cv hs s hR ct
  by_cases hreg : ∀ pk, (some pk ∈ s.signers ∨ pk ∈ s.deposits.map (·.1) ∨ pk ∈ s.withdrawals.map (·.1)) →
      Registered ct pk
  · obtain ⟨ur, sr, h1, h2, h3⟩ := h48.1 hreg
    rw [hb] at h3
    cases h3
    have := hc.root
    rw [h1] at this
    cases this
    refine ⟨rfl, ?_⟩
    show ((s.height : Nat) : ZMod p) = 0
    rw [reach_height hR, Nat.cast_zero]
  · rw [h48.2 hreg] at hb
    cases hb

/-- What an epoch does to the holdings of a key. -/
theorem epoch_held {s : Agg.State p q G} {d : Agg.Executed p q G} {sc : Nat → G} {ts : List (Tx Nat G)}
    (hsc : SignerLeaves b cv hs s sc) (hd : d.From b cv hs rollup s) (hx : Spec.Executed b cv hs rollup s ts)
    {k : G} (hk : k ≠ rollup) {c c' : Nat → UTXO Nat G} (hc : Represents cv hs s c)
    (hc' : Represents cv hs d.fin c') :
    (heldBy c' UTXO_CAP k : Int) = heldBy c UTXO_CAP k +
      ((((d.executed cv hs rollup).map (·.1)).filter (Involves k)).map fun t =>
        (paidTo k t : Int) - (paidBy k t : Int)).sum := by
  have h1 := C76_balance b cv hs rollup s ts hx k hk c hc
  have h2 := C76_balance b cv hs rollup d.fin _ (executed_epoch hsc hd hx) k hk c' hc'
  generalize heldBy c UTXO_CAP k = x at h1 ⊢
  generalize heldBy c' UTXO_CAP k = y at h2 ⊢
  rw [List.map_append, List.sum_append, List.map_append, List.sum_append] at h2
  have hf : ∀ t, Involves k t = false → (paidTo k t : Int) - (paidBy k t : Int) = 0 := by
    intro t ht
    obtain ⟨e1, e2⟩ := not_involved ht
    rw [e1, e2]; rfl
  rw [← sum_involved k hf]
  have e : ∀ us : List (Tx Nat G), (us.map fun t => (paidTo k t : Int) - (paidBy k t : Int)).sum =
      ((us.map (paidTo k)).sum : Int) - ((us.map (paidBy k)).sum : Nat) := by
    intro us
    induction us with
    | nil => rfl
    | cons t us ih => simp only [List.map_cons, List.sum_cons] at ih ⊢; rw [ih]; push_cast; ring
  rw [e]
  omega

/-- The signer of a transaction is the key of one of its inputs. -/
theorem signer_involved {k : G} (hk : k ≠ 0) {t : Tx Nat G} (h : k = t.getSigner) : Involves k t = true := by
  by_contra hn
  have hn : Involves k t = false := by simpa using hn
  unfold Involves at hn
  rw [List.any_eq_false] at hn
  have hin : ∀ u ∈ t.inputs.toList, u.pk ≠ k := by
    intro u hu he
    exact hn u (by unfold Tx.ios; simp [hu]) (by simpa using he)
  unfold Tx.getSigner at h
  have : ∀ (us : List (UTXO Nat G)) (a : G), a ≠ k → (∀ u ∈ us, u.pk ≠ k) →
      us.foldl (fun pk i => Circuit.select i.isDummy pk i.pk) a ≠ k := by
    intro us
    induction us with
    | nil => intro a ha _; exact ha
    | cons u us ih =>
      intro a ha hu
      rw [List.foldl_cons]
      apply ih _ _ (fun v hv => hu v (by simp [hv]))
      unfold Circuit.select
      split
      · exact ha
      · exact hu u (by simp)
  exact this _ 0 hk.symm hin h.symm

/-- An epoch that involves a key lets its client count everything. -/
theorem epoch_counted (h : FieldOk p) {P : Client.Params p} {s : Agg.State p q G} {d : Agg.Executed p q G}
    {sc : Nat → G} {ts : List (Tx Nat G)} (hsc : SignerLeaves b cv P.hs s sc) (hd : d.From b cv P.hs rollup s)
    (hx : Spec.Executed b cv P.hs rollup s ts) {k : G} (hk0 : k ≠ 0) (hk : k ≠ rollup)
    (hclean : ∀ t ∈ (d.executed cv P.hs rollup).map (·.1), Involves k t = true → CleanTx t)
    {c c' : Nat → UTXO Nat G} (hc : Represents cv P.hs s c) (hc' : Represents cv P.hs d.fin c') :
    (heldBy c' UTXO_CAP k : ZMod p) = (heldBy c UTXO_CAP k : ZMod p) + ((mine cv P.hs rollup k d).map fun i =>
        ((receivedNat k (d.fin.transactions[i]?.getD Tx.default) : ZMod p) -
          (spentNat k (d.fin.transactions[i]?.getD Tx.default) : ZMod p))).sum ∧
    ((mine cv P.hs rollup k d).countP fun i =>
        decide (k = (d.fin.transactions[i]?.getD Tx.default).getSigner)) =
      (d.executed cv P.hs rollup).countP (fun y => decide (k = y.1.getSigner)) ∧
    (mine cv P.hs rollup k d = [] → heldBy c' UTXO_CAP k = heldBy c UTXO_CAP k) := by
  have hh := epoch_held hsc hd hx hk hc hc'
  refine ⟨?_, ?_, fun he => ?_⟩
  · rw [mine_map hsc hd k (fun t => ((receivedNat k t : ZMod p) - (spentNat k t : ZMod p)))]
    generalize heldBy c UTXO_CAP k = x at hh ⊢
    generalize heldBy c' UTXO_CAP k = y at hh ⊢
    have := congrArg (Int.cast : Int → ZMod p) hh
    rw [Int.cast_natCast] at this
    rw [this, Int.cast_add, Int.cast_natCast]
    congr 1
    rw [Int.cast_list_sum, List.map_map]
    congr 1
    apply List.map_congr_left
    intro t ht
    obtain ⟨h1, h2⟩ := List.mem_filter.1 ht
    have hcl := hclean t h1 h2
    show ((((paidTo k t : Nat) : Int) - ((paidBy k t : Nat) : Int) : Int) : ZMod p) = _
    rw [clean_received hcl, clean_spent hcl]
    push_cast
    rfl
  · have e : ∀ (l : List Nat) (f : Nat → Bool), l.countP f = (l.map f).countP id := by
      intro l f; rw [List.countP_map]; rfl
    rw [e, mine_map hsc hd k (fun t => decide (k = t.getSigner)), List.countP_map, List.countP_filter,
      List.countP_map]
    congr 1
    funext y
    show (decide (k = y.1.getSigner) && Involves k y.1) = _
    by_cases hy : k = y.1.getSigner
    · rw [signer_involved hk0 hy]; simp
    · simp [hy]
  · have := mine_map hsc hd k (fun t => t)
    rw [he, List.map_nil] at this
    rw [List.map_id''] at this
    · rw [← this, List.map_nil, List.sum_nil, add_zero] at hh
      exact Int.ofNat_inj.1 hh
    · intro x; rfl

theorem heldBy_congr {c c' : Nat → UTXO Nat G} {n : Nat} (h : ∀ j, j < n → c j = c' j) (k : G) :
    heldBy c n k = heldBy c' n k := by
  unfold heldBy
  have : (List.range n).map c = (List.range n).map c' :=
    List.map_congr_left fun j hj => h j (List.mem_range.1 hj)
  rw [this]

theorem runSteps_append {P : Client.Params p} {n : Nat} {as as' : List (UserAuxVar p G)} {z z1 z' : UState p}
    (h : Client.runSteps P cv n z as z1) (h' : Client.runSteps P cv n z1 as' z') :
    Client.runSteps P cv n z (as ++ as') z' := by
  induction as generalizing z with
  | nil => rw [show z1 = z from h] at h'; exact h'
  | cons a as ih =>
    obtain ⟨z2, e1, e2⟩ := h
    exact ⟨z2, e1, ih e2⟩

/-- Equal block hashes mean equal holdings. -/
theorem same_block_held {d d' : Agg.Executed p q G} (he : blockHash hs d = blockHash hs d') {c c' : Nat → UTXO Nat G}
    (hc : Represents cv hs d.fin c) (hc' : Represents cv hs d'.fin c')
    (hr : d.block.alloc.utxoRoot = merkleRoot (utxoCRH cv hs.crh) hs.h2 32 c)
    (hr' : d'.block.alloc.utxoRoot = merkleRoot (utxoCRH cv hs.crh) hs.h2 32 c') (k : G)
    {l : List (Agg.Executed p q G)} (hd : d ∈ l) (hd' : d' ∈ l) :
    heldBy c UTXO_CAP k = heldBy c' UTXO_CAP k ∨ EpochClash cv hs l := by
  by_cases e : blockEncVar d.block.alloc = blockEncVar d'.block.alloc
  · have e' : d.block.alloc.utxoRoot = d'.block.alloc.utxoRoot := (List.cons.inj e).1
    rw [hr, hr'] at e'
    rcases merkleRoot_binds _ _ _ _ _ e' with h | h
    · refine .inl (heldBy_congr (fun j hj => h j ?_) k)
      have cap : UTXO_CAP = 2 ^ (32 - 1) := rfl
      rw [← cap]; exact hj
    · exact .inr ⟨d, hd, d', hd', .inr ⟨c, c', hc, hc', h⟩⟩
  · exact .inr ⟨d, hd, d', hd', .inl ⟨e, he⟩⟩

theorem EpochClash.mono {l l' : List (Agg.Executed p q G)} (h : EpochClash cv hs l) (hs' : ∀ d ∈ l, d ∈ l') :
    EpochClash cv hs l' := by
  obtain ⟨d, hd, d', hd', e⟩ := h
  exact ⟨d, hs' d hd, d', hs' d' hd', e⟩

theorem follow_steps (h : FieldOk p) (P : Client.Params p) {k : G} (hk0 : k ≠ 0) (hk : k ≠ rollup) (n : Nat)
    (ds : List (Agg.Executed p q G)) (s s' : Agg.State p q G) (hl : Lifetime b cv P.hs rollup s ds s')
    (sc : Nat → G) (hsc : SignerLeaves b cv P.hs s sc) (ts : List (Tx Nat G))
    (hx : Spec.Executed b cv P.hs rollup s ts) (c : Nat → UTXO Nat G) (hc : Represents cv P.hs s c)
    (last : Option (Agg.Executed p q G)) (pls : List (List (List Nat)))
    (hf : Follows cv P.hs rollup k n last ds pls) (ha : ∀ d ∈ ds, Accessible cv P.hs rollup k d)
    (z : UState p) (hz : ReadyFor cv P.hs k 0 z) (hnone : last = none → z.prevTxIndex = 0)
    (hsome : ∀ d0, last = some d0 → z.prevBlockHash = blockHash P.hs d0) :
    ∃ (as : List (UserAux p G)) (z' : UState p),
      List.Forall₂ (fun x a => assemble cv P.hs x.1.fin x.1.block k n (x.2.map fun i => (i, i)) = .ok a ∧
        a.block = x.1.block ∧ a.pk = k) (stepsOf ds pls) as ∧
      Client.runSteps P cv n z (as.map UserAux.alloc) z' ∧
      z'.nonce = z.nonce + ((((ds.zip pls).filter fun x => decide (x.2 ≠ [])).map fun x =>
        (x.1.executed cv P.hs rollup).countP fun y => decide (k = y.1.getSigner)).sum : Nat) ∧
      z'.acc = ((stepsOf ds pls).map fun x => blockHash P.hs x.1).foldl P.acc z.acc ∧
      ∀ c', Represents cv P.hs s' c' → z.balance = (heldBy c UTXO_CAP k : ZMod p) →
        (∀ d0, last = some d0 → ∃ c0, Represents cv P.hs d0.fin c0 ∧
          d0.block.alloc.utxoRoot = merkleRoot (utxoCRH cv P.hs.crh) P.hs.h2 32 c0 ∧
          heldBy c0 UTXO_CAP k = heldBy c UTXO_CAP k) →
        z'.balance = (heldBy c' UTXO_CAP k : ZMod p) ∨ EpochClash cv P.hs (last.toList ++ ds) := by
  induction ds generalizing s sc ts c last pls z with
  | nil =>
    cases pls with
    | cons pl pls => exact absurd hf id
    | nil =>
      have hl' : s' = s := hl
      subst hl'
      refine ⟨[], z, List.Forall₂.nil, rfl, by simp, rfl, fun c' hc' hb _ => .inl ?_⟩
      rw [hb, Represents.unique hc hc']
  | cons d ds ih =>
    cases pls with
    | nil => exact absurd hf id
    | cons pl pls =>
      obtain ⟨hd, hl⟩ := hl
      obtain ⟨hpl, hrest⟩ := hf
      obtain ⟨-, hfin, -⟩ := epoch_leaves hd hsc
      have hxf := executed_epoch hsc hd hx
      obtain ⟨hRf, -, -⟩ := signerLeaves_inv hfin
      obtain ⟨c1, hc1, -⟩ := (C38_utxo_tree_mirrors b cv P.hs d.fin hRf).1
      obtain ⟨hroot, hheight⟩ := produced_root hfin hd.produce hc1
      have hacc := ha d (by simp)
      have hclean : ∀ t ∈ (d.executed cv P.hs rollup).map (·.1), Involves k t = true → CleanTx t := by
        intro t ht hi
        unfold Agg.Executed.executed approvedTxs at ht
        rw [List.map_map] at ht
        obtain ⟨y, hy, rfl⟩ := List.mem_map.1 ht
        obtain ⟨hy1, hy2⟩ := List.mem_filter.1 hy
        exact hacc.clean y hy1 hy2 hi
      obtain ⟨g1, g2, g3⟩ := epoch_counted h hsc hd hx hk0 hk hclean hc hc1
      have hsub : ∀ l : List (Agg.Executed p q G), ∀ x ∈ l ++ ds, x ∈ l ++ d :: ds := by
        intro l x hx'
        rcases List.mem_append.1 hx' with h' | h'
        · exact List.mem_append_left _ h'
        · exact List.mem_append_right _ (by simp [h'])
      rcases hpl with ⟨hsame, rfl⟩ | ⟨hdiff, hmine, hlen⟩
      · -- the block is passed over
        rw [if_pos rfl] at hrest
        obtain ⟨as, z', f1, f2, f3, f4, f5⟩ := ih d.fin hl _ hfin _ hxf c1 hc1 last pls hrest
          (fun d' hd' => ha d' (by simp [hd'])) z hz hnone hsome
        refine ⟨as, z', by simpa [stepsOf] using f1, f2, by simpa using f3, by simpa [stepsOf] using f4, ?_⟩
        intro c' hc' hb hlast
        cases hlo : last with
        | none => rw [hlo] at hsame; cases hsame
        | some d0 =>
          rw [hlo] at hsame
          have hsame : blockHash P.hs d0 = blockHash P.hs d := Option.some.inj hsame
          obtain ⟨c0, k1, k2, k3⟩ := hlast d0 hlo
          rcases same_block_held (l := d0 :: d :: ds) hsame k1 hc1 k2 hroot k (by simp) (by simp) with e | e
          · rcases f5 c' hc' (by rw [hb, ← k3, e]) (fun d' hd' => by
                rw [hlo] at hd'
                cases hd'
                exact ⟨c0, k1, k2, e⟩) with e' | e'
            · exact .inl e'
            · rw [hlo] at e'
              exact .inr (EpochClash.mono e' (hsub _))
          · exact .inr e
      · -- the block is processed
        obtain ⟨as1, z1, r1, r2, r3, r4, r5, r6, r7, r8⟩ := epoch_steps h b P cv hfin hd.produce hk0 n pl z
          (by rw [hheight]; exact hz) hlen (by rw [hmine]; exact mine_sorted k d) (by
            intro i hi
            rw [hmine] at hi
            have h0 : 0 < i := by
              rcases Nat.eq_zero_or_pos i with e | e
              · rw [e] at hi; exact absurd hi hacc.first
              · exact e
            split
            · next he =>
              cases hlo : last with
              | none => rw [hnone hlo, ZMod.val_zero]; exact h0
              | some d0 =>
                exfalso
                apply hdiff
                rw [hlo, Option.map_some, ← hsome d0 hlo, ← he]
                rfl
            · exact h0) (by
            intro i hi
            rw [hmine] at hi
            obtain ⟨y, y1, y2, y3, y4, y5, y6⟩ := mine_tx hsc hd hi
            exact ⟨y.1, y5, by rw [y6, hacc.own y y2 y3 y4]⟩)
        rw [hheight] at r6
        obtain ⟨as, z', f1, f2, f3, f4, f5⟩ := ih d.fin hl _ hfin _ hxf c1 hc1
          (if pl = [] then last else some d) pls hrest
          (fun d' hd' => ha d' (by simp [hd'])) z1 r6 (by
            intro hn
            split at hn
            · next he => rw [r8 he]; exact hnone hn
            · cases hn) (by
            intro d0 hd0
            split at hd0
            · next he => rw [r8 he]; exact hsome d0 hd0
            · next he => cases hd0; exact r7 he)
        refine ⟨as1 ++ as, z', ?_, ?_, ?_, ?_, ?_⟩
        · have : stepsOf (d :: ds) (pl :: pls) = (pl.map fun c => (d, c)) ++ stepsOf ds pls := by simp [stepsOf]
          rw [this]
          refine List.rel_append ?_ f1
          rw [List.forall₂_map_left_iff]
          exact r1
        · rw [List.map_append]
          exact runSteps_append r2 f2
        · rw [f3, r4, hmine, g2]
          by_cases he : pl = []
          · have hm0 : mine cv P.hs rollup k d = [] := by rw [← hmine, he]; rfl
            rw [hm0] at g2
            rw [← g2]
            simp [he]
          · simp only [List.zip_cons_cons, List.filter_cons, ne_eq, he, not_false_eq_true, decide_true, if_true,
              List.map_cons, List.sum_cons]
            push_cast
            rw [← add_assoc]
        · have : stepsOf (d :: ds) (pl :: pls) = (pl.map fun c => (d, c)) ++ stepsOf ds pls := by simp [stepsOf]
          rw [this, List.map_append, List.foldl_append, f4, r5, List.map_map]
          rfl
        · intro c' hc' hb hlast
          rcases f5 c' hc' (by rw [r3, hmine, hb, g1]) (by
              intro d0 hd0
              split at hd0
              · next he =>
                obtain ⟨c0, k1, k2, k3⟩ := hlast d0 hd0
                exact ⟨c0, k1, k2, by rw [k3, g3 (by rw [← hmine, he]; rfl)]⟩
              · cases hd0; exact ⟨c1, hc1, hroot, rfl⟩) with e | e
          · exact .inl e
          · refine .inr (EpochClash.mono e ?_)
            intro x hx'
            split at hx'
            · exact hsub _ x hx'
            · rcases List.mem_append.1 hx' with h' | h'
              · rw [Option.toList_some, List.mem_singleton] at h'
                rw [h']; simp
              · simp [h']

/-- Whatever an aggregator executes, there is a way to keep up, in steps of any positive size. -/
theorem C115_plan (cv : Curve p q G) (hs : Hashes p) (rollup k : G) (n : Nat) (hn : 0 < n)
    (ds : List (Agg.Executed p q G)) (last : Option (Agg.Executed p q G)) :
    ∃ pls, Follows cv hs rollup k n last ds pls := by
  induction ds generalizing last with
  | nil => exact ⟨[], trivial⟩
  | cons d ds ih =>
    by_cases h : last.map (blockHash hs) = some (blockHash hs d)
    · obtain ⟨pls, hp⟩ := ih last
      exact ⟨[] :: pls, .inl ⟨h, rfl⟩, by rw [if_pos rfl]; exact hp⟩
    · obtain ⟨pls, hp⟩ := ih (if (mine cv hs rollup k d).map (fun i => [i]) = [] then last else some d)
      refine ⟨(mine cv hs rollup k d).map (fun i => [i]) :: pls, .inr ⟨h, ?_, ?_⟩, hp⟩
      · generalize mine cv hs rollup k d = l
        induction l with
        | nil => rfl
        | cons a l ih => rw [List.map_cons, List.flatten_cons, ih]; rfl
      · intro c hc
        obtain ⟨i, -, rfl⟩ := List.mem_map.1 hc
        exact hn

/-- **C115**: through any lifetime of an aggregator, the new client of a key whose executed transactions can be
counted is accepted in every step it makes to keep up, on whatever plan; its balance is at the end what the ledger
holds for the key (or two of the epochs exhibit a collision), its nonce is the number of transactions it signed in
the epochs it processed, and its accumulator is that of the blocks of its steps. -/
theorem C115_keeps_up (h : FieldOk p) (b : Build) (P : Client.Params p) (cv : Curve p q G) (rollup : G)
    (ds : List (Agg.Executed p q G)) (s' : Agg.State p q G)
    (hl : Lifetime b cv P.hs rollup (Agg.new q cv P.hs) ds s') (k : G) (hk0 : k ≠ 0) (hk : k ≠ rollup)
    (ha : ∀ d ∈ ds, Accessible cv P.hs rollup k d) (n : Nat) (pls : List (List (List Nat)))
    (hf : Follows cv P.hs rollup k n none ds pls) :
    ∃ (as : List (UserAux p G)) (z' : UState p),
      List.Forall₂ (fun x a => assemble cv P.hs x.1.fin x.1.block k n (x.2.map fun i => (i, i)) = .ok a ∧
        a.block = x.1.block ∧ a.pk = k) (stepsOf ds pls) as ∧
      Client.runSteps P cv n (freshUser cv P.hs k) (as.map UserAux.alloc) z' ∧
      z'.nonce = ((((ds.zip pls).filter fun x => decide (x.2 ≠ [])).map fun x =>
        (x.1.executed cv P.hs rollup).countP fun y => decide (k = y.1.getSigner)).sum : Nat) ∧
      z'.acc = ((stepsOf ds pls).map fun x => blockHash P.hs x.1).foldl P.acc 0 ∧
      ∀ c, Represents cv P.hs s' c →
        z'.balance = (heldBy c UTXO_CAP k : ZMod p) ∨ EpochClash cv P.hs ds := by
  obtain ⟨c0, hc0, -⟩ := (C38_utxo_tree_mirrors b cv P.hs (Agg.new q cv P.hs) Reach.new).1
  obtain ⟨as, z', f1, f2, f3, f4, f5⟩ := follow_steps h P hk0 hk n ds _ s' hl _ SignerLeaves.new []
    Spec.Executed.new c0 hc0 none pls hf ha (freshUser cv P.hs k) (fresh_ready _ _ _ _) (fun _ => rfl)
    (fun _ h => by cases h)
  refine ⟨as, z', f1, f2, ?_, f4, fun c hc => ?_⟩
  · rw [f3]; exact zero_add _
  · refine f5 c hc ?_ (fun _ h => by cases h)
    have := C76_balance b cv P.hs rollup _ _ Spec.Executed.new k hk c0 hc0
    generalize heldBy c0 UTXO_CAP k = v at this ⊢
    have hv : v = 0 := by simpa using this
    rw [hv, Nat.cast_zero]; rfl

theorem forall₂_det {α β : Type} {R S : α → β → Prop} {l : List α} {m m' : List β} (h : List.Forall₂ R l m)
    (h' : List.Forall₂ S l m') (he : ∀ a x y, R a x → S a y → x = y) : m = m' := by
  induction h generalizing m' with
  | nil => cases h'; rfl
  | cons hr _ ih =>
    cases h' with
    | cons hs ht => rw [he _ _ _ hr hs, ih ht]

theorem kept_balance (h : FieldOk p) {P : Client.Params p}
    {ds : List (Agg.Executed p q G)} {s' : Agg.State p q G}
    (hl : Lifetime b cv P.hs rollup (Agg.new q cv P.hs) ds s') {k : G} (hk0 : k ≠ 0) (hk : k ≠ rollup)
    (ha : ∀ d ∈ ds, Accessible cv P.hs rollup k d) {z : UState p} (hz : KeptUp P cv rollup k ds z)
    {c : Nat → UTXO Nat G} (hc : Represents cv P.hs s' c) :
    z.balance = (heldBy c UTXO_CAP k : ZMod p) ∨ EpochClash cv P.hs ds := by
  obtain ⟨n, pls, as, h1, h2, h3⟩ := hz
  obtain ⟨as', z', f1, f2, -, -, f5⟩ := C115_keeps_up h b P cv rollup ds s' hl k hk0 hk ha n pls h1
  have e : as = as' := forall₂_det h2 f1 fun x a a' e1 e2 => by
    have := e1.symm.trans e2.1
    cases this; rfl
  subst e
  have e2 := ((run_iff h P cv n _ _ z).1 h3).2
  have e3 := ((run_iff h P cv n _ _ z').1 f2).2
  have e4 : z = z' := e2.trans e3.symm
  rw [e4]
  exact f5 c hc

/-- Every UTXO in the ledger belongs to somebody. -/
theorem heldBy_sum_eq (c : Nat → UTXO Nat G) (ks : List G) (hks : ks.Nodup) (n : Nat)
    (hall : ∀ i, i < n → (c i).isDummy = false → (c i).pk ∈ ks) :
    (ks.map (heldBy c n)).sum = ledgerValue c n := by
  induction n with
  | zero =>
    have : ks.map (heldBy c 0) = List.replicate ks.length 0 := by
      rw [List.eq_replicate_iff]
      exact ⟨by simp, by intro v hv; obtain ⟨k, _, rfl⟩ := List.mem_map.1 hv; rfl⟩
    rw [this]; simp [ledgerValue]
  | succ n ih =>
    rw [ledgerValue_succ, ← ih fun i hi => hall i (by omega)]
    have e : (ks.map (heldBy c (n + 1))).sum = (ks.map (heldBy c n)).sum +
        (ks.map fun k => if (c n).pk = k then slotValue (c n) else 0).sum := by
      rw [← List.sum_map_add]
      congr 1
      apply List.map_congr_left
      intro k _
      exact heldBy_succ c n k
    rw [e]
    congr 1
    by_cases hd : (c n).isDummy = true
    · have : slotValue (c n) = 0 := by simp [slotValue, hd]
      rw [this]; simp
    · have hm := hall n (by omega) (by simpa using hd)
      generalize (c n).pk = pk at hm
      generalize slotValue (c n) = v
      clear ih e hall
      induction ks with
      | nil => cases hm
      | cons k ks ih =>
        rw [List.nodup_cons] at hks
        rw [List.map_cons, List.sum_cons]
        by_cases h : pk = k
        · rw [if_pos h]
          have : (ks.map fun k => if pk = k then v else 0) = List.replicate ks.length 0 := by
            rw [List.eq_replicate_iff]
            refine ⟨by simp, ?_⟩
            intro w hw
            obtain ⟨k', hk', rfl⟩ := List.mem_map.1 hw
            rw [if_neg]
            rintro e; exact hks.1 (by rw [← h, e]; exact hk')
          rw [this]; simp
        · rw [if_neg h, Nat.zero_add]
          rcases List.mem_cons.1 hm with e | e
          · exact absurd e h
          · exact ih hks.2 e

theorem sum_exact (cs : List (G × UState p)) (g : G → Nat) (h : ∀ x ∈ cs, x.2.balance = (g x.1 : ZMod p))
    (hlt : ((cs.map (·.1)).map g).sum < p) :
    (cs.map fun x => x.2.balance.val).sum = ((cs.map (·.1)).map g).sum := by
  rw [List.map_map] at hlt ⊢
  congr 1
  refine List.map_congr_left fun x hx => ?_
  rw [h x hx, ZMod.val_natCast]
  refine Nat.mod_eq_of_lt (lt_of_le_of_lt ?_ hlt)
  exact List.single_le_sum (fun _ _ => Nat.zero_le _) _ (List.mem_map.2 ⟨x, hx, rfl⟩)

/-- The books of a lifetime in which each answer comes from the owner of the inputs are those its blocks list. -/
theorem lifetime_books (ds : List (Agg.Executed p q G)) (s s' : Agg.State p q G)
    (hl : Lifetime b cv hs rollup s ds s') (sc : Nat → G) (hsc : SignerLeaves b cv hs s sc) (x y : Nat)
    (hbk : Books b cv hs rollup s true x y)
    (hown : ∀ d ∈ ds, ∀ y ∈ answeredTxs d, OwnedBy y.2.1 y.1.inputs.toList)
    (hsum : ∀ d ∈ ds, b = .debug ∨
      ∀ x ∈ d.txs, totalOf x.2.inputs.toList < U64 ∧ totalOf x.2.outputs.toList < U64) :
    Books b cv hs rollup s' true (x + (ds.map fun d => (d.block.deposits.map (·.2)).sum).sum)
      (y + (ds.map fun d => (d.block.withdrawals.map (·.2)).sum).sum) := by
  induction ds generalizing s sc x y with
  | nil => rw [show s' = s from hl]; simpa using hbk
  | cons d ds ih =>
    obtain ⟨hd, hl⟩ := hl
    have h0 : SignerLeaves b cv hs d.start sc := by rw [hd.reset]; exact reset_leaves hsc
    have hst : EpochStart d.start := by rw [hd.reset]; exact reset_start cv hs s
    obtain ⟨c, c', sc', -, i1, i2, r, r2, t1, t2, -, t4, t5, t6⟩ :=
      epoch_setup h0 hst hd.txCap hd.slots hd.answered hd.submit hd.sign
    obtain ⟨-, e2, e3⟩ := produced_shape r2 hd.produce
    have x1 := Books.newEpoch hbk
    rw [← hd.reset] at x1
    have x2 := Books.transactions d.txs x1
      (by show _ + _ ≤ _; rw [hst.transactions]; simpa using hd.txCap) (by rw [hd.submit]; simp) (hsum d (by simp))
    rw [hd.submit] at x2
    have x3 := Books.signatures d.answers d.fin.deposits d.fin.withdrawals x2
      ⟨by show d.mid.signers.length + _ ≤ _; rw [t2]; simpa using le_trans hd.answered hd.txCap, by
        show d.mid.ledger.next + _ ≤ _
        rw [t6]; exact le_trans (Nat.add_le_add_left (Nat.mul_le_mul_left _ hd.answered) _) hd.slots⟩
      (by
        show ∀ y ∈ d.mid.transactions.zip _, _
        rw [t1]; exact hown d (by simp)) hd.sign (by simp)
      (by show d.fin.deposits = d.mid.deposits ++ _; rw [t4]; rfl)
      (by show d.fin.withdrawals = d.mid.withdrawals ++ _; rw [t5]; rfl)
    have e4 : totalAmount d.fin.deposits = (d.block.deposits.map (·.2)).sum := by
      unfold totalAmount; rw [e2]; simp [Function.comp_def]
    have e5 : totalAmount d.fin.withdrawals = (d.block.withdrawals.map (·.2)).sum := by
      unfold totalAmount; rw [e3]; simp [Function.comp_def]
    have := ih d.fin hl _ (epoch_leaves hd hsc).2.1 _ _ (by simpa using x3)
      (fun d' hd' => hown d' (by simp [hd'])) (fun d' hd' => hsum d' (by simp [hd']))
    rw [e4, e5] at this
    simp only [List.map_cons, List.sum_cons]
    rw [← add_assoc, ← add_assoc]
    exact this

/-- **C115** (together): through any lifetime in which each answer comes from the owner of the inputs, the balances
of clients of different keys that have kept up, together with all withdrawals listed in the blocks, never exceed
the deposits listed in the blocks; they are equal if the clients include those of all owners of UTXOs in the
ledger and the deposits add up to less than the field modulus. (Or two of the epochs exhibit a collision.) -/
theorem C115_solvent (h : FieldOk p) (b : Build) (P : Client.Params p) (cv : Curve p q G) (rollup : G)
    (ds : List (Agg.Executed p q G)) (s' : Agg.State p q G)
    (hl : Lifetime b cv P.hs rollup (Agg.new q cv P.hs) ds s')
    (hown : ∀ d ∈ ds, ∀ y ∈ answeredTxs d, OwnedBy y.2.1 y.1.inputs.toList)
    (hsum : ∀ d ∈ ds, b = .debug ∨
      ∀ x ∈ d.txs, totalOf x.2.inputs.toList < U64 ∧ totalOf x.2.outputs.toList < U64)
    (cs : List (G × UState p)) (hnd : (cs.map (·.1)).Nodup) (hk : ∀ x ∈ cs, x.1 ≠ 0 ∧ x.1 ≠ rollup)
    (ha : ∀ x ∈ cs, ∀ d ∈ ds, Accessible cv P.hs rollup x.1 d) (hz : ∀ x ∈ cs, KeptUp P cv rollup x.1 ds x.2) :
    ((cs.map fun x => x.2.balance.val).sum + (ds.map fun d => (d.block.withdrawals.map (·.2)).sum).sum ≤
        (ds.map fun d => (d.block.deposits.map (·.2)).sum).sum ∧
      ((ds.map fun d => (d.block.deposits.map (·.2)).sum).sum < p →
        (∀ u : UTXO Nat G, u.isDummy = false → live s' u ≠ 0 → u.pk ∈ cs.map (·.1)) →
        (cs.map fun x => x.2.balance.val).sum + (ds.map fun d => (d.block.withdrawals.map (·.2)).sum).sum =
          (ds.map fun d => (d.block.deposits.map (·.2)).sum).sum)) ∨
    EpochClash cv P.hs ds := by
  by_cases hcl : EpochClash cv P.hs ds
  · exact .inr hcl
  left
  have hbk := lifetime_books ds _ s' hl _ SignerLeaves.new 0 0 Books.new hown hsum
  rw [Nat.zero_add, Nat.zero_add] at hbk
  obtain ⟨c, hc, -, hv⟩ := C40_supply b cv P.hs rollup s' true _ _ hbk
  have hv := hv rfl
  have hbal : ∀ x ∈ cs, x.2.balance = (heldBy c UTXO_CAP x.1 : ZMod p) := fun x hx =>
    (kept_balance h hl (hk x hx).1 (hk x hx).2 (ha x hx) (hz x hx) hc).resolve_right hcl
  refine ⟨sum_backed cs (heldBy c UTXO_CAP) _ (fun x hxm => val_le_of_cast (hbal x hxm))
    (heldBy_sum_le c (cs.map (·.1)) hnd UTXO_CAP) hv, fun hlt hall => ?_⟩
  have hle := heldBy_sum_le c (cs.map (·.1)) hnd UTXO_CAP
  have heq := heldBy_sum_eq c (cs.map (·.1)) hnd UTXO_CAP (by
    intro i _ hd
    refine hall (c i) hd ?_
    have := (hc.slots (c i) hd i).2 rfl
    unfold live
    intro h0
    rw [List.length_eq_zero_iff.1 h0] at this
    cases this)
  rw [← hv] at hlt
  have e : (cs.map fun x => x.2.balance.val).sum = ((cs.map (·.1)).map (heldBy c UTXO_CAP)).sum := by
    exact sum_exact cs (heldBy c UTXO_CAP) hbal (lt_of_le_of_lt hle (lt_of_le_of_lt (Nat.le_add_right _ _) hlt))
  rw [e, heq]
  exact hv

/-- **C115** (repeated blocks): two epochs of a lifetime whose blocks have the same hash leave the same ledger, so
that a client that passes over the second one (of which it could count nothing) misses nothing, or the two epochs
exhibit a collision. -/
theorem C115_same_block (b : Build) (cv : Curve p q G) (hs : Hashes p) (rollup : G)
    (ds : List (Agg.Executed p q G)) (s s' : Agg.State p q G) (hl : Lifetime b cv hs rollup s ds s')
    (sc : Nat → G) (hsc : SignerLeaves b cv hs s sc) (d d' : Agg.Executed p q G) (hd : d ∈ ds) (hd' : d' ∈ ds)
    (he : blockHash hs d = blockHash hs d') :
    (∀ u : UTXO Nat G, u.isDummy = false → ∀ i, i < 2 ^ 31 → (i ∈ positions d.fin u ↔ i ∈ positions d'.fin u)) ∨
    EpochClash cv hs ds := by
  have key : ∀ e ∈ ds, ∃ c, Represents cv hs e.fin c ∧
      e.block.alloc.utxoRoot = merkleRoot (utxoCRH cv hs.crh) hs.h2 32 c := by
    clear hd hd'
    induction ds generalizing s sc with
    | nil => intro e h; cases h
    | cons f ds ih =>
      obtain ⟨hf, hl⟩ := hl
      have hfin := (epoch_leaves hf hsc).2.1
      intro e hm
      rcases List.mem_cons.1 hm with rfl | hm
      · obtain ⟨hR, -, -⟩ := signerLeaves_inv hfin
        obtain ⟨c1, hc1, -⟩ := (C38_utxo_tree_mirrors b cv hs e.fin hR).1
        exact ⟨c1, hc1, (produced_root hfin hf.produce hc1).1⟩
      · exact ih _ hl _ hfin e hm
  obtain ⟨c, hc, hr⟩ := key d hd
  obtain ⟨c', hc', hr'⟩ := key d' hd'
  by_cases e : blockEncVar d.block.alloc = blockEncVar d'.block.alloc
  · have e' : d.block.alloc.utxoRoot = d'.block.alloc.utxoRoot := (List.cons.inj e).1
    rw [hr, hr'] at e'
    rcases merkleRoot_binds _ _ _ _ _ e' with h | h
    · refine .inl fun u hu i hi => ?_
      rw [hc.slots u hu, hc'.slots u hu, h i hi]
    · exact .inr ⟨d, hd, d', hd', .inr ⟨c, c', hc, hc', h⟩⟩
  · exact .inr ⟨d, hd, d', hd', .inl ⟨e, he⟩⟩

end PF.Props
