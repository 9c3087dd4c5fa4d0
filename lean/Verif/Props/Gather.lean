import Verif.Proof.Gather
import Verif.Props.KeepUp

/-!
# Property C130: any amount up to what a key holds can be paid, and what it takes
-/
set_option linter.unusedSectionVars false

namespace PF.Props
open PF PF.MT PF.Agg PF.Spec PF.AggC PF.Contract
variable {p q : Nat} {G : Type} [AddCommGroup G] [Module (ZMod q) G] [DecidableEq G]

/-- **C130** (any amount can be paid): from every reachable state, the holder of any UTXOs with a total below 2^64 can
have any amount up to this total paid to any registered key, or withdrawn, out of these UTXOs, in one epoch that
executes and is proved. It takes one transaction for up to four UTXOs, and one more for every three further ones begun;
as many leaves of the signer tree must be free. What is left over comes back to the holder as one UTXO. (Unless `(0, 0)`
is a valid signature of the default transaction used as padding.) -/
theorem C130_pay_any_amount [Fact q.Prime] (h : Sizes p q) (hpq : p ≤ q) (b : Build) (P : Params p G)
    (hfull : P.transferOnly = false) (cv : Curve p q G) (s : Agg.State p q G) (sc : Nat → G)
    (hsc : SignerLeaves b cv P.hs s sc) (hslots : s.ledger.next + TX_IO_SIZE * TX_CAP ≤ UTXO_CAP)
    (b' : Build) (k : G) (calls : List (Call G)) (st : Contract.State G)
    (hst : Contract.run b' (Contract.new k) calls = .ok st) (hpks : st.pks.length ≤ 2 ^ 32)
    (sk : ZMod q) (owner : G) (hsk : owner = sk • cv.gen) (ho : owner ≠ P.contract) (hreg : Registered st owner)
    (amounts : List Nat) (hlive : ∀ x, amounts.count x ≤ live s (UTXO.new owner x)) (hsum : amounts.sum < 2 ^ 64)
    (receiver : G) (hr : Registered st receiver) (a : Nat) (ha : a ≤ amounts.sum)
    (hfree : 1 + (amounts.length - 2) / 3 ≤ 4096 - signedPositions sc) :
    (∃ d : Agg.Executed p q G, d.From b cv P.hs P.contract s ∧
      (d.executed cv P.hs P.contract).length = 1 + (amounts.length - 2) / 3 ∧
      (∀ y ∈ d.executed cv P.hs P.contract, y.2 = owner) ∧
      (∀ u : UTXO Nat G, u.isDummy = false → live d.fin u + (holdings owner amounts).count u =
        live s u + (paidOut P.contract owner receiver a (amounts.sum - a)).count u) ∧
      (receiver = P.contract → d.block.withdrawals = if a = 0 then [] else [(regIndex st owner, a)]) ∧
      ∀ z bs, StartState cv P.hs d.start (txRoot cv P.hs d.mid) z →
        bs.flatten = d.fin.ivcInputs.map CInputs.alloc → Proves P cv st d.block z bs) ∨
    ∃ (txs : List (G × Tx Nat G)) (s1 : Agg.State p q G),
      processTransactions b cv P.hs txs (Agg.reset cv P.hs s) = (s1, .ok ()) ∧ (owner, Tx.default) ∈ txs ∧
      Schnorr.verify cv P.hs.crh owner (txEnc cv Tx.default ++ [txRoot cv P.hs s1]) (0, 0) = true := by
  obtain ⟨ts, g1, g2, g3, g4, g5⟩ := gather_plan b (receiver := receiver) ho a amounts.length amounts (live s) rfl hlive ha hsum
  have hreq : Requests b P cv s st (ts.map fun t => (owner, t)) := by
    have hm : ∀ x ∈ ts.map fun t => (owner, t), x.1 = owner ∧ Fine b owner receiver x.2 := by
      intro x hx
      obtain ⟨t, ht, rfl⟩ := List.mem_map.1 hx
      exact ⟨rfl, g2 t ht⟩
    refine ⟨fun x hx => ?_, fun x hx => (hm x hx).2.amounts, fun x hx => (hm x hx).2.sums,
      fun x hx => Or.inr ⟨sk, (hm x hx).1.trans hsk⟩, fun x hx => ⟨?_, fun u hu hd => ?_⟩, ?_⟩
    · rw [(hm x hx).1]; exact (hm x hx).2.valid
    · rw [(hm x hx).1]; exact hreg
    · rcases (hm x hx).2.outs u hu hd with e | e <;> rw [e]
      · exact hreg
      · exact hr
    · rw [List.map_map, show ((fun x : G × Tx Nat G => x.2) ∘ fun t => (owner, t)) = id from rfl, List.map_id]
      exact g3
  rcases C114_can_execute h hpq b P hfull cv s sc hsc hslots b' k calls st hst hpks owner ho _ hreq
      (by rw [List.length_map, g1]; exact hfree) with
    ⟨d, d1, d2, d3, d4, _, d5, _, d6⟩ | ⟨txs, s1, x, x1, x2, x3, x4⟩
  · left
    rw [List.map_map] at d3
    have hsp : spentBy P.contract (d.executed cv P.hs P.contract) = spentUTXOs P.contract ts := by
      rw [d3, spentBy, List.flatMap_map]; rfl
    have hcr : createdBy P.contract (d.executed cv P.hs P.contract) = createdUTXOs P.contract ts := by
      rw [d3, createdBy, List.flatMap_map]; rfl
    refine ⟨d, d1, by rw [d3, List.length_map, g1], fun y hy => ?_, fun u hu => ?_, fun hc => ?_, d6⟩
    · rw [d3] at hy
      obtain ⟨t, _, rfl⟩ := List.mem_map.1 hy
      rfl
    · have h1 := epoch_live hsc d1 u hu
      rw [hsp, hcr] at h1
      have h2 := g4 u
      omega
    · obtain ⟨sc', hsc', hok⟩ := d5.conditions
      have hstart : EpochStart d.start := by rw [d1.reset]; exact reset_start cv P.hs s
      obtain ⟨c, c', sc', -, -, -, r, r2, t1, -, -, t4, t5, -⟩ :=
        epoch_setup hsc' hstart d1.txCap d1.slots d1.answered d1.submit d1.sign
      obtain ⟨-, e2, e3⟩ := produced_shape r2 d1.produce
      have hwit := r.withdrawals (Or.inr (by rw [t1]; exact hok.fits))
      rw [t5, t1, List.drop_zero, List.nil_append] at hwit
      have hw : withdrawalsBy P.contract (d.executed cv P.hs P.contract) = if a = 0 then [] else [(owner, a)] := by
        rw [d3, withdrawalsBy, List.flatMap_map, ← g5 hc]; rfl
      have hwit' : d.fin.withdrawals = if a = 0 then [] else [(owner, a)] := by rw [← hw]; exact hwit
      rw [e3, hwit', d2]
      split <;> simp
  · right
    rcases x3 with rfl | ⟨e, e'⟩
    · exact ⟨txs, s1, x1, x2, x4⟩
    · obtain ⟨t, _, rfl⟩ := List.mem_map.1 e
      exact absurd e' ho

/-- Submitted transactions are valid. -/
theorem submitted_valid {b : Build} {cv : Curve p q G} {hs : Hashes p} {rollup : G} {s : Agg.State p q G}
    {d : Agg.Executed p q G} {sc : Nat → G} (hsc : SignerLeaves b cv hs s sc) (hd : d.From b cv hs rollup s) :
    ∀ x ∈ d.txs, x.2.isValid b (some x.1) = .ok () := by
  have h0 : SignerLeaves b cv hs d.start sc := by rw [hd.reset]; exact reset_leaves hsc
  have hst : EpochStart d.start := by rw [hd.reset]; exact reset_start cv hs s
  obtain ⟨hreach, _, c, hi⟩ := signerLeaves_inv h0
  obtain ⟨done, rest, t, prs, e1, e2, e3, o, e4, e5⟩ := processTransactions_spec (b := b) d.txs _ hi
    (by rw [hst.transactions]; simpa using hd.txCap)
  rw [hd.submit] at e4
  obtain ⟨-, rfl⟩ := Prod.mk.inj e4
  rcases e5 with ⟨rfl, _⟩ | ⟨x, rest', _, hne, heq⟩
  · rw [List.append_nil] at e1
    rw [e1]; exact e2
  · exact absurd heq.symm hne

/-- UTXOs of a positive amount. -/
def positive (u : UTXO Nat G) : Bool := decide (0 < u.amount)

/-- A transaction that conserves value and withdraws nothing takes at most three more UTXOs of positive amount out of the
ledger than it puts in. -/
theorem positive_drop {rollup : G} {t : Tx Nat G} (he : totalOf t.inputs.toList = totalOf t.outputs.toList)
    (hw : t.withdrawn rollup = 0) : (t.spends rollup).countP positive ≤ (t.creates rollup).countP positive + 3 := by
  have h4 : (t.spends rollup).countP positive ≤ 4 := by
    refine le_trans List.countP_le_length (le_trans (List.length_filter_le _ _) ?_)
    rw [Vector.length_toList]
  by_contra hlt
  have h0 : 0 < (t.spends rollup).countP positive := by omega
  obtain ⟨u, hu, hp⟩ := List.countP_pos_iff.1 h0
  obtain ⟨hu, hon⟩ := List.mem_filter.1 hu
  have hreal : u.isDummy = false ∧ u.pk ≠ rollup := by simpa [UTXO.onLedger] using hon
  have hin : 0 < totalOf t.inputs.toList := by
    refine lt_of_lt_of_le (of_decide_eq_true hp) ?_
    refine List.single_le_sum (fun _ _ => Nat.zero_le _) _ (List.mem_map.2 ⟨u, hu, ?_⟩)
    rw [if_neg (by simp [hreal.1])]
  rw [he] at hin
  have : ∃ v ∈ t.outputs.toList, 0 < (if v.isDummy then 0 else v.amount) := by
    by_contra hno
    push Not at hno
    have : totalOf t.outputs.toList = 0 := by
      unfold totalOf
      refine List.sum_eq_zero fun x hx => ?_
      obtain ⟨v, hv, rfl⟩ := List.mem_map.1 hx
      exact Nat.le_zero.1 (hno v hv)
    omega
  obtain ⟨v, hv, hpos⟩ := this
  have hvd : v.isDummy = false := by
    rcases hd : v.isDummy with _ | _
    · rfl
    · rw [hd] at hpos; simp at hpos
  rw [if_neg (by simp [hvd])] at hpos
  have hvk : v.pk ≠ rollup := by
    intro e
    have : 0 < t.withdrawn rollup := by
      refine lt_of_lt_of_le hpos ?_
      refine List.single_le_sum (fun _ _ => Nat.zero_le _) _
        (List.mem_map.2 ⟨v, List.mem_filter.2 ⟨hv, by simp [e]⟩, ?_⟩)
      rw [if_neg (by simp [hvd])]
    omega
  have : 0 < (t.creates rollup).countP positive :=
    List.countP_pos_iff.2 ⟨v, List.mem_filter.2 ⟨hv, by simp [UTXO.onLedger, hvd, hvk]⟩, decide_eq_true hpos⟩
  omega

/-- The same over a lifetime. -/
theorem lifetime_moves {b : Build} {cv : Curve p q G} {hs : Hashes p} {rollup : G} (ds : List (Agg.Executed p q G)) :
    ∀ (s s' : Agg.State p q G) (sc : Nat → G), SignerLeaves b cv hs s sc → Lifetime b cv hs rollup s ds s' →
    (∀ d ∈ ds, b = .debug ∨ ∀ x ∈ d.txs, totalOf x.2.inputs.toList < U64 ∧ totalOf x.2.outputs.toList < U64) →
    (∀ d ∈ ds, ∀ y ∈ d.executed cv hs rollup, y.1.withdrawn rollup = 0) →
    ∃ S C : List (UTXO Nat G), (∀ u ∈ S ++ C, u.isDummy = false) ∧
      (∀ u : UTXO Nat G, u.isDummy = false → live s' u + S.count u = live s u + C.count u) ∧
      S.countP positive ≤ C.countP positive + 3 * (ds.map fun d => (d.executed cv hs rollup).length).sum := by
  induction ds with
  | nil =>
    intro s s' sc _ hl _ _
    rw [show s' = s from hl]
    exact ⟨[], [], by simp, by simp, by simp⟩
  | cons d ds ih =>
    intro s s' sc hsc hl hsum hw
    obtain ⟨hd, hl⟩ := hl
    obtain ⟨S, C, i1, i2, i3⟩ := ih d.fin s' _ (epoch_leaves hd hsc).2.1 hl (fun d' hd' => hsum d' (by simp [hd']))
      (fun d' hd' => hw d' (by simp [hd']))
    have hval := submitted_valid hsc hd
    have hdrop : ∀ y ∈ d.executed cv hs rollup,
        (y.1.spends rollup).countP positive ≤ (y.1.creates rollup).countP positive + 3 := by
      intro y hy
      refine positive_drop ?_ (hw d (by simp) y hy)
      obtain ⟨z, hz, rfl⟩ := List.mem_map.1 hy
      have hz := (List.of_mem_zip (List.mem_filter.1 hz).1).1
      obtain ⟨x, hx, hxz⟩ := List.mem_map.1 hz
      have := (C21_conservation b x.2 (some x.1) (hval x hx)).2 ((hsum d (by simp)).imp id fun hh => hh x hx)
      rw [hxz] at this
      exact this
    have hall : ∀ l : List (Tx Nat G × G), (∀ y ∈ l, (y.1.spends rollup).countP positive ≤
        (y.1.creates rollup).countP positive + 3) →
        (spentBy rollup l).countP positive ≤ (createdBy rollup l).countP positive + 3 * l.length := by
      intro l
      induction l with
      | nil => intro _; simp [spentBy, createdBy]
      | cons y l ihl =>
        intro hy
        have h1 := hy y (by simp)
        have h2 := ihl fun z hz => hy z (by simp [hz])
        unfold spentBy createdBy at h2 ⊢
        rw [List.flatMap_cons, List.flatMap_cons, List.countP_append, List.countP_append, List.length_cons]
        omega
    have hd3 := hall _ hdrop
    refine ⟨spentBy rollup (d.executed cv hs rollup) ++ S, createdBy rollup (d.executed cv hs rollup) ++ C, ?_, ?_, ?_⟩
    · intro u hu
      have key : ∀ l : List (UTXO Nat G), u ∈ l.filter (·.onLedger rollup) → u.isDummy = false := by
        intro l hl
        have := (List.mem_filter.1 hl).2
        simp [UTXO.onLedger] at this
        exact this.1
      simp only [List.mem_append] at hu i1
      rcases hu with (hu | hu) | (hu | hu)
      · obtain ⟨y, _, hu⟩ := List.mem_flatMap.1 hu
        exact key _ hu
      · exact i1 u (Or.inl hu)
      · obtain ⟨y, _, hu⟩ := List.mem_flatMap.1 hu
        exact key _ hu
      · exact i1 u (Or.inr hu)
    · intro u hu
      have h1 := epoch_live hsc hd u hu
      have h2 := i2 u hu
      rw [List.count_append, List.count_append]
      omega
    · rw [List.countP_append, List.countP_append, List.map_cons, List.sum_cons]
      omega

/-- **C130** (and no fewer transactions do): if, over any number of epochs in which nothing is withdrawn, the only
difference in the ledger is that `n ≥ 2` UTXOs of positive amounts of an owner have become one UTXO of their total, of the
owner or somebody else, then at least `1 + (n - 2) / 3` transactions were executed, as many as
`C130_pay_any_amount` needs. (Release builds: no totals overflow.) -/
theorem C130_no_fewer (b : Build) (cv : Curve p q G) (hs : Hashes p) (rollup : G) (ds : List (Agg.Executed p q G))
    (s s' : Agg.State p q G) (hl : Lifetime b cv hs rollup s ds s') (sc : Nat → G) (hsc : SignerLeaves b cv hs s sc)
    (hsum : ∀ d ∈ ds, b = .debug ∨
      ∀ x ∈ d.txs, totalOf x.2.inputs.toList < U64 ∧ totalOf x.2.outputs.toList < U64)
    (hw : ∀ d ∈ ds, ∀ y ∈ d.executed cv hs rollup, y.1.withdrawn rollup = 0)
    (owner receiver : G) (amounts : List Nat) (hpos : ∀ x ∈ amounts, 0 < x) (hn : 2 ≤ amounts.length)
    (hmove : ∀ u : UTXO Nat G, u.isDummy = false → live s' u + (holdings owner amounts).count u =
      live s u + [UTXO.new receiver amounts.sum].count u) :
    1 + (amounts.length - 2) / 3 ≤ (ds.map fun d => (d.executed cv hs rollup).length).sum := by
  obtain ⟨S, C, h1, h2, h3⟩ := lifetime_moves ds s s' sc hsc hl hsum hw
  have hperm : (C ++ holdings owner amounts).Perm (S ++ [UTXO.new receiver amounts.sum]) := by
    rw [List.perm_iff_count]
    intro u
    rw [List.count_append, List.count_append]
    by_cases hu : u.isDummy = false
    · have := h2 u hu
      have := hmove u hu
      omega
    · have z : ∀ l : List (UTXO Nat G), (∀ v ∈ l, v.isDummy = false) → l.count u = 0 := fun l hl' =>
        List.count_eq_zero.2 fun hm => hu (hl' u hm)
      rw [z C fun v hv => h1 v (by simp [hv]), z S fun v hv => h1 v (by simp [hv]), z _ (by
        intro v hv
        obtain ⟨x, _, rfl⟩ := List.mem_map.1 hv; rfl), z _ (by
        intro v hv
        rw [List.mem_singleton.1 hv]; rfl)]
  have hc := hperm.countP_eq positive
  have e1 : (holdings owner amounts).countP positive = amounts.length := by
    rw [show amounts.length = (holdings owner amounts).length by simp [holdings], List.countP_eq_length]
    intro u hu
    obtain ⟨x, hx, rfl⟩ := List.mem_map.1 hu
    exact decide_eq_true (hpos x hx)
  have e2 : ([UTXO.new receiver amounts.sum] : List (UTXO Nat G)).countP positive ≤ 1 := by
    exact List.countP_le_length
  rw [List.countP_append, List.countP_append, e1] at hc
  omega

end PF.Props
