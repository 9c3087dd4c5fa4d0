import Verif.Spec.Gather
import Verif.Props.Liveness

/-!
# Payments out of many UTXOs: the transactions
-/
set_option linter.unusedSectionVars false

namespace PF.Agg
open PF PF.Spec PF.Props
variable {G : Type} [AddCommGroup G] [DecidableEq G]

/-- Up to four UTXOs in the slots of a transaction. -/
def slots4 (l : List (UTXO Nat G)) : Vector (UTXO Nat G) TX_IO_SIZE :=
  #v[l.getD 0 UTXO.dummy, l.getD 1 UTXO.dummy, l.getD 2 UTXO.dummy, l.getD 3 UTXO.dummy]

theorem slots4_toList (l : List (UTXO Nat G)) (h : l.length ≤ 4) :
    (slots4 l).toList = l ++ List.replicate (4 - l.length) UTXO.dummy := by
  rcases l with _ | ⟨a, _ | ⟨b, _ | ⟨c, _ | ⟨d, _ | ⟨e, l⟩⟩⟩⟩⟩
  · rfl
  · rfl
  · rfl
  · rfl
  · rfl
  · simp at h; omega

/-- A transaction that takes UTXOs of `owner` with the given amounts and pays the given keys. -/
def spendTx (owner : G) (as : List Nat) (outs : List (G × Nat)) : Tx Nat G :=
  ⟨slots4 (holdings owner as), slots4 (outs.map fun o => UTXO.new o.1 o.2)⟩

theorem totalOf_app (x y : List (UTXO Nat G)) : totalOf (x ++ y) = totalOf x + totalOf y := by
  simp [totalOf]

theorem totalOf_dummies (n : Nat) : totalOf (List.replicate n (UTXO.dummy : UTXO Nat G)) = 0 := by
  simp [totalOf, UTXO.dummy]

theorem totalOf_news (outs : List (G × Nat)) :
    totalOf (outs.map fun o => UTXO.new o.1 o.2) = (outs.map (·.2)).sum := by
  simp [totalOf, UTXO.new, Function.comp_def]

theorem totalOf_holdings (owner : G) (as : List Nat) : totalOf (holdings owner as) = as.sum := by
  simp [totalOf, holdings, UTXO.new, Function.comp_def]

section
variable {owner : G} {as : List Nat} {outs : List (G × Nat)} (h1 : as.length ≤ 4) (h2 : outs.length ≤ 4)
include h1 h2

theorem spendTx_inputs : (spendTx owner as outs).inputs.toList =
    holdings owner as ++ List.replicate (4 - as.length) UTXO.dummy := by
  have := slots4_toList (holdings owner as) (by simpa [holdings] using h1)
  rw [show (holdings owner as).length = as.length by simp [holdings]] at this
  exact this

theorem spendTx_outputs : (spendTx owner as outs).outputs.toList =
    (outs.map fun o => UTXO.new o.1 o.2) ++ List.replicate (4 - outs.length) UTXO.dummy := by
  have := slots4_toList (outs.map fun o => UTXO.new o.1 o.2) (by simpa using h2)
  rw [List.length_map] at this
  exact this

theorem spendTx_totals : totalOf (spendTx owner as outs).inputs.toList = as.sum ∧
    totalOf (spendTx owner as outs).outputs.toList = (outs.map (·.2)).sum := by
  rw [spendTx_inputs h1 h2, spendTx_outputs h1 h2, totalOf_app, totalOf_app, totalOf_dummies, totalOf_dummies,
    totalOf_holdings, totalOf_news]
  exact ⟨rfl, rfl⟩

theorem spendTx_valid (b : Build) (hs : as.sum < U64) (he : as.sum = (outs.map (·.2)).sum) :
    (spendTx owner as outs).isValid b (some owner) = .ok () := by
  obtain ⟨t1, t2⟩ := spendTx_totals (owner := owner) h1 h2
  rw [C20_is_valid_decision, if_neg, t1, t2, if_pos ⟨hs, he ▸ hs⟩, if_pos he]
  rw [not_not]
  intro u hu hd
  rw [spendTx_inputs h1 h2] at hu
  rcases List.mem_append.1 hu with hu | hu
  · obtain ⟨a, _, rfl⟩ := List.mem_map.1 hu; rfl
  · rw [List.eq_of_mem_replicate hu] at hd; cases hd

theorem spendTx_u64 (hs : as.sum < U64) (he : as.sum = (outs.map (·.2)).sum) :
    (spendTx owner as outs).U64Amounts := by
  have h0 : (0 : Nat) < U64 := by decide
  intro u hu
  have hu : u ∈ (spendTx owner as outs).inputs.toList ∨ u ∈ (spendTx owner as outs).outputs.toList := by
    simpa [Tx.ios] using hu
  rw [spendTx_inputs h1 h2, spendTx_outputs h1 h2] at hu
  rcases hu with hu | hu <;> rcases List.mem_append.1 hu with hu | hu
  · obtain ⟨a, ha, rfl⟩ := List.mem_map.1 hu
    exact lt_of_le_of_lt (List.single_le_sum (fun _ _ => Nat.zero_le _) _ ha) hs
  · rw [List.eq_of_mem_replicate hu]; exact h0
  · obtain ⟨o, ho, rfl⟩ := List.mem_map.1 hu
    exact lt_of_le_of_lt (List.single_le_sum (fun _ _ => Nat.zero_le _) _ (List.mem_map.2 ⟨o, ho, rfl⟩)) (he ▸ hs)
  · rw [List.eq_of_mem_replicate hu]; exact h0

theorem spendTx_spends {rollup : G} (ho : owner ≠ rollup) :
    (spendTx owner as outs).spends rollup = holdings owner as := by
  unfold Tx.spends
  rw [spendTx_inputs h1 h2, List.filter_append, List.filter_eq_self.2, List.filter_eq_nil_iff.2, List.append_nil]
  · intro u hu
    rw [List.eq_of_mem_replicate hu]; simp [UTXO.onLedger, UTXO.dummy]
  · intro u hu
    obtain ⟨a, _, rfl⟩ := List.mem_map.1 hu
    simp [UTXO.onLedger, UTXO.new, ho]

theorem spendTx_creates (rollup : G) : (spendTx owner as outs).creates rollup =
    (outs.filter fun o => decide (o.1 ≠ rollup)).map fun o => UTXO.new o.1 o.2 := by
  have hz : (List.replicate (4 - outs.length) (UTXO.dummy : UTXO Nat G)).filter (fun x => UTXO.onLedger rollup x) = [] := by
    rw [List.filter_eq_nil_iff]
    intro u hu
    rw [List.eq_of_mem_replicate hu]; simp [UTXO.onLedger, UTXO.dummy]
  unfold Tx.creates
  rw [spendTx_outputs h1 h2, List.filter_append, hz, List.append_nil, List.filter_map]
  rfl

theorem spendTx_withdrawn (rollup : G) : (spendTx owner as outs).withdrawn rollup =
    ((outs.filter fun o => decide (o.1 = rollup)).map (·.2)).sum := by
  unfold Tx.withdrawn
  rw [spendTx_outputs h1 h2, List.filter_append, totalOf_app, List.filter_map, List.filter_replicate]
  have : totalOf (if decide ((UTXO.dummy : UTXO Nat G).pk = rollup) = true then
      List.replicate (4 - outs.length) (UTXO.dummy : UTXO Nat G) else []) = 0 := by
    split
    · exact totalOf_dummies _
    · rfl
  rw [this, Nat.add_zero, totalOf_news]
  rfl

end

/-- What the transactions of a plan have in common. -/
structure Fine (b : Build) (owner receiver : G) (t : Tx Nat G) : Prop where
  valid : t.isValid b (some owner) = .ok ()
  amounts : t.U64Amounts
  sums : totalOf t.inputs.toList < U64 ∧ totalOf t.outputs.toList < U64
  outs : ∀ u ∈ t.outputs.toList, u.isDummy = false → u.pk = owner ∨ u.pk = receiver

theorem spendTx_fine (b : Build) {owner receiver : G} {as : List Nat} {outs : List (G × Nat)} (h1 : as.length ≤ 4)
    (h2 : outs.length ≤ 4) (hs : as.sum < U64) (he : as.sum = (outs.map (·.2)).sum)
    (ho : ∀ o ∈ outs, o.1 = owner ∨ o.1 = receiver) : Fine b owner receiver (spendTx owner as outs) := by
  obtain ⟨t1, t2⟩ := spendTx_totals (owner := owner) h1 h2
  refine ⟨spendTx_valid h1 h2 b hs he, spendTx_u64 h1 h2 hs he, by rw [t1, t2]; exact ⟨hs, he ▸ hs⟩, fun u hu hd => ?_⟩
  rw [spendTx_outputs h1 h2] at hu
  rcases List.mem_append.1 hu with hu | hu
  · obtain ⟨o, h, rfl⟩ := List.mem_map.1 hu
    exact ho o h
  · rw [List.eq_of_mem_replicate hu] at hd; cases hd

theorem holdings_count (owner : G) (as : List Nat) (x : Nat) :
    (holdings owner as).count (UTXO.new owner x) = as.count x :=
  List.count_map_of_injective as _ (fun a a' h => congrArg UTXO.amount h) x

theorem holdings_le {owner : G} {as : List Nat} {f : UTXO Nat G → Nat} (h : ∀ x, as.count x ≤ f (UTXO.new owner x))
    (u : UTXO Nat G) : (holdings owner as).count u ≤ f u := by
  by_cases hu : u ∈ holdings owner as
  · obtain ⟨x, _, rfl⟩ := List.mem_map.1 hu
    rw [holdings_count]; exact h x
  · rw [List.count_eq_zero.2 hu]; exact Nat.zero_le _

/-- Four UTXOs at a time are merged, until the last transaction pays. -/
theorem gather_plan (b : Build) {rollup owner receiver : G} (ho : owner ≠ rollup) (a : Nat) (n : Nat) :
    ∀ (as : List Nat) (f : UTXO Nat G → Nat), as.length = n → (∀ x, as.count x ≤ f (UTXO.new owner x)) → a ≤ as.sum →
    as.sum < U64 → ∃ ts : List (Tx Nat G), ts.length = 1 + (as.length - 2) / 3 ∧ (∀ t ∈ ts, Fine b owner receiver t) ∧
      Affordable rollup f ts ∧
      (∀ u, (createdUTXOs rollup ts).count u + (holdings owner as).count u =
        (spentUTXOs rollup ts).count u + (paidOut rollup owner receiver a (as.sum - a)).count u) ∧
      (receiver = rollup → (ts.flatMap fun t => t.withdrawalsOf rollup owner) = if a = 0 then [] else [(owner, a)]) := by
  induction n using Nat.strong_induction_on with
  | _ n ih =>
    intro as f hn hf ha hs
    by_cases h4 : as.length ≤ 4
    · generalize hc : as.sum - a = c
      obtain ⟨outs, hout⟩ : ∃ outs, outs = (receiver, a) :: if c = 0 then [] else [(owner, c)] := ⟨_, rfl⟩
      have h2 : outs.length ≤ 4 := by rw [hout]; split <;> simp
      have he : as.sum = (outs.map (·.2)).sum := by
        rw [hout]
        by_cases h0 : c = 0
        · rw [if_pos h0]; simp; omega
        · rw [if_neg h0]; simp; omega
      have hsp := spendTx_spends (owner := owner) h4 h2 ho
      have hcr := spendTx_creates (owner := owner) h4 h2 rollup
      have hcr' : (spendTx owner as outs).creates rollup = paidOut rollup owner receiver a c := by
        rw [hcr, hout]
        unfold paidOut
        by_cases h0 : c = 0 <;> by_cases hr : receiver = rollup <;> simp [h0, hr, ho]
      refine ⟨[spendTx owner as outs], by simp; omega, ?_, ?_, ?_, ?_⟩
      · intro t ht
        rw [List.mem_singleton.1 ht]
        refine spendTx_fine b h4 h2 hs he fun o h => ?_
        rw [hout] at h
        rcases List.mem_cons.1 h with rfl | h
        · exact Or.inr rfl
        · split at h
          · cases h
          · rw [List.mem_singleton.1 h]; exact Or.inl rfl
      · rw [affordable_cons]
        refine ⟨fun u => ?_, affordable_nil _ _⟩
        rw [hsp]; exact holdings_le hf u
      · intro u
        simp only [createdUTXOs, spentUTXOs, List.flatMap_cons, List.flatMap_nil, List.append_nil]
        rw [hsp, hcr', Nat.add_comm]
      · intro hr
        have hw : (spendTx owner as outs).withdrawn rollup = a := by
          rw [spendTx_withdrawn h4 h2, hout]
          by_cases h0 : c = 0 <;> simp [h0, hr, ho]
        simp [Tx.withdrawalsOf, hw]
    · rcases as with _ | ⟨x1, _ | ⟨x2, _ | ⟨x3, _ | ⟨x4, rest⟩⟩⟩⟩
      iterate 4 simp at h4
      obtain ⟨y, hy⟩ : ∃ y, y = x1 + x2 + x3 + x4 := ⟨_, rfl⟩
      have e1 : ([x1, x2, x3, x4] : List Nat).length ≤ 4 := by simp
      have e2 : ([(owner, y)] : List (G × Nat)).length ≤ 4 := by simp
      have hsum : (x1 :: x2 :: x3 :: x4 :: rest).sum = y + rest.sum := by
        simp only [List.sum_cons]; omega
      have he : ([x1, x2, x3, x4] : List Nat).sum = (([(owner, y)] : List (G × Nat)).map (·.2)).sum := by
        simp; omega
      have hs4 : ([x1, x2, x3, x4] : List Nat).sum < U64 := by
        refine lt_of_le_of_lt ?_ hs
        simp
      have hsp := spendTx_spends (owner := owner) e1 e2 ho
      have hcr : (spendTx owner [x1, x2, x3, x4] [(owner, y)]).creates rollup = [UTXO.new owner y] := by
        rw [spendTx_creates e1 e2]; simp [ho]
      have hsplit : ∀ x, (x1 :: x2 :: x3 :: x4 :: rest).count x = [x1, x2, x3, x4].count x + rest.count x := by
        intro x
        rw [← List.count_append]; rfl
      have hlen : (x1 :: x2 :: x3 :: x4 :: rest).length = rest.length + 4 := by simp
      rw [hlen] at hn h4
      obtain ⟨ts, g1, g2, g3, g4, g5⟩ := ih (y :: rest).length (by rw [List.length_cons]; omega) (y :: rest)
        (fun u => f u - ((spendTx owner [x1, x2, x3, x4] [(owner, y)]).spends rollup).count u +
          ((spendTx owner [x1, x2, x3, x4] [(owner, y)]).creates rollup).count u) rfl (by
          intro x
          have h1 := hf x
          rw [hsplit] at h1
          show _ ≤ f (UTXO.new owner x) - _ + _
          rw [hsp, hcr, holdings_count, show ([UTXO.new owner y] : List (UTXO Nat G)) = holdings owner [y] from rfl,
            holdings_count, show (y :: rest).count x = [y].count x + rest.count x by rw [← List.count_append]; rfl]
          omega) (by rw [List.sum_cons, ← hsum]; exact ha) (by rw [List.sum_cons, ← hsum]; exact hs)
      refine ⟨spendTx owner [x1, x2, x3, x4] [(owner, y)] :: ts, ?_, ?_, ?_, ?_, ?_⟩
      · rw [List.length_cons, g1, hlen, List.length_cons]
        omega
      · intro t ht
        rcases List.mem_cons.1 ht with rfl | ht
        · exact spendTx_fine b e1 e2 hs4 he (by simp)
        · exact g2 t ht
      · rw [affordable_cons]
        refine ⟨fun u => ?_, g3⟩
        rw [hsp]
        exact holdings_le (fun x => le_trans (by rw [hsplit]; omega) (hf x)) u
      · intro u
        have := g4 u
        rw [List.sum_cons, ← hsum] at this
        simp only [createdUTXOs, spentUTXOs, List.flatMap_cons, List.count_append] at this ⊢
        rw [hsp, hcr]
        have c1 : (holdings owner (x1 :: x2 :: x3 :: x4 :: rest)).count u =
            (holdings owner [x1, x2, x3, x4]).count u + (holdings owner rest).count u := by
          rw [← List.count_append]; rfl
        have c2 : (holdings owner (y :: rest)).count u = ([UTXO.new owner y] : List (UTXO Nat G)).count u +
            (holdings owner rest).count u := by
          rw [← List.count_append]; rfl
        rw [c1]
        rw [c2] at this
        omega
      · intro hr
        have hw : (spendTx owner [x1, x2, x3, x4] [(owner, y)]).withdrawn rollup = 0 := by
          rw [spendTx_withdrawn e1 e2]; simp [ho]
        rw [List.flatMap_cons, g5 hr]
        simp [Tx.withdrawalsOf, hw]

end PF.Agg
