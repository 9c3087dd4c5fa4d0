import Verif.Spec.EndToEnd
import Verif.Props.AggregatorCalls

/-!
# Balances of keys in the ledger
-/

set_option linter.unusedSectionVars false

namespace PF.Spec
open PF PF.MT PF.Agg

variable {p q : Nat} {G : Type} [AddCommGroup G] [Module (ZMod q) G] [DecidableEq G]
variable {b : Build} {cv : Curve p q G} {hs : Hashes p}

/-- The real UTXOs among the first `n` slots. -/
def realSlots (c : Nat → UTXO Nat G) (n : Nat) : List (UTXO Nat G) :=
  ((List.range n).map c).filter fun u => !u.isDummy

theorem totalOf_real (l : List (UTXO Nat G)) : totalOf (l.filter fun u => !u.isDummy) = totalOf l := by
  unfold totalOf
  induction l with
  | nil => rfl
  | cons u l ih => cases hu : u.isDummy <;> simp [hu, ih]

theorem totalOf_perm {a b : List (UTXO Nat G)} (h : a.Perm b) : totalOf a = totalOf b :=
  (h.map _).sum_eq

theorem totalOf_flatMap {α : Type} (l : List α) (f : α → List (UTXO Nat G)) :
    totalOf (l.flatMap f) = (l.map fun a => totalOf (f a)).sum := by
  induction l with
  | nil => rfl
  | cons a l ih => rw [List.flatMap_cons, totalOf_append, ih]; rfl

theorem count_realSlots (c : Nat → UTXO Nat G) (n : Nat) (u : UTXO Nat G) (hu : u.isDummy = false) :
    (realSlots c n).count u = copies c n u := by
  unfold realSlots copies
  rw [List.count_filter (by simp [hu]), List.count, List.countP_map]
  rfl

theorem heldBy_real (c : Nat → UTXO Nat G) (n : Nat) (k : G) :
    heldBy c n k = totalOf ((realSlots c n).filter fun u => u.pk = k) := by
  unfold heldBy realSlots
  rw [← totalOf_real, List.filter_filter, List.filter_filter]
  congr 1
  apply List.filter_congr
  intro u _
  exact Bool.and_comm _ _

/-- Number of live copies from the array. -/
theorem live_copies {s : Agg.State p q G} {c : Nat → UTXO Nat G} {sc : Nat → G} (h : Inv cv hs s c sc)
    (u : UTXO Nat G) (hu : u.isDummy = false) : copies c UTXO_CAP u = live s u :=
  copies_eq_length (h.holds.nodup u) (fun i => h.holds.pos u hu i)
    fun i hi => lt_of_lt_of_le (h.pos_lt hu hi) h.nextCap

/-- From multiplicities to balances. -/
theorem held_of_counts {c c' : Nat → UTXO Nat G} {n : Nat} {a m : List (UTXO Nat G)} (k : G)
    (ha : ∀ u ∈ a, u.isDummy = false) (hm : ∀ u ∈ m, u.isDummy = false)
    (h : ∀ u : UTXO Nat G, u.isDummy = false → copies c' n u + a.count u = copies c n u + m.count u) :
    heldBy c' n k + totalOf (a.filter fun u => u.pk = k) =
      heldBy c n k + totalOf (m.filter fun u => u.pk = k) := by
  have hp : (realSlots c' n ++ a).Perm (realSlots c n ++ m) := by
    rw [List.perm_iff_count]
    intro u
    rw [List.count_append, List.count_append]
    by_cases hu : u.isDummy = true
    · have h0 : ∀ l : List (UTXO Nat G), (∀ u ∈ l, u.isDummy = false) → l.count u = 0 := fun l hl =>
        List.count_eq_zero_of_not_mem fun hmem => by
          have := hl u hmem; rw [hu] at this; cases this
      rw [h0 a ha, h0 m hm, h0 (realSlots c n) (by simp [realSlots]), h0 (realSlots c' n) (by simp [realSlots])]
    · have hu : u.isDummy = false := by simpa using hu
      rw [count_realSlots _ _ _ hu, count_realSlots _ _ _ hu]
      exact h u hu
  have := totalOf_perm (hp.filter fun u => decide (u.pk = k))
  rw [List.filter_append, List.filter_append, totalOf_append, totalOf_append] at this
  rw [heldBy_real, heldBy_real]
  exact this

theorem paidBy_spends {rollup k : G} (hk : k ≠ rollup) (t : Tx Nat G) :
    totalOf ((t.spends rollup).filter fun u => u.pk = k) = paidBy k t := by
  unfold Tx.spends paidBy
  rw [List.filter_filter, ← totalOf_real (List.filter (fun u => decide (u.pk = k)) t.inputs.toList), List.filter_filter]
  congr 1
  apply List.filter_congr
  intro u _
  by_cases h : u.pk = k
  · simp [UTXO.onLedger, h, hk]
  · simp [h]

theorem paidTo_creates {rollup k : G} (hk : k ≠ rollup) (t : Tx Nat G) :
    totalOf ((t.creates rollup).filter fun u => u.pk = k) = paidTo k t := by
  unfold Tx.creates paidTo
  rw [List.filter_filter, ← totalOf_real (List.filter (fun u => decide (u.pk = k)) t.outputs.toList), List.filter_filter]
  congr 1
  apply List.filter_congr
  intro u _
  by_cases h : u.pk = k
  · simp [UTXO.onLedger, h, hk]
  · simp [h]

theorem paidBy_spentBy {rollup k : G} (hk : k ≠ rollup) (as : List (Tx Nat G × G)) :
    totalOf ((spentBy rollup as).filter fun u => u.pk = k) = (as.map fun x => paidBy k x.1).sum := by
  unfold spentBy
  rw [List.filter_flatMap, totalOf_flatMap]
  congr 1
  apply List.map_congr_left
  intro x _
  exact paidBy_spends hk x.1

theorem paidTo_createdBy {rollup k : G} (hk : k ≠ rollup) (as : List (Tx Nat G × G)) :
    totalOf ((createdBy rollup as).filter fun u => u.pk = k) = (as.map fun x => paidTo k x.1).sum := by
  unfold createdBy
  rw [List.filter_flatMap, totalOf_flatMap]
  congr 1
  apply List.map_congr_left
  intro x _
  exact paidTo_creates hk x.1

theorem spentBy_real {rollup : G} {as : List (Tx Nat G × G)} : ∀ u ∈ spentBy rollup as, u.isDummy = false := by
  intro u hu
  simp only [spentBy, List.mem_flatMap, Tx.spends, List.mem_filter, UTXO.onLedger] at hu
  obtain ⟨_, _, _, h⟩ := hu
  have := (Bool.and_eq_true _ _ ▸ h : (!u.isDummy) = true ∧ _).1
  simpa using this

theorem createdBy_real {rollup : G} {as : List (Tx Nat G × G)} :
    ∀ u ∈ createdBy rollup as, u.isDummy = false := by
  intro u hu
  simp only [createdBy, List.mem_flatMap, Tx.creates, List.mem_filter, UTXO.onLedger] at hu
  obtain ⟨_, _, _, h⟩ := hu
  have := (Bool.and_eq_true _ _ ▸ h : (!u.isDummy) = true ∧ _).1
  simpa using this

end PF.Spec
