import Verif.Props.AggregatorStorage
import Verif.Props.CasesEpoch

/-!
# Concrete cases for C116 and C117
-/
set_option linter.unusedSectionVars false

namespace PF.Props
open PF PF.MT PF.Agg PF.Spec

/-- The toy tree (positions 2 and 0 written) and one built from a map with the same leaves. -/
theorem toyTree_on : BuiltOn toy toyTree (contents (fun _ => 0) [(2, 7), (0, 4), (2, 9)])
    (fun i => i = 2 ∨ i = 0) := by
  obtain ⟨W, hW⟩ := toyTree_built.on
  have hs := hW.stored (by decide)
  have hr := hW.in_range
  have : W = fun i => i = 2 ∨ i = 0 := by
    funext i
    apply propext
    by_cases hi : i < 4
    · rw [← hs i hi]
      have : ∀ i, i < 4 → ((toyTree.tree.get (hidx (toy.height - 1) i)).isSome = true ↔ (i = 2 ∨ i = 0)) := by
        decide
      exact this i hi
    · constructor
      · intro h; exact absurd (hr i h) hi
      · intro h; omega
  rwa [this] at hW

example := C116_stored toy (by decide) _ _ _ toyTree_on

/-- Five of the seven nodes are stored. -/
example : toyTree.tree.keys = [0, 1, 2, 3, 5] := by decide

example := C116_size toy (by decide) _ _ _ toyTree_on [2, 0]

/-- The same contents reached in another way give the same structure. -/
theorem toy_other : ∃ t, MT.new toy [(0, 4), (2, 9)] = .ok t ∧ t = toyTree ∧
    BuiltOn toy t (fun i => (BMap.get [(0, 4), (2, 9)] i).getD 0) (fun i => i ∈ BMap.keys [(0, 4), (2, 9)]) :=
  ⟨toyTree, by decide, rfl, .new (by decide) (by decide) (by decide)⟩

example : ∀ i, (i = 2 ∨ i = 0) ↔ i ∈ BMap.keys [(0, 4), (2, 9)] := by
  intro i; simp [BMap.keys, or_comm]

/-- C116: the structure depends on the written positions, not on the contents alone: writing the default
leaf keeps contents and root but stores three more digests. -/
theorem C116_writing_default_stores : ∃ t t' π, blank toy = .ok t ∧
    (updateAndProve toy t 1 0 : Outcome Unit _) = .ok (t', π) ∧ t'.root = t.root ∧ t.tree = [] ∧
    t'.tree.length = 3 := by
  exact ⟨_, _, _, rfl, rfl, by decide, rfl, by decide⟩

example : ∃ t' π, (updateAndProve toy toyTree 3 8 : Outcome Unit _) = .ok (t', π) ∧
    t'.tree.keys = [0, 1, 2, 3, 5, 6] := ⟨_, _, rfl, by decide⟩

end PF.Props

namespace PF.CasesEpoch
open PF PF.Spec PF.MT PF.AggC PF.Circuit PF.Contract PF.Agg PF.Props
open PF.Cases (F K k0 a b ha hb hab h0 ha0 hb0)

/-- The books of the epoch in which a deposit is paid on and withdrawn. -/
theorem tri_answers {G : Type} [AddCommGroup G] [DecidableEq G] {q : Nat} (bd : Build) {rollup a b : G} (ha : a ≠ rollup) (hb : b ≠ rollup)
    (m : Nat) (hm : m < 2 ^ 64) (ap : Tx Nat G → Pair q G → Bool)
    (h1 : ap (depositTx rollup a m) (rollup, none) = true) (h2 : ap (payTx a b m) (a, some (0, 1)) = true)
    (h3 : ap (payTx b rollup m) (b, some (5, 1)) = true) (B : Book G) (hp : B.pool = 0) (he : B.ever = [])
    (ht : B.transactions = (triTxs rollup a b m).map (·.2)) :
    (B.answers bd rollup ap 0 (triSigs q rollup a b)).1.pool = 0 ∧
    (B.answers bd rollup ap 0 (triSigs q rollup a b)).1.ever = [UTXO.new a m, UTXO.new b m] := by
  have hw1 : (depositTx rollup a m).withdrawn rollup = 0 := depositTx_withdrawn ha m
  have hw2 : (payTx a b m).withdrawn rollup = 0 := depositTx_withdrawn (rollup := rollup) hb m
  have hw3 : (payTx b rollup m).withdrawn rollup = m := by
    simp [payTx, Tx.withdrawn, totalOf, UTXO.dummy, UTXO.new, List.filter_cons]
    split <;> simp
  have hc1 : (depositTx rollup a m).creates rollup = [UTXO.new a m] := depositTx_creates ha m
  have hc2 : (payTx a b m).creates rollup = [UTXO.new b m] := depositTx_creates (rollup := rollup) hb m
  have hc3 : (payTx b rollup m).creates rollup = [] := by
    simp [payTx, Tx.creates, UTXO.onLedger, UTXO.dummy, UTXO.new]
  have hn : ¬ (2 ^ 64 ≤ m) := by omega
  have i1 : (depositTx rollup a m).inputs.toList = [UTXO.new rollup m, UTXO.dummy, UTXO.dummy, UTXO.dummy] := rfl
  have i2 : (payTx a b m).inputs.toList = [UTXO.new a m, UTXO.dummy, UTXO.dummy, UTXO.dummy] := rfl
  have i3 : (payTx b rollup m).inputs.toList = [UTXO.new b m, UTXO.dummy, UTXO.dummy, UTXO.dummy] := rfl
  have o0 : (UTXO.dummy : UTXO Nat G).onLedger rollup = false := by simp [UTXO.onLedger, UTXO.dummy]
  have o1 : (UTXO.new rollup m : UTXO Nat G).onLedger rollup = false := by simp [UTXO.onLedger, UTXO.new]
  have o2 : (UTXO.new a m : UTXO Nat G).onLedger rollup = true := by simp [UTXO.onLedger, UTXO.new, ha]
  have o3 : (UTXO.new b m : UTXO Nat G).onLedger rollup = true := by simp [UTXO.onLedger, UTXO.new, hb]
  obtain ⟨pool, ever, tr, sg, dp, wd, rc⟩ := B
  simp only at hp he ht
  subst hp he ht
  simp [Book.answers, triSigs, Book.answer, triTxs, h1, h2, h3, i1, i2, i3, Book.spend, o0, o1, o2, o3,
    Book.execute, hw1, hw2, hw3, hc1, hc2, hc3]
  rw [if_neg (fun h => by have := h.2; omega)]
  exact ⟨rfl, rfl⟩

theorem tri_submit {G : Type} [AddCommGroup G] [DecidableEq G] (bd : Build) (rollup a b : G) (m : Nat) (hm : m < U64) :
    (Book.empty.submit bd (triTxs rollup a b m)).1 =
      { (Book.empty : Book G) with transactions := (triTxs rollup a b m).map (·.2) } := by
  simp [Book.submit, triTxs, depositTx_valid bd rollup a m hm, payTx_valid bd a b m hm,
    payTx_valid bd b rollup m hm, Book.empty]

/-- C117: after the epoch no UTXO is unspent, two were created, and their 33 nodes are still stored. -/
theorem all_spent_still_stored : ∃ B : Book K, Histories .debug bnCurve P.hs s2 B ∧ B.pool = 0 ∧
    B.ever = [UTXO.new a 5, UTXO.new b 5] ∧ s2.ledger.tree.tree.length = 33 := by
  have hB := Histories.transactions (b := .debug) (cv := bnCurve) (hs := P.hs) Histories.new txs
    (by rw [show processTransactions .debug bnCurve P.hs txs (Agg.new grumpkinQ bnCurve P.hs) = _ from submitted]; simp)
  rw [show processTransactions .debug bnCurve P.hs txs (Agg.new grumpkinQ bnCurve P.hs) = _ from submitted] at hB
  obtain ⟨-, -, root, hr, -⟩ := C97_refines _ _ hB
  have hC := Histories.signatures hB P.contract sigs root hr (by rw [answered]; simp)
  rw [answered] at hC
  have hv := fun k m s => (oneHs_verify (by decide) (by decide) bnCurve k m s).1
  have h5 : 5 < U64 := by unfold U64; norm_num
  have hs := tri_submit .debug P.contract a b 5 h5
  have := tri_answers (q := grumpkinQ) (rollup := P.contract) .debug ha hb 5 (by norm_num)
    (Approves bnCurve P.hs P.contract root)
    (by simp [Approves]) (by simp only [Approves]; simp; left; exact hv _ _ _)
    (by simp only [Approves]; simp; left; exact hv _ _ _)
    (Book.empty.submit .debug (triTxs P.contract a b 5)).1 (by rw [hs]; rfl) (by rw [hs]; rfl) (by rw [hs])
  have hC' : Histories .debug bnCurve P.hs s2 ((Book.empty.submit .debug (triTxs P.contract a b 5)).1.answers .debug
    P.contract (Approves bnCurve P.hs P.contract root) 0 (triSigs grumpkinQ P.contract a b)).1 := hC
  clear hC
  generalize ((Book.empty.submit .debug (triTxs P.contract a b 5)).1.answers .debug
    P.contract (Approves bnCurve P.hs P.contract root) 0 (triSigs grumpkinQ P.contract a b)).1 = B at hC' this
  refine ⟨B, hC', this.1, this.2, ?_⟩
  have hl : B.ever.length = 2 := by rw [this.2]; rfl
  rw [((C117_stored _ _ hC').1 (by rw [hl]; norm_num)).2, hl]
  decide

example := C117_stored _ _ history2
example := C117_grows _ _ history2 .newEpoch
example := C117_not_freed _ _ history2

end PF.CasesEpoch
