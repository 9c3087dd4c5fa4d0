import Verif.Props.CasesOrder
import Verif.Props.CasesStorage
import Verif.Props.CasesUsers

/-!
# Further concrete cases (C76, C88, C89, C97, C99, C116)

The epoch of `CasesEpoch` (a deposit of 5 for the key 2, paid on to the key 3 and withdrawn by it) and the toy tree.
-/
set_option linter.unusedSectionVars false

namespace PF.Props
open PF PF.MT PF.Agg PF.Spec

/-- The two toy trees of `CasesStorage`, built in different ways, are equal by C116. -/
example (t : STree Nat) (h : BuiltOn toy t (fun i => (BMap.get [(0, 4), (2, 9)] i).getD 0)
    (fun i => i ∈ BMap.keys [(0, 4), (2, 9)])) : toyTree = t :=
  C116_same toy (by decide) _ _ _ _ _ _ toyTree_on h (by decide) (by intro i; simp [BMap.keys, or_comm])

/-- Position 2 of the toy tree was written before, position 3 was not. -/
example : ∃ t' π, (updateAndProve toy toyTree 2 8 : Outcome Unit _) = .ok (t', π) ∧ t'.tree.keys = toyTree.tree.keys :=
  ⟨_, _, rfl, (C116_update toy (by decide) toyTree _ _ _ toyTree_on 2 (by decide) 8 _ rfl).2.2.1 (Or.inl rfl)⟩

example : ∃ t' π, (updateAndProve toy toyTree 3 8 : Outcome Unit _) = .ok (t', π) ∧
    toyTree.tree.length < t'.tree.length :=
  ⟨_, _, rfl, (C116_update toy (by decide) toyTree _ _ _ toyTree_on 3 (by decide) 8 _ rfl).2.2.2 (by decide)⟩

end PF.Props

namespace PF.CasesEpoch
open PF PF.Spec PF.MT PF.AggC PF.Circuit PF.Contract PF.Agg PF.Props
open PF.Cases (F K k0 a b ha hb hab h0 ha0 hb0)

theorem reached1 : Reach .debug bnCurve P.hs s1 ∧ s1.transactions = txs.map (·.2) ∧
    (Op.signatures P.contract sigs).Fits s1 := by
  obtain ⟨s, h1, h2, h3, -, -, -, -, h8⟩ := listed (q := grumpkinQ) .debug bnCurve P.hs txs cap valid
  have e : s = s1 := by
    have := submitted
    rw [show start = Agg.new grumpkinQ bnCurve P.hs from rfl, h1] at this
    exact congrArg Prod.fst this
  subst e
  exact ⟨h2, h3, h8 _ _ (le_refl 3)⟩

/-- The key 3 is paid and withdraws within the epoch. -/
example (c c' : Nat → UTXO Nat K) (hc : Represents bnCurve P.hs s1 c) (hc' : Represents bnCurve P.hs s2 c') :=
  C76_call .debug bnCurve P.hs s1 s2 reached1.1 P.contract sigs reached1.2.2 answered b hb c c' hc hc'

theorem start_history : History .debug bnCurve P.hs s1 [] [] := by
  have := History.transactions (b := .debug) (cv := bnCurve) (hs := P.hs) txs History.new
    (by
      show (Agg.new grumpkinQ bnCurve P.hs).transactions.length + txs.length ≤ TX_CAP
      have : (Agg.new grumpkinQ bnCurve P.hs).transactions.length = 0 := rfl
      rw [this, Nat.zero_add]; exact cap)
    (by rw [show processTransactions .debug bnCurve P.hs txs (Agg.new grumpkinQ bnCurve P.hs) = _ from submitted]; simp)
  rwa [show processTransactions .debug bnCurve P.hs txs (Agg.new grumpkinQ bnCurve P.hs) = _ from submitted] at this

example (c : Nat → UTXO Nat K) (hc : Represents bnCurve P.hs s2 c) :=
  C76_history .debug bnCurve P.hs s2 _ _ (History.signatures P.contract sigs start_history reached1.2.2 answered) b c hc

/-- The root after the epoch commits to the empty pool. -/
example : ∃ B : Book K, Histories .debug bnCurve P.hs s2 B ∧ B.pool = 0 ∧
    ∃ c, Represents bnCurve P.hs s2 c ∧ ∀ u, u.isDummy = false → copies c (2 ^ 31) u = 0 := by
  obtain ⟨B, h1, h2, h3, -⟩ := all_spent_still_stored
  obtain ⟨c, hc, hu⟩ := C97_root_commits_to_pool s2 B h1 (by rw [h3]; norm_num)
  exact ⟨B, h1, h2, c, hc, fun u h => by rw [hu u h, h2]; simp⟩

end PF.CasesEpoch
