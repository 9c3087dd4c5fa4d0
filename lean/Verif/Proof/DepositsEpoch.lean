import Verif.Proof.EndToEnd
import Verif.Proof.AggregatorTri

/-!
# An epoch of deposits, of which the first ones are authorised
-/

set_option linter.unusedSectionVars false

namespace PF.Spec
open PF PF.MT PF.Agg PF.Client PF.Props

variable {p q : Nat} {G : Type} [AddCommGroup G] [Module (ZMod q) G] [DecidableEq G]

/-- Deposits submitted under the contract's key. -/
def depositList (rollup : G) (ds : List (G × Nat)) : List (G × Tx Nat G) :=
  ds.map fun d => (rollup, depositTx rollup d.1 d.2)

theorem deposits_epoch (b : Build) (cv : Curve p q G) (hs : Hashes p) (rollup : G) (ds : List (G × Nat))
    (ho : ∀ d ∈ ds, d.1 ≠ rollup ∧ d.2 < U64) (hlen : ds.length ≤ 4096) :
    ∃ s1, processTransactions b cv hs (depositList rollup ds) (Agg.new q cv hs) = (s1, .ok ()) ∧
      Reach b cv hs s1 ∧ s1.transactions = (depositList rollup ds).map (·.2) ∧ s1.signers = [] ∧
      s1.deposits = [] ∧ s1.withdrawals = [] ∧
      (∀ m, m ≤ ds.length → (Op.signatures rollup (List.replicate m ((rollup, none) : Pair q G))).Fits s1) ∧
      ∀ m, m ≤ ds.length → ∃ s2,
        processSignatures b cv hs rollup (List.replicate m (rollup, none)) s1 = (s2, .ok ()) ∧
        s2.transactions = s1.transactions ∧ s2.signers = List.replicate m (some rollup) ∧
        approvedTxs cv hs rollup (txRoot cv hs s1) s1.transactions
          (List.replicate m ((rollup, none) : Pair q G)) =
          (ds.take m).map (fun d => (depositTx rollup d.1 d.2, rollup)) ∧
        s2.deposits = ds.take m ∧ s2.withdrawals = [] := by
  obtain ⟨t, πs, e⟩ := C44_longest_valid_prefix b cv hs _ Reach.new (depositList rollup ds)
    (by simp only [Agg.new, depositList, List.length_map, List.length_nil]; omega)
  have hall : ∀ x ∈ depositList rollup ds, decide (x.2.isValid b (some x.1) = .ok ()) = true := by
    intro x hx
    obtain ⟨d, hd, rfl⟩ := List.mem_map.1 hx
    simp [depositTx_valid b rollup d.1 d.2 (ho d hd).2]
  have hd : (depositList rollup ds).dropWhile (fun x => decide (x.2.isValid b (some x.1) = .ok ())) = [] :=
    List.dropWhile_eq_nil_iff.2 hall
  have ht : (depositList rollup ds).takeWhile (fun x => decide (x.2.isValid b (some x.1) = .ok ())) =
      depositList rollup ds := List.takeWhile_eq_self_iff.2 hall
  rw [hd, ht] at e
  simp only [List.head?_nil] at e
  generalize hs1 : ({ Agg.new q cv hs with
      transactions := (Agg.new q cv hs).transactions ++ (depositList rollup ds).map (·.2),
      txTree := t, txProofs := (Agg.new q cv hs).txProofs ++ πs } : Agg.State p q G) = s1 at e
  have r1 : Reach b cv hs s1 := reach_transactions Reach.new _
    (show 0 + (depositList rollup ds).length ≤ 4096 by simp only [depositList, List.length_map]; omega) e (by simp)
  have t1 : s1.transactions = (depositList rollup ds).map (·.2) := by rw [← hs1]; rfl
  have n1 : s1.ledger.next = 0 := by rw [← hs1]; rfl
  have g1 : s1.signers = [] := by rw [← hs1]; rfl
  have d1 : s1.deposits = [] := by rw [← hs1]; rfl
  have w1 : s1.withdrawals = [] := by rw [← hs1]; rfl
  have hfit : ∀ m, m ≤ ds.length →
      (Op.signatures rollup (List.replicate m ((rollup, none) : Pair q G))).Fits s1 := by
    intro m hm
    constructor
    · rw [g1, List.length_replicate]; show 0 + _ ≤ 4096; omega
    · rw [n1, List.length_replicate, show TX_IO_SIZE = 4 from rfl, show UTXO_CAP = 2147483648 from rfl]; omega
  have ap0 : ∀ r tx, Approves cv hs rollup r tx ((rollup, none) : Pair q G) = true := by
    intro r tx; simp [Approves]
  have hok : ∀ m, m ≤ ds.length → ∃ s2,
      processSignatures b cv hs rollup (List.replicate m (rollup, none)) s1 = (s2, .ok ()) := by
    intro m
    induction m with
    | zero => intro _; exact ⟨s1, rfl⟩
    | succ m ih =>
      intro hm
      obtain ⟨sa, ha⟩ := ih (by omega)
      have hf : (Op.signatures rollup (List.replicate m ((rollup, none) : Pair q G) ++ [(rollup, none)])).Fits s1 := by
        rw [← List.replicate_succ']; exact hfit (m + 1) hm
      have hget : s1.transactions[(List.replicate m ((rollup, none) : Pair q G)).length]? =
          some (depositTx rollup ds[m].1 ds[m].2) := by
        rw [t1, List.length_replicate]
        simp [depositList, List.getElem?_eq_getElem (show m < ds.length by omega)]
      have hmem : ds[m] ∈ ds := List.getElem_mem _
      have o := ((C43_outcome b cv hs s1 sa r1 rollup _ (rollup, none) hf ha).2 _ hget).1.2
        (fun _ => ⟨covers_of_spends_nil (depositTx_spends _ _ _),
          fun _ => by rw [depositTx_withdrawn (ho _ hmem).1]; decide⟩)
      rw [← List.replicate_succ'] at o
      exact ⟨_, Prod.ext rfl o⟩
  refine ⟨s1, e, r1, t1, g1, d1, w1, hfit, fun m hm => ?_⟩
  obtain ⟨s2, h2⟩ := hok m hm
  have hap : ∀ y ∈ s1.transactions.zip (List.replicate m ((rollup, none) : Pair q G)),
      Approves cv hs rollup (txRoot cv hs s1) y.1 y.2 = true := by
    intro y hy
    have : y.2 = (rollup, none) := (List.mem_replicate.1 (List.of_mem_zip hy).2).2
    rw [this]; exact ap0 _ _
  have hzip : ∀ (l : List (G × Nat)) (m : Nat), m ≤ l.length →
      (((depositList rollup l).map (·.2)).zip (List.replicate m ((rollup, none) : Pair q G))) =
        (l.take m).map fun d => (depositTx rollup d.1 d.2, ((rollup, none) : Pair q G)) := by
    intro l
    induction l with
    | nil => intro m hm; simp at hm; subst hm; rfl
    | cons d l ih =>
      intro m hm
      cases m with
      | zero => simp
      | succ m =>
        have := ih m (by simpa using hm)
        simp only [depositList, List.map_cons, List.replicate_succ, List.zip_cons_cons, List.take_succ_cons] at this ⊢
        rw [this]
  have happ : approvedTxs cv hs rollup (txRoot cv hs s1) s1.transactions
      (List.replicate m ((rollup, none) : Pair q G)) =
      (ds.take m).map (fun d => (depositTx rollup d.1 d.2, rollup)) := by
    unfold approvedTxs
    rw [List.filter_eq_self.2 hap, t1, hzip ds m hm, List.map_map]
    rfl
  obtain ⟨rec1, rec2⟩ := C42_records b cv hs s1 s2 r1 rollup _ (hfit m hm) h2
  obtain ⟨-, rec3, -, -, rec4, -⟩ := C43_appends b cv hs s1 s2 r1 rollup _ (hfit m hm) h2
  have hwd : ∀ d ∈ ds, (depositTx rollup d.1 d.2).withdrawn rollup = 0 := fun d hd =>
    depositTx_withdrawn (ho d hd).1 d.2
  have htake : ∀ d ∈ ds.take m, d ∈ ds := fun d hd => List.mem_of_mem_take hd
  refine ⟨s2, h2, rec4, ?_, happ, ?_, ?_⟩
  · rw [rec3, g1, List.nil_append]
    rw [List.map_congr_left (g := fun _ => some rollup)]
    · rw [List.map_const', t1, hzip ds m hm]; simp [hm]
    · intro y hy
      rw [hap y hy]
      have : y.2 = (rollup, none) := (List.mem_replicate.1 (List.of_mem_zip hy).2).2
      rw [this]; rfl
  · rw [rec1, happ, d1, List.nil_append]
    unfold depositsBy
    rw [List.flatMap_map]
    have : ∀ l : List (G × Nat), (l.flatMap fun d => (depositTx rollup d.1 d.2).depositsOf rollup rollup) = l := by
      intro l
      induction l with
      | nil => rfl
      | cons d l ih =>
        rw [List.flatMap_cons, ih]
        simp [Tx.depositsOf, depositTx, UTXO.new, UTXO.dummy]
    exact this _
  · rw [rec2 (Or.inr ?_), happ, w1, List.nil_append]
    · unfold withdrawalsBy
      rw [List.flatMap_map, List.flatMap_eq_nil_iff]
      intro d hd
      simp [Tx.withdrawalsOf, hwd d (htake d hd)]
    · intro tx htx
      rw [t1] at htx
      obtain ⟨x, hx, rfl⟩ := List.mem_map.1 htx
      obtain ⟨d, hd, rfl⟩ := List.mem_map.1 hx
      show (depositTx rollup d.1 d.2).withdrawn rollup < 2 ^ 64
      rw [hwd d hd]; decide

/-- Leaves of the signer tree after the epoch. -/
def depositSigners (rollup : G) (m : Nat) (j : Nat) : G := if j < m then rollup else 0

theorem deposits_leaves {b : Build} {cv : Curve p q G} {hs : Hashes p} {rollup : G} {l : List (G × Tx Nat G)}
    {s1 s2 : Agg.State p q G} {m : Nat}
    (hl : l.length ≤ 4096)
    (h1 : processTransactions b cv hs l (Agg.new q cv hs) = (s1, .ok ()))
    (g1 : s1.signers = [])
    (hf : (Op.signatures rollup (List.replicate m ((rollup, none) : Pair q G))).Fits s1)
    (h2 : processSignatures b cv hs rollup (List.replicate m (rollup, none)) s1 = (s2, .ok ()))
    (hsg : s2.signers = List.replicate m (some rollup)) :
    SignerLeaves b cv hs s2 (depositSigners rollup m) := by
  have k1 := SignerLeaves.call (b := b) (cv := cv) (hs := hs) (Agg.new q cv hs) (.transactions l) _
    SignerLeaves.new (show 0 + l.length ≤ 4096 by omega) (by simp [Op.run, h1])
  simp only [Op.run, h1, g1] at k1
  have k2 := SignerLeaves.call s1 (.signatures rollup (List.replicate m (rollup, none))) _ k1 hf
    (by simp [Op.run, h2])
  simp only [Op.run, h2, hsg] at k2
  have : overlay (overlay (fun _ => (0 : G)) []) (List.replicate m (some rollup)) = depositSigners rollup m := by
    funext j
    unfold overlay depositSigners
    rw [List.getElem?_replicate]
    by_cases hj : j < m
    · rw [if_pos hj, if_pos hj]
    · rw [if_neg hj, if_neg hj]; rfl
  rw [this] at k2
  exact k2

end PF.Spec
