import Verif.Proof.AggregatorStorage
import Verif.Props.Storage
import Verif.Props.Capacity

/-!
# C117: what the aggregator stores
-/
set_option linter.unusedSectionVars false

namespace PF.Props
open PF PF.MT PF.Agg PF.Spec

theorem div_lt_ceil (n ℓ j : Nat) : (∃ i, i < n ∧ i / 2 ^ ℓ = j) ↔ j < (n + 2 ^ ℓ - 1) / 2 ^ ℓ := by
  have hp := Nat.two_pow_pos ℓ
  generalize 2 ^ ℓ = m at hp ⊢
  constructor
  · rintro ⟨i, hi, rfl⟩
    rw [Nat.lt_div_iff_mul_lt hp]
    have := Nat.div_mul_le_self i m
    rw [Nat.mul_comm] at this
    rw [Nat.mul_comm]
    omega
  · intro h
    rw [Nat.lt_div_iff_mul_lt hp, Nat.mul_comm] at h
    exact ⟨m * j, by omega, Nat.mul_div_cancel_left j hp⟩

/-- The number of nodes on the paths of the first `n` leaves, level by level. -/
theorem prefix_count (height : Nat) (keys : List Nat) (n : Nat) (hn : n ≤ 2 ^ (height - 1))
    (h : PathsOf height keys (fun i => i < n)) :
    keys.length = ((List.range height).map fun ℓ => (n + 2 ^ ℓ - 1) / 2 ^ ℓ).sum := by
  have hlt : ∀ ℓ j, ℓ < height → j < (n + 2 ^ ℓ - 1) / 2 ^ ℓ → j < 2 ^ (height - 1 - ℓ) := by
    intro ℓ j hℓ hj
    obtain ⟨i, hi, rfl⟩ := (div_lt_ceil n ℓ j).2 hj
    exact div_pow_lt (by omega) (lt_of_lt_of_le hi hn)
  have hnd : ((List.range height).flatMap fun ℓ =>
      (List.range ((n + 2 ^ ℓ - 1) / 2 ^ ℓ)).map fun j => hidx (height - 1 - ℓ) j).Nodup := by
    rw [List.nodup_flatMap]
    constructor
    · intro ℓ hℓ
      refine List.nodup_range.map_on fun a _ b _ e => ?_
      simp only [hidx] at e; omega
    · refine List.Pairwise.imp_of_mem ?_ List.nodup_range
      intro a c ha hc hne
      rw [Function.onFun]
      intro x hx hy
      simp only [List.mem_map, List.mem_range] at hx hy ha hc
      obtain ⟨j, hj, rfl⟩ := hx
      obtain ⟨j', hj', e⟩ := hy
      have := (hidx_inj (hlt c j' hc hj') (hlt a j ha hj) e).1
      omega
  have hperm := (List.perm_ext_iff_of_nodup (sorted_nodup h.1) hnd).2 fun k => by
    rw [h.2 k]
    simp only [List.mem_flatMap, List.mem_map, List.mem_range, OnPath]
    constructor
    · rintro ⟨i, hi, ℓ, hℓ, rfl⟩
      exact ⟨ℓ, hℓ, i / 2 ^ ℓ, (div_lt_ceil n ℓ _).1 ⟨i, hi, rfl⟩, rfl⟩
    · rintro ⟨ℓ, hℓ, j, hj, rfl⟩
      obtain ⟨i, hi, rfl⟩ := (div_lt_ceil n ℓ j).2 hj
      exact ⟨i, hi, ℓ, hℓ, rfl⟩
  rw [hperm.length_eq, List.length_flatMap]
  simp

theorem filled_paths {L D : Type} {cfg : Config L D} {t : STree D} {n N : Nat} (h : Filled cfg t n)
    (hH : cfg.height = N + 1) (hn : n ≤ 2 ^ N) : PathsOf (N + 1) t.tree.keys (fun i => i < n) := by
  have := h.paths (by omega) (by rw [hH]; exact hn)
  rwa [hH] at this

theorem levels_bounds (H n : Nat) :
    ((List.range H).map fun ℓ => (n + 2 ^ ℓ - 1) / 2 ^ ℓ).sum ≤ 2 * n + H ∧
    (0 < H → n ≤ ((List.range H).map fun ℓ => (n + 2 ^ ℓ - 1) / 2 ^ ℓ).sum) := by
  have split : ∀ H n, ((List.range (H + 1)).map fun ℓ => (n + 2 ^ ℓ - 1) / 2 ^ ℓ).sum =
      n + ((List.range H).map fun ℓ => ((n + 1) / 2 + 2 ^ ℓ - 1) / 2 ^ ℓ).sum := by
    intro H n
    rw [List.range_succ_eq_map, List.map_cons, List.sum_cons, List.map_map]
    congr 1
    · simp
    · congr 1
      apply List.map_congr_left
      intro ℓ _
      have hp := Nat.two_pow_pos ℓ
      simp only [Function.comp, Nat.succ_eq_add_one, pow_succ']
      rw [← Nat.div_div_eq_div_mul]
      congr 1
      generalize 2 ^ ℓ = m at hp ⊢
      omega
  constructor
  · induction H generalizing n with
    | zero => simp
    | succ H ih =>
      rw [split]
      have := ih ((n + 1) / 2)
      omega
  · intro hH
    cases H with
    | zero => omega
    | succ H => rw [split]; omega

variable {p q : Nat} {G : Type} [AddCommGroup G] [Module (ZMod q) G] [DecidableEq G]
variable {b : Build} {cv : Curve p q G} {hs : Hashes p}

/-- C117: after any calls, as long as at most `2^31` UTXOs were created, the UTXO tree stores exactly the
nodes above the slots of all UTXOs ever created, spent or not, and the map still has an entry for each of
them; the transaction tree stores exactly the nodes above the transactions of the epoch (up to `2^12`). -/
theorem C117_stored (s : Agg.State p q G) (B : Book G) (h : Histories b cv hs s B) :
    (B.ever.length ≤ 2 ^ 31 → PathsOf 32 s.ledger.tree.tree.keys (fun i => i < B.ever.length) ∧
      s.ledger.tree.tree.length =
        ((List.range 32).map fun ℓ => (B.ever.length + 2 ^ ℓ - 1) / 2 ^ ℓ).sum) ∧
    (∀ u, (s.ledger.utxos.get u).isSome = true ↔ u ∈ B.ever) ∧
    (s.transactions.length ≤ 2 ^ 12 →
      PathsOf 13 s.txTree.tree.keys (fun i => i < s.transactions.length) ∧
      s.txTree.tree.length =
        ((List.range 13).map fun ℓ => (s.transactions.length + 2 ^ ℓ - 1) / 2 ^ ℓ).sum) := by
  have hst := store_histories h
  have hsh := (C97_refines s B h).1
  refine ⟨fun hc => ?_, hsh.known, fun hc => ?_⟩
  · have hp := filled_paths hst.led.filled (N := 31) rfl (by rw [hsh.next]; exact hc)
    rw [hsh.next] at hp
    exact ⟨hp, by rw [← keys_length]; exact prefix_count 32 _ _ hc hp⟩
  · have hp := filled_paths hst.tx (N := 12) rfl hc
    exact ⟨hp, by rw [← keys_length]; exact prefix_count 13 _ _ hc hp⟩

/-- C117: no call, whatever its outcome, removes a node from the UTXO tree or from the signer tree; the new
epoch empties the transaction tree only. -/
theorem C117_grows (s : Agg.State p q G) (B : Book G) (h : Histories b cv hs s B) (op : Op q G) :
    (∀ k ∈ s.ledger.tree.tree.keys, k ∈ (op.run b cv hs s).1.ledger.tree.tree.keys) ∧
    (∀ k ∈ s.signerTree.tree.keys, k ∈ (op.run b cv hs s).1.signerTree.tree.keys) ∧
    (Agg.reset cv hs s).txTree.tree = [] ∧ (Agg.reset cv hs s).ledger = s.ledger ∧
    (Agg.reset cv hs s).signerTree = s.signerTree := by
  have hst := (store_histories h).fresh.call (b := b) op
  exact ⟨hst.led.grows, hst.grows, rfl, rfl, rfl⟩

/-- C117: after `n` UTXOs were created, even if all are spent, at least `n` digests remain stored, so the
store is not bounded by the unspent UTXOs. -/
theorem C117_not_freed (s : Agg.State p q G) (B : Book G) (h : Histories b cv hs s B)
    (hc : B.ever.length ≤ 2 ^ 31) :
    B.ever.length ≤ s.ledger.tree.tree.length ∧
    s.ledger.tree.tree.length ≤ 2 * B.ever.length + 32 := by
  rw [((C117_stored s B h).1 hc).2]
  have := levels_bounds 32 B.ever.length
  exact ⟨this.2 (by decide), this.1⟩

end PF.Props
