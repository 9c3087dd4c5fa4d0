import Verif.Proof.Shapes
import Verif.Proof.Storage

/-!
# What the aggregator stores, after any calls
-/
set_option linter.unusedSectionVars false

namespace PF.Agg
open PF PF.MT PF.Spec
variable {p q : Nat} {G : Type} [AddCommGroup G] [Module (ZMod q) G] [DecidableEq G]
variable {b : Build} {cv : Curve p q G} {hs : Hashes p} {rollup : G}

/-- Node `k` is written by an update of position `i`, in range or not. -/
def Cell (height i k : Nat) : Prop :=
  k = 0 ∨ ∃ d ℓ, 0 < d ∧ d + ℓ = height - 1 ∧ k = hidx d (i / 2 ^ ℓ)

/-- The keys are those written by updates of the first `n` positions. -/
structure Filled {L D : Type} (cfg : Config L D) (t : STree D) (n : Nat) : Prop where
  es : Es cfg t
  sorted : t.tree.keys.Pairwise (· < ·)
  keys : ∀ k, k ∈ t.tree.keys ↔ ∃ i, i < n ∧ Cell cfg.height i k

theorem Filled.blank {L D : Type} (cfg : Config L D) : Filled cfg (blankTree cfg) 0 :=
  ⟨rfl, List.Pairwise.nil, fun k => by simp [blankTree, BMap.keys]⟩

theorem Filled.rewrite {L D : Type} {cfg : Config L D} {t t' : STree D} {n i : Nat} {v : L} {π : List D}
    (h : Filled cfg t n) (hi : i < n) (hu : (updateAndProve cfg t i v : Outcome Unit _) = .ok (t', π))
    (he : Es cfg t') : Filled cfg t' n := by
  refine ⟨he, updateAndProve_sorted h.sorted hu, fun k => ?_⟩
  rw [updateAndProve_keys h.es hu, h.keys]
  constructor
  · rintro (h0 | h0 | h0)
    · exact ⟨i, hi, Or.inl h0⟩
    · exact h0
    · exact ⟨i, hi, Or.inr h0⟩
  · exact fun h0 => Or.inr (Or.inl h0)

theorem Filled.extend {L D : Type} {cfg : Config L D} {t t' : STree D} {n : Nat} {v : L} {π : List D}
    (h : Filled cfg t n) (hu : (updateAndProve cfg t n v : Outcome Unit _) = .ok (t', π))
    (he : Es cfg t') : Filled cfg t' (n + 1) := by
  refine ⟨he, updateAndProve_sorted h.sorted hu, fun k => ?_⟩
  rw [updateAndProve_keys h.es hu, h.keys]
  constructor
  · rintro (h0 | ⟨i, hi, h0⟩ | h0)
    · exact ⟨n, Nat.lt_succ_self n, Or.inl h0⟩
    · exact ⟨i, Nat.lt_succ_of_lt hi, h0⟩
    · exact ⟨n, Nat.lt_succ_self n, Or.inr h0⟩
  · rintro ⟨i, hi, h0⟩
    by_cases e : i = n
    · subst e
      rcases h0 with h0 | h0
      · exact Or.inl h0
      · exact Or.inr (Or.inr h0)
    · exact Or.inr (Or.inl ⟨i, by omega, h0⟩)

theorem Filled.paths {L D : Type} {cfg : Config L D} {t : STree D} {n : Nat} (h : Filled cfg t n)
    (hH : 1 ≤ cfg.height) (hn : n ≤ 2 ^ (cfg.height - 1)) :
    PathsOf cfg.height t.tree.keys (fun i => i < n) := by
  refine ⟨h.sorted, fun k => ?_⟩
  rw [h.keys]
  constructor
  · rintro ⟨i, hi, hk⟩; exact ⟨i, hi, (onPath_iff hH (lt_of_lt_of_le hi hn)).2 hk⟩
  · rintro ⟨i, hi, hk⟩; exact ⟨i, hi, (onPath_iff hH (lt_of_lt_of_le hi hn)).1 hk⟩

/-- The ledger's store: `K` are nodes stored before. -/
structure LedStore (cv : Curve p q G) (hs : Hashes p) (K : List Nat) (l : Ledger p G) : Prop where
  filled : Filled (utxoTreeCfg cv hs) l.tree l.next
  below : ∀ u, ∀ i ∈ posIn l u, i < l.next
  grows : ∀ k ∈ K, k ∈ l.tree.tree.keys

theorem deleteOne_store (K : List Nat) (u : UTXO Nat G) :
    Keeps (LedStore cv hs K) (deleteOne cv hs rollup u) (fun _ => True) := by
  intro l hl
  refine ⟨?_, fun _ _ => trivial⟩
  unfold deleteOne
  split
  · exact hl
  · split
    · split
      · exact hl
      · next v hv =>
        split
        · exact hl
        · next index hi =>
          obtain ⟨t', π, h1, h2, _, _⟩ := updateAndProve_any hl.filled.es index UTXO.dummy
          rw [onOk_of_ok h1]
          have hin : index < l.next := hl.below u index (by
            rw [posIn, hv]; exact List.mem_of_getLast? hi)
          refine ⟨hl.filled.rewrite hin h1 h2, fun w i hw => ?_, fun k hk => ?_⟩
          · simp only [posIn, HMap.get_insert] at hw
            split at hw
            · next e =>
              subst e
              exact hl.below w i (by rw [posIn, hv]; exact List.dropLast_subset v hw)
            · exact hl.below w i hw
          · exact (updateAndProve_keys hl.filled.es h1 k).2 (Or.inr (Or.inl (hl.grows k hk)))
    · exact hl

theorem deleteInputs_store (K : List Nat) (us : List (UTXO Nat G)) :
    Keeps (LedStore cv hs K) (deleteInputs cv hs rollup us) (fun _ => True) := by
  induction us with
  | nil => exact Keeps.pure trivial
  | cons u us ih => exact (deleteOne_store K u).bind fun _ _ => ih.bind fun _ _ => Keeps.pure trivial

theorem insertOne_store (K : List Nat) (u : UTXO Nat G) :
    Keeps (LedStore cv hs K) (insertOne cv hs u) (fun _ => True) := by
  intro l hl
  refine ⟨?_, fun _ _ => trivial⟩
  unfold insertOne
  obtain ⟨t', π, h1, h2, _, _⟩ := updateAndProve_any hl.filled.es l.next u
  rw [onOk_of_ok h1]
  refine ⟨hl.filled.extend h1 h2, fun w i hw => ?_, fun k hk => ?_⟩
  · simp only [posIn, HMap.get_insert] at hw
    show i < l.next + 1
    split at hw
    · next e =>
      subst e
      rcases List.mem_append.1 hw with hw | hw
      · exact Nat.lt_succ_of_lt (hl.below w i hw)
      · rw [List.mem_singleton.1 hw]; exact Nat.lt_succ_self _
    · exact Nat.lt_succ_of_lt (hl.below w i hw)
  · exact (updateAndProve_keys hl.filled.es h1 k).2 (Or.inr (Or.inl (hl.grows k hk)))

/-- The aggregator's stores. -/
structure Store (cv : Curve p q G) (hs : Hashes p) (K Ks : List Nat) (s : State p q G) : Prop where
  led : LedStore cv hs K s.ledger
  tx : Filled (txTreeCfg cv hs) s.txTree s.transactions.length
  sgEs : Es (signerTreeCfg cv hs) s.signerTree
  sg : s.signerTree.tree.keys.Pairwise (· < ·)
  grows : ∀ k ∈ Ks, k ∈ s.signerTree.tree.keys

theorem onLedger_store {α : Type} {m : SM (Ledger p G) AggError α} {K Ks : List Nat}
    (h : Keeps (LedStore cv hs K) m fun _ => True) :
    Keeps (Store (q := q) cv hs K Ks) (onLedger m) fun _ => True := by
  intro s hsh
  have := h s.ledger hsh.led
  exact ⟨⟨this.1, hsh.tx, hsh.sgEs, hsh.sg, hsh.grows⟩, fun _ _ => trivial⟩

theorem addOne_store (K Ks : List Nat) (pk : G) (u : UTXO Nat G) (w : Nat) :
    Keeps (Store (q := q) cv hs K Ks) (addOne b cv hs rollup pk u w) (fun _ => True) := by
  unfold addOne
  split
  · exact Keeps.pure trivial
  · refine Keeps.bind (Q := fun _ => True) ?_ fun _ _ => ?_
    · intro s h
      refine ⟨?_, fun _ _ => trivial⟩
      unfold recordDeposit
      split
      · exact ⟨h.led, h.tx, h.sgEs, h.sg, h.grows⟩
      · exact h
    · split
      · exact (onLedger_store (insertOne_store K u)).bind fun _ _ => Keeps.pure trivial
      · exact Keeps.bind (Q := fun _ => True) (fun s h => ⟨h, fun _ _ => trivial⟩) fun _ _ => Keeps.pure trivial

theorem addOutputs_store (K Ks : List Nat) (pk : G) (us : List (UTXO Nat G)) (w : Nat) :
    Keeps (Store (q := q) cv hs K Ks) (addOutputs b cv hs rollup pk us w) (fun _ => True) := by
  induction us generalizing w with
  | nil => exact Keeps.pure trivial
  | cons u us ih =>
    exact (addOne_store K Ks pk u w).bind fun a _ => (ih a.2).bind fun _ _ => Keeps.pure trivial

theorem addSigner_store (K Ks : List Nat) (pk : G) :
    Keeps (Store (q := q) cv hs K Ks) (addSigner cv hs pk) (fun _ => True) := by
  intro s h
  refine ⟨?_, fun _ _ => trivial⟩
  unfold addSigner
  obtain ⟨t', π, h1, h2, _, _⟩ := updateAndProve_any h.sgEs s.signers.length pk
  rw [onOk_of_ok h1]
  exact ⟨h.led, h.tx, h2, updateAndProve_sorted h.sg h1, fun k hk =>
    (updateAndProve_keys h.sgEs h1 k).2 (Or.inr (Or.inl (h.grows k hk)))⟩

theorem recordWithdrawal_store (K Ks : List Nat) (pk : G) (w : Nat) :
    Keeps (Store (q := q) cv hs K Ks) (recordWithdrawal pk w) (fun _ => True) := by
  intro s h
  refine ⟨?_, fun _ _ => trivial⟩
  unfold recordWithdrawal
  split
  · exact ⟨h.led, h.tx, h.sgEs, h.sg, h.grows⟩
  · exact h

theorem pushInputs_store (K Ks : List Nat) (i : Nat) (tx : Tx Nat G) (dels adds : List (ZMod p × List (ZMod p)))
    (sp : List (ZMod p)) (pk : G) (sig : ZMod q × ZMod q) :
    Keeps (Store (q := q) cv hs K Ks) (pushInputs i tx dels adds sp pk sig) (fun _ => True) := by
  intro s h
  refine ⟨?_, fun _ _ => trivial⟩
  unfold pushInputs
  split
  · exact ⟨h.led, h.tx, h.sgEs, h.sg, h.grows⟩
  · exact h

theorem processOne_store (K Ks : List Nat) (i : Nat) (pk : G) (sig : Option (ZMod q × ZMod q)) :
    Keeps (Store (q := q) cv hs K Ks) (processOne b cv hs rollup i pk sig) (fun _ => True) := by
  intro s h
  unfold processOne
  split
  · split
    · exact Keeps.bind (addSigner_store K Ks pk) (fun sp _ =>
        (onLedger_store (deleteInputs_store K _)).bind fun dels _ =>
        (addOutputs_store K Ks pk _ 0).bind fun r _ => (recordWithdrawal_store K Ks pk _).bind fun _ _ =>
        pushInputs_store K Ks i _ dels r.1 sp pk _) s h
    · exact pushInputs_store K Ks i _ _ _ _ pk _ _ ⟨h.led, h.tx, h.sgEs, h.sg, h.grows⟩
  · exact ⟨h, fun _ _ => trivial⟩

theorem processFrom_store (K Ks : List Nat) (i : Nat) (l : List (Pair q G)) :
    Keeps (Store (q := q) cv hs K Ks) (processFrom b cv hs rollup i l) (fun _ => True) := by
  induction l generalizing i with
  | nil => exact Keeps.pure trivial
  | cons x l ih => exact (processOne_store K Ks i x.1 x.2).bind fun _ _ => ih (i + 1)

theorem processTx_store (K Ks : List Nat) (sender : G) (tx : Tx Nat G) :
    Keeps (Store (q := q) cv hs K Ks) (processTx b cv hs sender tx) (fun _ => True) := by
  intro s h
  refine ⟨?_, fun _ _ => trivial⟩
  unfold processTx
  split
  · exact h
  · exact h
  · obtain ⟨t', π, h1, h2, _, _⟩ := updateAndProve_any h.tx.es s.transactions.length tx
    rw [onOk_of_ok h1]
    refine ⟨h.led, ?_, h.sgEs, h.sg, h.grows⟩
    show Filled _ t' (s.transactions ++ [tx]).length
    rw [List.length_append]
    exact h.tx.extend h1 h2

theorem processTransactions_store (K Ks : List Nat) (l : List (G × Tx Nat G)) :
    Keeps (Store (q := q) cv hs K Ks) (processTransactions b cv hs l) (fun _ => True) := by
  induction l with
  | nil => exact Keeps.pure trivial
  | cons x l ih => exact (processTx_store K Ks x.1 x.2).bind fun _ _ => ih

theorem store_new : Store cv hs [] [] (new q cv hs) :=
  ⟨⟨Filled.blank _, fun _ _ h => absurd h List.not_mem_nil, fun _ h => absurd h List.not_mem_nil⟩,
    Filled.blank _, rfl, List.Pairwise.nil, fun _ h => absurd h List.not_mem_nil⟩

theorem Store.call {K Ks : List Nat} {s : State p q G} (h : Store cv hs K Ks s) (op : Op q G) :
    Store cv hs K Ks (op.run b cv hs s).1 := by
  cases op with
  | newEpoch => exact ⟨h.led, Filled.blank _, h.sgEs, h.sg, h.grows⟩
  | transactions l => exact (processTransactions_store K Ks l s h).1
  | signatures rollup l => exact (processFrom_store K Ks 0 l s h).1

/-- Start tracking the nodes stored now. -/
theorem Store.fresh {K Ks : List Nat} {s : State p q G} (h : Store cv hs K Ks s) :
    Store cv hs s.ledger.tree.tree.keys s.signerTree.tree.keys s :=
  ⟨⟨h.led.filled, h.led.below, fun _ h => h⟩, h.tx, h.sgEs, h.sg, fun _ h => h⟩

theorem store_histories {s : State p q G} {B : Book G} (h : Histories b cv hs s B) : Store cv hs [] [] s := by
  induction h with
  | new => exact store_new
  | newEpoch _ ih => exact ih.call (b := b) .newEpoch
  | transactions _ l _ ih => exact ih.call (b := b) (.transactions l)
  | signatures _ rollup l _ _ _ ih => exact ih.call (b := b) (.signatures rollup l)

end PF.Agg
