import Verif.Model.Batches
import Verif.Proof.AggregatorFacts

/-!
# Lemmas for padding: batches, and runs of `process_signatures` that differ only in later transactions
-/
set_option linter.unusedSectionVars false

namespace PF.AggC

theorem mem_arrayChunks {α : Type} {n : Nat} {l c : List α} (h : c ∈ arrayChunks n l) : c.length = n := by
  unfold arrayChunks at h
  rw [List.mem_map] at h
  obtain ⟨k, hk, rfl⟩ := h
  rw [List.mem_range] at hk
  have h1 : (k + 1) * n ≤ l.length := le_trans (Nat.mul_le_mul_right n hk) (Nat.div_mul_le_self _ _)
  rw [Nat.add_mul, Nat.one_mul] at h1
  rw [List.length_take, List.length_drop]
  omega

theorem flatten_chunks {α : Type} (n m : Nat) (l : List α) :
    ((List.range m).map fun k => (l.drop (k * n)).take n).flatten = l.take (m * n) := by
  induction m with
  | zero => simp
  | succ m ih =>
    rw [List.range_succ, List.map_append, List.flatten_append, ih]
    simp only [List.map_cons, List.map_nil, List.flatten_cons, List.flatten_nil, List.append_nil]
    rw [Nat.add_mul, Nat.one_mul, List.take_add]

theorem flatten_arrayChunks {α : Type} (n : Nat) (l : List α) :
    (arrayChunks n l).flatten = l.take (l.length / n * n) := flatten_chunks n _ l

theorem flatten_arrayChunks_dvd {α : Type} {n : Nat} {l : List α} (h : n ∣ l.length) :
    (arrayChunks n l).flatten = l := by
  rw [flatten_arrayChunks, Nat.div_mul_cancel h, List.take_length]

theorem length_flatten_const {α : Type} {n : Nat} {bs : List (List α)} (h : ∀ c ∈ bs, c.length = n) :
    bs.flatten.length = n * bs.length := by
  induction bs with
  | nil => simp
  | cons c bs ih =>
    rw [List.flatten_cons, List.length_append, h c (by simp), ih (fun d hd => h d (by simp [hd]))]
    simp only [List.length_cons, Nat.mul_add, Nat.mul_one]
    omega

end PF.AggC

namespace PF.Agg
open PF PF.MT
variable {p q : Nat} {G : Type} [AddCommGroup G] [Module (ZMod q) G] [DecidableEq G]

/-- State `s` with the transactions of `t`. -/
def overTx (t s : State p q G) : State p q G :=
  { s with txTree := t.txTree, txProofs := t.txProofs, transactions := t.transactions }

/-- `m` does the same whether the transactions are those of `t0` or those of `t`, and does not change them. -/
def Comm {α : Type} (t0 t : State p q G) (m : SM (State p q G) AggError α) : Prop :=
  ∀ s, m (overTx t s) = (overTx t (m (overTx t0 s)).1, (m (overTx t0 s)).2) ∧
    overTx t0 (m (overTx t0 s)).1 = (m (overTx t0 s)).1

theorem Comm.bind {α β : Type} {t0 t : State p q G} {m : SM (State p q G) AggError α}
    {f : α → SM (State p q G) AggError β} (hm : Comm t0 t m) (hf : ∀ a, Comm t0 t (f a)) :
    Comm t0 t (SM.bind m f) := by
  intro s
  obtain ⟨h1, h2⟩ := hm s
  rcases hr : m (overTx t0 s) with ⟨r, o⟩
  rw [hr] at h1 h2
  simp only at h1 h2
  unfold SM.bind
  rw [hr, h1]
  cases o with
  | ok a =>
    obtain ⟨h3, h4⟩ := hf a r
    rw [h2] at h3 h4
    exact ⟨h3, h4⟩
  | err e => exact ⟨rfl, h2⟩
  | panic => exact ⟨rfl, h2⟩

theorem Comm.pure {α : Type} (t0 t : State p q G) (a : α) : Comm t0 t (SM.pure a : SM (State p q G) AggError α) :=
  fun _ => ⟨rfl, rfl⟩

theorem comm_onLedger {α : Type} (t0 t : State p q G) (m : SM (Ledger p G) AggError α) :
    Comm t0 t (onLedger m) := fun _ => ⟨rfl, rfl⟩

theorem comm_addSigner (t0 t : State p q G) (cv : Curve p q G) (hs : Hashes p) (pk : G) :
    Comm t0 t (addSigner cv hs pk) := by
  intro s
  unfold addSigner onOk
  show _ ∧ _
  dsimp only [overTx]
  cases updateAndProve (ε := Unit) (signerTreeCfg cv hs) s.signerTree s.signers.length pk <;> exact ⟨rfl, rfl⟩

theorem comm_recordDeposit (t0 t : State p q G) (rollup pk : G) (u : UTXO Nat G) :
    Comm t0 t (recordDeposit rollup pk u) := by
  intro s
  unfold recordDeposit
  split <;> exact ⟨rfl, rfl⟩

theorem comm_recordWithdrawal (t0 t : State p q G) (pk : G) (w : Nat) :
    Comm t0 t (recordWithdrawal pk w) := by
  intro s
  unfold recordWithdrawal
  split <;> exact ⟨rfl, rfl⟩

theorem comm_addWithdrawal (t0 t : State p q G) (b : Build) (w a : Nat) :
    Comm t0 t (addWithdrawal b w a) := fun _ => ⟨rfl, rfl⟩

theorem comm_addOutputs (t0 t : State p q G) (b : Build) (cv : Curve p q G) (hs : Hashes p) (rollup pk : G)
    (us : List (UTXO Nat G)) (w : Nat) : Comm t0 t (addOutputs b cv hs rollup pk us w) := by
  induction us generalizing w with
  | nil => exact Comm.pure t0 t _
  | cons u us ih =>
    unfold addOutputs
    refine Comm.bind ?_ (fun a => Comm.bind (ih _) (fun _ => Comm.pure t0 t _))
    unfold addOne
    split
    · exact Comm.pure t0 t _
    · refine Comm.bind (comm_recordDeposit t0 t rollup pk u) (fun _ => ?_)
      split
      · exact Comm.bind (comm_onLedger t0 t _) (fun _ => Comm.pure t0 t _)
      · exact Comm.bind (comm_addWithdrawal t0 t b _ _) (fun _ => Comm.pure t0 t _)

theorem comm_pushInputs {t0 t : State p q G} {i : Nat} (hi : t.txProofs[i]? = t0.txProofs[i]?) (tx : Tx Nat G)
    (dels adds : List (ZMod p × List (ZMod p))) (sp : List (ZMod p)) (pk : G) (sig : ZMod q × ZMod q) :
    Comm t0 t (pushInputs i tx dels adds sp pk sig) := by
  intro s
  unfold pushInputs
  dsimp only [overTx]
  rw [hi]
  cases t0.txProofs[i]? <;> exact ⟨rfl, rfl⟩

theorem comm_processOne {t0 t : State p q G} {i : Nat} (b : Build) (cv : Curve p q G) (hs : Hashes p)
    (rollup pk : G) (sig : Option (ZMod q × ZMod q)) (hi : t.txProofs[i]? = t0.txProofs[i]?)
    (ht : t.transactions[i]? = t0.transactions[i]?) (hr : t.txTree.root = t0.txTree.root) :
    Comm t0 t (processOne b cv hs rollup i pk sig) := by
  intro s
  unfold processOne
  have e1 : (overTx t s).transactions[i]? = (overTx t0 s).transactions[i]? := ht
  have e2 : (overTx t s).txTree.root = (overTx t0 s).txTree.root := hr
  simp only [e1, e2]
  cases (overTx t0 s).transactions[i]? with
  | none => exact ⟨rfl, rfl⟩
  | some tx =>
    cases (overTx t0 s).txTree.root with
    | none => exact ⟨rfl, rfl⟩
    | some root =>
      dsimp only
      split
      · exact ((comm_addSigner t0 t cv hs pk).bind fun sp => (comm_onLedger t0 t _).bind fun dels =>
          (comm_addOutputs t0 t b cv hs rollup pk _ _).bind fun r => (comm_recordWithdrawal t0 t pk _).bind fun _ =>
          comm_pushInputs hi tx _ _ _ pk _) s
      · exact comm_pushInputs hi tx _ _ _ pk _ { s with signers := s.signers ++ [none] }

theorem comm_processFrom {t0 t : State p q G} (b : Build) (cv : Curve p q G) (hs : Hashes p) (rollup : G)
    (l : List (G × Option (ZMod q × ZMod q))) (i : Nat) (hr : t.txTree.root = t0.txTree.root)
    (h : ∀ j, i ≤ j → j < i + l.length →
      t.txProofs[j]? = t0.txProofs[j]? ∧ t.transactions[j]? = t0.transactions[j]?) :
    Comm t0 t (processFrom b cv hs rollup i l) := by
  induction l generalizing i with
  | nil => exact Comm.pure t0 t ()
  | cons x l ih =>
    rw [processFrom_cons]
    obtain ⟨h1, h2⟩ := h i (le_refl _) (by simp)
    exact (comm_processOne b cv hs rollup _ _ h1 h2 hr).bind fun _ =>
      ih (i + 1) (fun j hj hj' => h j (by omega) (by simp only [List.length_cons]; omega))

end PF.Agg
