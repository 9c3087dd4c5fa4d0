import Verif.Proof.Witness
import Verif.Proof.AggregatorBook

/-!
# The recorded circuit inputs have the shape of the circuit, after any calls
-/
set_option linter.unusedSectionVars false

namespace PF.Agg
open PF PF.MT PF.Spec PF.Wit
variable {p q : Nat} {G : Type} [AddCommGroup G] [Module (ZMod q) G] [DecidableEq G]
variable {b : Build} {cv : Curve p q G} {hs : Hashes p} {rollup : G}

/-- `m` keeps `I` whatever its outcome, and its result meets `Q`. -/
def Keeps {σ ε α : Type} (I : σ → Prop) (m : SM σ ε α) (Q : α → Prop) : Prop :=
  ∀ s, I s → I (m s).1 ∧ ∀ a, (m s).2 = .ok a → Q a

theorem Keeps.pure {σ ε α : Type} {I : σ → Prop} {Q : α → Prop} {a : α} (h : Q a) :
    Keeps I (SM.pure a : SM σ ε α) Q := by
  intro s hs
  refine ⟨hs, fun a' h' => ?_⟩
  cases h'
  exact h

theorem Keeps.bind {σ ε α β : Type} {I : σ → Prop} {Q : α → Prop} {R : β → Prop} {m : SM σ ε α}
    {f : α → SM σ ε β} (h1 : Keeps I m Q) (h2 : ∀ a, Q a → Keeps I (f a) R) : Keeps I (SM.bind m f) R := by
  intro s hs
  have h := h1 s hs
  unfold SM.bind
  rcases hm : m s with ⟨s', o⟩
  rw [hm] at h
  cases o with
  | ok a => exact h2 a (h.2 a rfl) s' h.1
  | err e => exact ⟨h.1, by intro a ha; cases ha⟩
  | panic => exact ⟨h.1, by intro a ha; cases ha⟩

/-- The empty-subtree hashes of a tree are those of its configuration. -/
def Es {L D : Type} (cfg : Config L D) (t : STree D) : Prop := t.emptyHashes = genEmptyHashes cfg cfg.height

/-- What `AggregatorState` keeps about shapes. -/
structure Shapes (cv : Curve p q G) (hs : Hashes p) (s : State p q G) : Prop where
  utxo : Es (utxoTreeCfg cv hs) s.ledger.tree
  tx : Es (txTreeCfg cv hs) s.txTree
  signer : Es (signerTreeCfg cv hs) s.signerTree
  proofs : ∀ π ∈ s.txProofs, π.length = TX_TREE_HEIGHT - 1
  inputs : ∀ i ∈ s.ivcInputs, Shaped q (AggC.CInputs.alloc i)

theorem noUpdate_len : (noUpdate cv hs).2.length = UTXO_TREE_HEIGHT - 1 := by
  show (List.replicate _ _).length = _
  rw [List.length_replicate]
  rfl

theorem deleteOne_keeps (u : UTXO Nat G) :
    Keeps (fun l : Ledger p G => Es (utxoTreeCfg cv hs) l.tree) (deleteOne cv hs rollup u)
      (fun d => d.2.length = UTXO_TREE_HEIGHT - 1) := by
  intro l hl
  unfold deleteOne
  split
  · exact ⟨hl, by rintro a ⟨⟩; exact noUpdate_len⟩
  · split
    · split
      · exact ⟨hl, by intro a h; cases h⟩
      · split
        · exact ⟨hl, by intro a h; cases h⟩
        · rename_i index _
          obtain ⟨t', π, h1, h2, h3, _⟩ := updateAndProve_any hl index UTXO.dummy
          rw [onOk_of_ok h1]
          exact ⟨h2, by rintro a ⟨⟩; exact h3⟩
    · exact ⟨hl, by rintro a ⟨⟩; exact noUpdate_len⟩

theorem deleteInputs_keeps (us : List (UTXO Nat G)) :
    Keeps (fun l : Ledger p G => Es (utxoTreeCfg cv hs) l.tree) (deleteInputs cv hs rollup us)
      (fun ds => ds.length = us.length ∧ ∀ d ∈ ds, d.2.length = UTXO_TREE_HEIGHT - 1) := by
  induction us with
  | nil => exact Keeps.pure (by simp)
  | cons u us ih =>
    refine (deleteOne_keeps u).bind fun d hd => ih.bind fun ds hds => Keeps.pure ?_
    exact ⟨by simp [hds.1], List.forall_mem_cons.2 ⟨hd, hds.2⟩⟩

theorem onLedger_keeps {α : Type} {m : SM (Ledger p G) AggError α} {Q : α → Prop}
    (h : Keeps (fun l : Ledger p G => Es (utxoTreeCfg cv hs) l.tree) m Q) :
    Keeps (Shapes (q := q) cv hs) (onLedger m) Q := by
  intro s hsh
  have := h s.ledger hsh.utxo
  exact ⟨⟨this.1, hsh.tx, hsh.signer, hsh.proofs, hsh.inputs⟩, this.2⟩

theorem insertOne_keeps (u : UTXO Nat G) :
    Keeps (fun l : Ledger p G => Es (utxoTreeCfg cv hs) l.tree) (insertOne cv hs u)
      (fun d => d.2.length = UTXO_TREE_HEIGHT - 1) := by
  intro l hl
  unfold insertOne
  obtain ⟨t', π, h1, h2, h3, _⟩ := updateAndProve_any hl l.next u
  rw [onOk_of_ok h1]
  exact ⟨h2, by rintro a ⟨⟩; exact h3⟩

theorem recordDeposit_keeps (pk : G) (u : UTXO Nat G) :
    Keeps (Shapes (q := q) cv hs) (recordDeposit rollup pk u) (fun _ => True) := by
  intro s h
  refine ⟨?_, fun _ _ => trivial⟩
  unfold recordDeposit
  split
  · exact ⟨h.utxo, h.tx, h.signer, h.proofs, h.inputs⟩
  · exact h

theorem addOne_keeps (pk : G) (u : UTXO Nat G) (w : Nat) :
    Keeps (Shapes (q := q) cv hs) (addOne b cv hs rollup pk u w)
      (fun r => r.1.2.length = UTXO_TREE_HEIGHT - 1) := by
  unfold addOne
  split
  · exact Keeps.pure noUpdate_len
  · refine (recordDeposit_keeps pk u).bind fun _ _ => ?_
    split
    · exact (onLedger_keeps (insertOne_keeps u)).bind fun a ha => Keeps.pure ha
    · refine Keeps.bind (Q := fun _ => True) ?_ fun _ _ => Keeps.pure noUpdate_len
      exact fun s h => ⟨h, fun _ _ => trivial⟩

theorem addOutputs_keeps (pk : G) (us : List (UTXO Nat G)) (w : Nat) :
    Keeps (Shapes (q := q) cv hs) (addOutputs b cv hs rollup pk us w)
      (fun r => r.1.length = us.length ∧ ∀ d ∈ r.1, d.2.length = UTXO_TREE_HEIGHT - 1) := by
  induction us generalizing w with
  | nil => exact Keeps.pure (by simp)
  | cons u us ih =>
    refine (addOne_keeps pk u w).bind fun a ha => (ih a.2).bind fun r hr => Keeps.pure ?_
    exact ⟨by simp [hr.1], List.forall_mem_cons.2 ⟨ha, hr.2⟩⟩

theorem addSigner_keeps (pk : G) :
    Keeps (Shapes (q := q) cv hs) (addSigner cv hs pk) (fun π => π.length = SIGNER_TREE_HEIGHT - 1) := by
  intro s h
  unfold addSigner
  obtain ⟨t', π, h1, h2, h3, _⟩ := updateAndProve_any h.signer s.signers.length pk
  rw [onOk_of_ok h1]
  exact ⟨⟨h.utxo, h.tx, h2, h.proofs, h.inputs⟩, by rintro a ⟨⟩; exact h3⟩

theorem recordWithdrawal_keeps (pk : G) (w : Nat) :
    Keeps (Shapes (q := q) cv hs) (recordWithdrawal pk w) (fun _ => True) := by
  intro s h
  refine ⟨?_, fun _ _ => trivial⟩
  unfold recordWithdrawal
  split
  · exact ⟨h.utxo, h.tx, h.signer, h.proofs, h.inputs⟩
  · exact h

theorem pushInputs_keeps (i : Nat) (tx : Tx Nat G) (dels adds : List (ZMod p × List (ZMod p)))
    (sp : List (ZMod p)) (pk : G) (sig : ZMod q × ZMod q)
    (h1 : dels.length = TX_IO_SIZE) (h2 : ∀ d ∈ dels, d.2.length = UTXO_TREE_HEIGHT - 1)
    (h3 : adds.length = TX_IO_SIZE) (h4 : ∀ d ∈ adds, d.2.length = UTXO_TREE_HEIGHT - 1)
    (h5 : sp.length = SIGNER_TREE_HEIGHT - 1) :
    Keeps (Shapes (q := q) cv hs) (pushInputs i tx dels adds sp pk sig) (fun _ => True) := by
  intro s h
  refine ⟨?_, fun _ _ => trivial⟩
  unfold pushInputs
  split
  · rename_i tp htp
    refine ⟨h.utxo, h.tx, h.signer, h.proofs, fun j hj => ?_⟩
    rcases List.mem_append.1 hj with hj | hj
    · exact h.inputs j hj
    · rw [List.mem_singleton] at hj
      subst hj
      exact ⟨Circuit.natBits_length _ _, Circuit.natBits_length _ _,
        h.proofs tp (List.mem_of_getElem? htp), h1, h2, h3, h4, h5⟩
  · exact h

theorem processOne_keeps (i : Nat) (pk : G) (sig : Option (ZMod q × ZMod q)) :
    Keeps (Shapes (q := q) cv hs) (processOne b cv hs rollup i pk sig) (fun _ => True) := by
  intro s h
  unfold processOne
  split
  · split
    · refine Keeps.bind (addSigner_keeps pk) (fun sp hsp =>
        (onLedger_keeps (deleteInputs_keeps _)).bind fun dels hd =>
        (addOutputs_keeps pk _ 0).bind fun r hr => (recordWithdrawal_keeps pk _).bind fun _ _ =>
        pushInputs_keeps i _ dels r.1 sp pk _ (by rw [hd.1]; simp) hd.2 (by rw [hr.1]; simp) hr.2 hsp) s h
    · refine pushInputs_keeps i _ _ _ _ pk _ (List.length_replicate ..) ?_ (List.length_replicate ..) ?_ ?_ _
        ⟨h.utxo, h.tx, h.signer, h.proofs, h.inputs⟩
      · intro d hd; rw [List.eq_of_mem_replicate hd]; exact noUpdate_len
      · intro d hd; rw [List.eq_of_mem_replicate hd]; exact noUpdate_len
      · exact List.length_replicate ..
  · exact ⟨h, fun _ h => trivial⟩

theorem processFrom_keeps (i : Nat) (l : List (Pair q G)) :
    Keeps (Shapes (q := q) cv hs) (processFrom b cv hs rollup i l) (fun _ => True) := by
  induction l generalizing i with
  | nil => exact Keeps.pure trivial
  | cons x l ih => exact (processOne_keeps i x.1 x.2).bind fun _ _ => ih (i + 1)

theorem processTx_keeps (sender : G) (tx : Tx Nat G) :
    Keeps (Shapes (q := q) cv hs) (processTx b cv hs sender tx) (fun _ => True) := by
  intro s h
  unfold processTx
  split
  · exact ⟨h, fun _ _ => trivial⟩
  · exact ⟨h, fun _ _ => trivial⟩
  · obtain ⟨t', π, h1, h2, h3, _⟩ := updateAndProve_any h.tx s.transactions.length tx
    rw [onOk_of_ok h1]
    refine ⟨⟨h.utxo, h2, h.signer, fun π' hπ => ?_, h.inputs⟩, fun _ _ => trivial⟩
    rcases List.mem_append.1 hπ with hπ | hπ
    · exact h.proofs π' hπ
    · rw [List.mem_singleton.1 hπ]; exact h3

theorem processTransactions_keeps (l : List (G × Tx Nat G)) :
    Keeps (Shapes (q := q) cv hs) (processTransactions b cv hs l) (fun _ => True) := by
  induction l with
  | nil => exact Keeps.pure trivial
  | cons x l ih => exact (processTx_keeps x.1 x.2).bind fun _ _ => ih

theorem shapes_new : Shapes cv hs (new q cv hs) :=
  ⟨rfl, rfl, rfl, (fun _ h => absurd h List.not_mem_nil), (fun _ h => absurd h List.not_mem_nil)⟩

theorem Shapes.reset {s : State p q G} (h : Shapes cv hs s) : Shapes cv hs (reset cv hs s) :=
  ⟨h.utxo, rfl, h.signer, (fun _ h => absurd h List.not_mem_nil), (fun _ h => absurd h List.not_mem_nil)⟩

end PF.Agg
