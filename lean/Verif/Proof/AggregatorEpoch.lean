import Verif.Proof.AggregatorBooks
import Verif.Proof.SparseMTRep

/-!
# Epoch change: the aggregator only differs from a fresh one in its signer tree
-/

set_option linter.unusedSectionVars false

namespace PF.Agg
open PF PF.MT PF.Spec
variable {p q : Nat} {G : Type} [AddCommGroup G] [Module (ZMod q) G] [DecidableEq G]
variable {b : Build} {cv : Curve p q G} {hs : Hashes p} {rollup : G}

/-- Replace the signer tree and the circuit inputs. -/
def put (st : STree (ZMod p)) (iv : List (Inputs p q G)) (s : State p q G) : State p q G :=
  { s with signerTree := st, ivcInputs := iv }

/-- The computation neither reads nor writes the signer tree and the circuit inputs. -/
def Blind {ε α : Type} (m : SM (State p q G) ε α) : Prop :=
  ∀ s st iv, m (put st iv s) = (put st iv (m s).1, (m s).2)

theorem Blind.pure {ε α : Type} (a : α) : Blind (SM.pure a : SM (State p q G) ε α) := fun _ _ _ => rfl

theorem Blind.bind {ε α β : Type} {m : SM (State p q G) ε α} {f : α → SM (State p q G) ε β}
    (hm : Blind m) (hf : ∀ a, Blind (f a)) : Blind (SM.bind m f) := by
  intro s st iv
  unfold SM.bind
  rw [hm s st iv]
  rcases h : m s with ⟨s', a | e | _⟩
  · simp only; exact hf a s' st iv
  · rfl
  · rfl

theorem Blind.onLedger {α : Type} (m : SM (Ledger p G) AggError α) :
    Blind (onLedger m : SM (State p q G) AggError α) := fun _ _ _ => rfl

theorem blind_recordDeposit (rollup pk : G) (u : UTXO Nat G) :
    Blind (recordDeposit rollup pk u : SM (State p q G) AggError Unit) := by
  intro s st iv
  unfold recordDeposit
  split <;> rfl

theorem blind_addOne (u : UTXO Nat G) (pk : G) (w : Nat) : Blind (addOne b cv hs rollup pk u w) := by
  unfold addOne
  split
  · exact Blind.pure _
  · refine Blind.bind (blind_recordDeposit _ _ _) fun _ => ?_
    split
    · exact Blind.bind (Blind.onLedger _) fun _ => Blind.pure _
    · refine Blind.bind (fun _ _ _ => rfl) fun _ => Blind.pure _

theorem blind_addOutputs (us : List (UTXO Nat G)) (pk : G) (w : Nat) :
    Blind (addOutputs b cv hs rollup pk us w) := by
  induction us generalizing w with
  | nil => exact Blind.pure _
  | cons u us ih =>
    unfold addOutputs
    exact Blind.bind (blind_addOne _ _ _) fun a => Blind.bind (ih _) fun _ => Blind.pure _

theorem blind_recordWithdrawal (pk : G) (w : Nat) :
    Blind (recordWithdrawal pk w : SM (State p q G) AggError Unit) := by
  intro s st iv
  unfold recordWithdrawal
  split <;> rfl

theorem blind_processTx (sender : G) (tx : Tx Nat G) : Blind (processTx b cv hs sender tx) := by
  intro s st iv
  unfold processTx
  rcases tx.isValid b (some sender) with _ | _ | _
  · simp only
    show onOk (updateAndProve (txTreeCfg cv hs) s.txTree s.transactions.length tx) _ _ = _
    unfold onOk
    rcases (updateAndProve (txTreeCfg cv hs) s.txTree s.transactions.length tx : Outcome Unit _) with
      _ | _ | _ <;> rfl
  · rfl
  · rfl

theorem blind_processTransactions (l : List (G × Tx Nat G)) : Blind (processTransactions b cv hs l) := by
  induction l with
  | nil => exact Blind.pure _
  | cons x l ih => exact Blind.bind (blind_processTx _ _) fun _ => ih

theorem SameEpoch.eq_put {s t : State p q G} (h : SameEpoch s t) : t = put t.signerTree t.ivcInputs s := by
  obtain ⟨h1, h2, h3, h4, h5, h6, h7, h8, h9⟩ := h
  cases s; cases t
  simp only at *
  subst h1 h2 h3 h4 h5 h6 h7 h8
  rfl

theorem SameEpoch.of_put {s : State p q G} {st : STree (ZMod p)} {iv : List (Inputs p q G)}
    (h : s.ivcInputs.map (fun y => { y with signerProof := [] }) =
      iv.map (fun y => { y with signerProof := [] })) : SameEpoch s (put st iv s) :=
  ⟨rfl, rfl, rfl, rfl, rfl, rfl, rfl, rfl, h⟩

/-- Middle part of an accepted pair. -/
def middle (b : Build) (cv : Curve p q G) (hs : Hashes p) (rollup : G) (tx : Tx Nat G) (pk : G) :
    SM (State p q G) AggError (List (ZMod p × List (ZMod p)) × List (ZMod p × List (ZMod p))) :=
  SM.bind (onLedger (deleteInputs cv hs rollup tx.inputs.toList)) fun dels =>
  SM.bind (addOutputs b cv hs rollup pk tx.outputs.toList 0) fun r =>
  SM.bind (recordWithdrawal pk r.2) fun _ => SM.pure (dels, r.1)

theorem blind_middle (tx : Tx Nat G) (pk : G) : Blind (middle b cv hs rollup tx pk) :=
  Blind.bind (Blind.onLedger _) fun _ => Blind.bind (blind_addOutputs _ _ _) fun _ =>
    Blind.bind (blind_recordWithdrawal _ _) fun _ => Blind.pure _

theorem applyAccepted_eq (i : Nat) (tx : Tx Nat G) (pk : G) (sig : ZMod q × ZMod q) :
    applyAccepted b cv hs rollup i tx pk sig =
      SM.bind (addSigner cv hs pk) fun sp => SM.bind (middle b cv hs rollup tx pk) fun m =>
        pushInputs i tx m.1 m.2 sp pk sig := by
  unfold applyAccepted middle
  simp only [SM.bind_assoc]
  rfl

/-- The middle part keeps the circuit inputs and the signer tree. -/
theorem Blind.keeps {ε α : Type} {m : SM (State p q G) ε α} (h : Blind m) (s : State p q G) :
    (m s).1.ivcInputs = s.ivcInputs ∧ (m s).1.signerTree = s.signerTree := by
  have h1 := h s s.signerTree s.ivcInputs
  have h2 : put s.signerTree s.ivcInputs s = s := rfl
  rw [h2] at h1
  have h3 := congrArg Prod.fst h1
  simp only at h3
  rw [h3]
  exact ⟨rfl, rfl⟩

theorem pushInputs_same {s t : State p q G} (h : SameEpoch s t) (i : Nat) (tx : Tx Nat G)
    (dels adds : List (ZMod p × List (ZMod p))) (sp sp' : List (ZMod p)) (pk : G) (sig : ZMod q × ZMod q) :
    (pushInputs i tx dels adds sp pk sig s).2 = (pushInputs i tx dels adds sp' pk sig t).2 ∧
    SameEpoch (pushInputs i tx dels adds sp pk sig s).1 (pushInputs i tx dels adds sp' pk sig t).1 := by
  unfold pushInputs
  rw [← h.txProofs]
  rcases s.txProofs[i]? with _ | tp
  · exact ⟨rfl, h⟩
  · refine ⟨rfl, ?_⟩
    obtain ⟨h1, h2, h3, h4, h5, h6, h7, h8, h9⟩ := h
    refine ⟨h1, h2, h3, h4, h5, h6, h7, rfl, ?_⟩
    simp only [List.map_append, h9, List.map_cons, List.map_nil]

theorem SM.bind_snd {σ ε α β : Type} (m : SM σ ε α) (f : α → SM σ ε β) (s : σ) :
    SM.bind m f s = match m s with
      | (s', .ok a) => f a s'
      | (s', .err e) => (s', .err e)
      | (s', .panic) => (s', .panic) := by
  unfold SM.bind
  rcases m s with ⟨s', a | e | _⟩ <;> rfl

theorem processOne_same {s t : State p q G} (h : SameEpoch s t) {sc sc' : Nat → G}
    (h1 : Rep (signerTreeCfg cv hs) s.signerTree sc) (h2 : Rep (signerTreeCfg cv hs) t.signerTree sc')
    (hcap : s.signers.length < TX_CAP) (i : Nat) (pk : G) (sig : Option (ZMod q × ZMod q)) :
    (processOne b cv hs rollup i pk sig s).2 = (processOne b cv hs rollup i pk sig t).2 ∧
    SameEpoch (processOne b cv hs rollup i pk sig s).1 (processOne b cv hs rollup i pk sig t).1 := by
  unfold processOne
  rw [← h.transactions, ← h.txTree]
  rcases s.transactions[i]? with _ | tx
  · exact ⟨rfl, h⟩
  · rcases s.txTree.root with _ | root
    · exact ⟨rfl, h⟩
    · simp only
      split
      · obtain ⟨st, k1, k2⟩ := addSigner_spec h1 pk hcap
        obtain ⟨st', k1', k2'⟩ := addSigner_spec h2 pk (by rw [← h.signers]; exact hcap)
        rw [applyAccepted_eq, SM.bind_of_ok k1, SM.bind_of_ok k1', SM.bind_snd, SM.bind_snd]
        have hs1 : SameEpoch { s with signerTree := st, signers := s.signers ++ [some pk] }
            { t with signerTree := st', signers := t.signers ++ [some pk] } := by
          obtain ⟨g1, g2, g3, g4, g5, g6, g7, g8, g9⟩ := h
          exact ⟨g1, g2, g3, g4, g5, by simp only; rw [g6], g7, g8, g9⟩
        generalize ({ s with signerTree := st, signers := s.signers ++ [some pk] } : State p q G) = s1 at *
        generalize ({ t with signerTree := st', signers := t.signers ++ [some pk] } : State p q G) = t1 at *
        have hb := blind_middle (b := b) (cv := cv) (hs := hs) (rollup := rollup) tx pk s1 t1.signerTree
          t1.ivcInputs
        rw [← hs1.eq_put] at hb
        have hk := (blind_middle (b := b) (cv := cv) (hs := hs) (rollup := rollup) tx pk).keeps s1
        rcases hm : middle b cv hs rollup tx pk s1 with ⟨s2, o⟩
        rw [hm] at hb hk
        simp only at hb hk
        rw [hb]
        have hs2 : SameEpoch s2 (put t1.signerTree t1.ivcInputs s2) :=
          SameEpoch.of_put (by rw [hk.1]; exact hs1.ivcInputs)
        rcases o with m | e | _
        · exact pushInputs_same hs2 _ _ _ _ _ _ _ _
        · exact ⟨rfl, hs2⟩
        · exact ⟨rfl, hs2⟩
      · unfold applyRejected
        apply pushInputs_same
        obtain ⟨g1, g2, g3, g4, g5, g6, g7, g8, g9⟩ := h
        exact ⟨g1, g2, g3, g4, g5, by simp only; rw [g6], g7, g8, g9⟩

theorem processFrom_same (l : List (Pair q G)) (i : Nat) {s t : State p q G} (h : SameEpoch s t)
    {c c' : Nat → UTXO Nat G} {sc sc' : Nat → G} (h1 : Inv cv hs s c sc) (h2 : Inv cv hs t c' sc')
    (hsig : s.signers.length + l.length ≤ TX_CAP)
    (hcap : s.ledger.next + TX_IO_SIZE * l.length ≤ UTXO_CAP) :
    (processFrom b cv hs rollup i l s).2 = (processFrom b cv hs rollup i l t).2 ∧
    SameEpoch (processFrom b cv hs rollup i l s).1 (processFrom b cv hs rollup i l t).1 := by
  induction l generalizing i s t c c' sc sc' with
  | nil => exact ⟨rfl, h⟩
  | cons x l ih =>
    rw [processFrom_cons, SM.bind_snd, SM.bind_snd]
    simp only [List.length_cons] at hsig hcap
    obtain ⟨k1, k2⟩ := processOne_same (b := b) (rollup := rollup) h h1.signer h2.signer (by omega) i x.1 x.2
    rw [show TX_IO_SIZE = 4 from rfl] at hcap
    have hnx : s.ledger.next = t.ledger.next := by rw [h.ledger]
    by_cases hi : i < s.transactions.length
    · have s1 := processOne_spec (b := b) (rollup := rollup) (x := x) h1 h1.root hi (by omega)
        (by rw [show TX_IO_SIZE = 4 from rfl]; omega)
      have s2 := processOne_spec (b := b) (rollup := rollup) (x := x) h2 h2.root
        (by rw [← h.transactions]; exact hi) (by rw [← h.signers]; omega)
        (by rw [show TX_IO_SIZE = 4 from rfl]; omega)
      rcases s1 with ⟨s', d, sd, e1, e2, e3⟩ | ⟨s', d, sd, e, e1, _⟩ | ⟨e1, _⟩
      · rcases s2 with ⟨t', d', sd', f1, f2, f3⟩ | ⟨t', d', sd', e, f1, _⟩ | ⟨f1, _⟩
        · rw [e1, f1] at k2 ⊢
          simp only at k2 ⊢
          obtain ⟨g1, g2, g3, g4, g5, g6, g7⟩ := e2.frame
          rw [show TX_IO_SIZE = 4 from rfl] at g7
          exact ih (i + 1) k2 e3 f3 (by omega) (by rw [show TX_IO_SIZE = 4 from rfl]; omega)
        · rw [e1, f1] at k1; simp at k1
        · rw [e1, f1] at k1; simp at k1
      · rcases hm : processOne b cv hs rollup i x.1 x.2 t with ⟨t', o⟩
        rw [e1, hm] at k1 k2
        simp only at k1 k2
        subst k1
        rw [e1]; exact ⟨rfl, k2⟩
      · rcases hm : processOne b cv hs rollup i x.1 x.2 t with ⟨t', o⟩
        rcases hm' : processOne b cv hs rollup i x.1 x.2 s with ⟨s', o'⟩
        rw [hm'] at e1
        simp only at e1
        subst e1
        rw [hm, hm'] at k1 k2
        simp only at k1 k2
        subst k1
        exact ⟨rfl, k2⟩
    · have hn : s.transactions[i]? = none := List.getElem?_eq_none (by omega)
      have e1 : processOne b cv hs rollup i x.1 x.2 s = (s, .panic) := by unfold processOne; rw [hn]
      have e2 : processOne b cv hs rollup i x.1 x.2 t = (t, .panic) := by
        unfold processOne; rw [← h.transactions, hn]
      rw [e1, e2]; exact ⟨rfl, h⟩

theorem op_same (op : Op q G) {s t : State p q G} (h : SameEpoch s t) {c c' : Nat → UTXO Nat G}
    {sc sc' : Nat → G} (h1 : Inv cv hs s c sc) (h2 : Inv cv hs t c' sc') (hf : op.Fits s) :
    (op.run b cv hs s).2 = (op.run b cv hs t).2 ∧ SameEpoch (op.run b cv hs s).1 (op.run b cv hs t).1 := by
  cases op with
  | newEpoch =>
    refine ⟨rfl, ?_⟩
    obtain ⟨g1, g2, g3, g4, g5, g6, g7, g8, g9⟩ := h
    exact ⟨g1, rfl, rfl, rfl, rfl, rfl, g7, rfl, rfl⟩
  | transactions l =>
    have hb := blind_processTransactions (b := b) (cv := cv) (hs := hs) l s t.signerTree t.ivcInputs
    rw [← h.eq_put] at hb
    have hk := (blind_processTransactions (b := b) (cv := cv) (hs := hs) l).keeps s
    simp only [Op.run, hb]
    exact ⟨trivial, SameEpoch.of_put (by rw [hk.1]; exact h.ivcInputs)⟩
  | signatures rollup l =>
    obtain ⟨k1, k2⟩ := processFrom_same (b := b) (rollup := rollup) l 0 h h1 h2 hf.1 hf.2
    simp only [Op.run, processSignatures]
    rw [k1]
    exact ⟨rfl, k2⟩

theorem SameEpoch.fits {s t : State p q G} (h : SameEpoch s t) (op : Op q G) (hf : op.Fits s) : op.Fits t := by
  cases op with
  | newEpoch => trivial
  | transactions l => simp only [Op.Fits] at hf ⊢; rw [← h.transactions]; exact hf
  | signatures rollup l => simp only [Op.Fits] at hf ⊢; rw [← h.signers, ← h.ledger]; exact hf

theorem runAll_same (ops : List (Op q G)) {s t : State p q G} (h : SameEpoch s t) {c c' : Nat → UTXO Nat G}
    {sc sc' : Nat → G} (h1 : Inv cv hs s c sc) (h2 : Inv cv hs t c' sc') (hf : Op.AllFit b cv hs s ops) :
    (Op.runAll b cv hs s ops).2 = (Op.runAll b cv hs t ops).2 ∧
    SameEpoch (Op.runAll b cv hs s ops).1 (Op.runAll b cv hs t ops).1 := by
  induction ops generalizing s t c c' sc sc' with
  | nil => exact ⟨rfl, h⟩
  | cons op ops ih =>
    obtain ⟨f1, f2, f3⟩ := hf
    obtain ⟨k1, k2⟩ := op_same (b := b) op h h1 h2 f1
    obtain ⟨d, sd, i1, _⟩ := op_spec h1 op f1 f2
    obtain ⟨d', sd', i2, _⟩ := op_spec h2 op (h.fits op f1) (by rw [← k1]; exact f2)
    obtain ⟨m1, m2⟩ := ih k2 i1 i2 f3
    exact ⟨by simp only [Op.runAll]; rw [k1, m1], m2⟩

theorem inv_fresh {s : State p q G} {c : Nat → UTXO Nat G} {sc : Nat → G} (h : Inv cv hs s c sc) :
    Inv cv hs (freshWith (q := q) cv hs s.ledger) c (fun _ => 0) := by
  have h0 := inv_new (q := q) cv hs
  exact ⟨h.holds, h.nextCap, h0.tx, h0.txCap, h0.proofsLen, h0.proofs, h0.signer, h0.signerCap⟩

end PF.Agg
