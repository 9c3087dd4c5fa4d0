import Verif.Props.SignatureBinding
import Verif.Props.AggregatorCircuitRuns

/-!
# Property C122: what of a signature matters — its validity, and nothing else
-/

set_option linter.unusedSectionVars false

namespace PF.Props
open PF PF.MT PF.Agg PF.Spec PF.Schnorr PF.Circuit PF.AggC
variable {p q : Nat} {G : Type} [AddCommGroup G] [Module (ZMod q) G] [DecidableEq G]

/-! ## Uniqueness -/

/-- **C122**: for one key, message and challenge at most one response is accepted, unless two explicit inputs
collide under the (cut) hash. On a curve without a point at the coordinates (0, 0). -/
theorem C122_unique_response [Fact q.Prime] (cv : Curve p q G) (H : List (ZMod p) → ZMod p)
    (pk : G) (m : List (ZMod p)) (s s' e : ZMod q) (h0 : ∀ P, cv.xy P ≠ some (0, 0))
    (h : Schnorr.verify cv H pk m (s, e) = true) (h' : Schnorr.verify cv H pk m (s', e) = true) :
    s = s' ∨ CutCollision q H (recomputed cv pk (s, e) ++ m) (recomputed cv pk (s', e) ++ m) := by
  rw [verify_iff] at h h'
  by_cases hk : s = s'
  · exact Or.inl hk
  · refine Or.inr ⟨fun hx => hk ?_, cut_eq h h'⟩
    have hxy : recomputed cv pk (s, e) = recomputed cv pk (s', e) := List.append_cancel_right hx
    unfold recomputed at hxy
    simp only [List.cons.injEq, and_true] at hxy
    have hpt : cv.xy (s • cv.gen + e • pk) = cv.xy (s' • cv.gen + e • pk) := by
      rcases e1 : cv.xy (s • cv.gen + e • pk) with _ | ⟨x, y⟩ <;>
        rcases e2 : cv.xy (s' • cv.gen + e • pk) with _ | ⟨x', y'⟩ <;>
        rw [e1, e2] at hxy <;> simp only [Option.getD_none, Option.getD_some] at hxy
      · obtain ⟨rfl, rfl⟩ := hxy; exact absurd e2 (h0 _)
      · obtain ⟨rfl, rfl⟩ := hxy; exact absurd e1 (h0 _)
      · obtain ⟨rfl, rfl⟩ := hxy; rfl
    have hg : (s - s') • cv.gen = 0 := by
      rw [sub_smul, sub_eq_zero]; exact add_right_cancel (cv.xy_inj _ _ hpt)
    by_contra hne
    have hd : s - s' ≠ 0 := sub_ne_zero.2 hne
    exact cv.gen_ne (by
      calc cv.gen = (s - s')⁻¹ • (s - s') • cv.gen := by rw [← mul_smul, inv_mul_cancel₀ hd, one_smul]
        _ = 0 := by rw [hg, smul_zero])

/-- Non-vacuity: on the toy curve without point (0, 0), one response is accepted for a challenge and another one is
not; with a constant hash two responses are accepted, and the collision alternative holds. -/
example : (∀ P, toyCurve3.xy P ≠ some (0, 0)) ∧
    (∃ s s' e, Schnorr.verify toyCurve3 (toyH 5) 5 [1, 2] (s, e) = true ∧
      Schnorr.verify toyCurve3 (toyH 5) 5 [1, 2] (s', e) = false) ∧
    Schnorr.verify toyCurve3 (fun _ => 1) 5 [1, 2] (2, 1) = true ∧
    Schnorr.verify toyCurve3 (fun _ => 1) 5 [1, 2] (3, 1) = true := by
  refine ⟨by decide, ⟨?_, ?_⟩⟩ <;> decide

/-! ## Bit strings in the circuits -/

theorem challengeBits_congr (cv : Curve p q G) (H : List (ZMod p) → ZMod p) (pk : G) (m : List (ZMod p))
    (s s' e : List Bool) (hs : bitsVal s % q = bitsVal s' % q) :
    challengeBits cv H pk m s e = challengeBits cv H pk m s' e := by
  have h1 : ((bitsVal s : Nat) : ZMod q) = (bitsVal s' : Nat) := (ZMod.natCast_eq_natCast_iff' _ _ _).2 hs
  have h2 : bitsVal s • cv.gen = bitsVal s' • cv.gen := by
    rw [← Nat.cast_smul_eq_nsmul (ZMod q), ← Nat.cast_smul_eq_nsmul (ZMod q), h1]
  unfold challengeBits
  simp only [h2]

/-- **C122**: the circuits read the response string modulo the group order only: two strings of the same residue
are accepted, rejected or refused alike by both gadgets, at every chunk width. -/
theorem C122_response_modulo_order (cv : Curve p q G) (H : List (ZMod p) → ZMod p) (W : Nat) (pk : G)
    (m : List (ZMod p)) (s s' e : List Bool) (hs : bitsVal s % q = bitsVal s' % q) :
    (verifyGadget W cv H pk m s e ↔ verifyGadget W cv H pk m s' e) ∧
    ∀ out, isValidGadget W cv H pk m s e out ↔ isValidGadget W cv H pk m s' e out := by
  unfold verifyGadget isValidGadget
  simp only [challengeBits_congr cv H pk m s s' e hs, implies_true, and_self]

/-- **C122**: so a native signature whose response is small enough has a second string of the allocated length
that every circuit takes for the same signature: its response is not unique as a witness. -/
theorem C122_second_string (cv : Curve p q G) (H : List (ZMod p) → ZMod p) (W : Nat) (hq : 0 < q) (pk : G)
    (m : List (ZMod p)) (sig : ZMod q × ZMod q) (hs : sig.1.val + q < 2 ^ modBits q) :
    ∃ s' : List Bool, s' ≠ (allocSig sig).1 ∧ s'.length = (allocSig sig).1.length ∧
      (verifyGadget W cv H pk m s' (allocSig sig).2 ↔
        verifyGadget W cv H pk m (allocSig sig).1 (allocSig sig).2) ∧
      ∀ out, isValidGadget W cv H pk m s' (allocSig sig).2 out ↔
        isValidGadget W cv H pk m (allocSig sig).1 (allocSig sig).2 out := by
  have e1 : bitsVal (natBits (modBits q) (sig.1.val + q)) = sig.1.val + q := by
    rw [bitsVal_natBits, Nat.mod_eq_of_lt hs]
  have e2 : bitsVal (allocSig sig).1 = sig.1.val := by
    unfold allocSig; dsimp only; rw [bitsVal_natBits, Nat.mod_eq_of_lt (by omega)]
  refine ⟨natBits (modBits q) (sig.1.val + q), fun he => ?_, by simp [allocSig, natBits_length], ?_⟩
  · have := congrArg bitsVal he
    rw [e1, e2] at this; omega
  · exact C122_response_modulo_order cv H W pk m _ _ _ (by rw [e1, e2, Nat.add_mod_right])

/-- **C122**: the challenge string is unique: for one key, message and response residue, the gadgets accept at most
one string of the allocated length, the canonical one. Together with the uniqueness of the response, the accepted
strings of one challenge all have the same residue, or the hash collides. -/
theorem C122_accepted_strings [Fact q.Prime] (cv : Curve p q G) (H : List (ZMod p) → ZMod p) (W : Nat)
    (hW1 : 1 ≤ W) (hW : 2 ^ (W + 1) ≤ p) (hb : modBits q ≤ modBits p) (hbp : modBits q < p) (pk : G)
    (m : List (ZMod p)) (s s' e e' : List Bool) (he : e.length = modBits q) (he' : e'.length = modBits q)
    (h : verifyGadget W cv H pk m s e) (h' : verifyGadget W cv H pk m s' e') :
    bitsVal e < q ∧ e = natBits (modBits q) (bitsVal e % q) ∧
    (bitsVal s % q = bitsVal s' % q → bitsVal e % q = bitsVal e' % q → e = e') ∧
    (e = e' → (∀ P, cv.xy P ≠ some (0, 0)) → bitsVal s % q = bitsVal s' % q ∨
      CutCollision q H (recomputed cv pk ((bitsVal s : ZMod q), (bitsVal e : ZMod q)) ++ m)
        (recomputed cv pk ((bitsVal s' : ZMod q), (bitsVal e : ZMod q)) ++ m)) := by
  have hq : 0 < q := (Fact.out : q.Prime).pos
  obtain ⟨h1, h2⟩ := (C27_verify_gadget_iff cv H W hW1 hW hq hb hbp pk m s e he).1 h
  obtain ⟨h3, h4⟩ := (C27_verify_gadget_iff cv H W hW1 hW hq hb hbp pk m s' e' he').1 h'
  refine ⟨h1, ?_, fun _ hx => ?_, fun hx h0 => ?_⟩
  · rw [Nat.mod_eq_of_lt h1, ← he, natBits_bitsVal]
  · rw [Nat.mod_eq_of_lt h1, Nat.mod_eq_of_lt h3] at hx
    exact bitsVal_inj (by rw [he, he']) hx
  · subst hx
    rcases C122_unique_response cv H pk m _ _ _ h0 h2 h4 with hs | hc
    · exact Or.inl ((ZMod.natCast_eq_natCast_iff' _ _ _).1 hs)
    · exact Or.inr hc

/-- Non-vacuity: a response below `8 - 7` has the second string; with the real group order `q` of 254 bits these are
the responses below `2 ^ 254 - q`. And a signature with response 0 that is accepted. -/
example : (∃ e : ZMod 7, Schnorr.verify toyCurve3 (toyH 5) 5 [1, 2] (0, e) = true) ∨
    (0 : ZMod 7).val + 7 < 2 ^ modBits 7 ∧ Schnorr.verify toyCurve3 (fun _ => 1) 5 [1, 2] (0, 1) = true := by
  right; decide

/-! ## The aggregator's circuit -/

/-- Two circuit inputs that differ in their signature strings only, one of which is accepted (for the announced
root) if and only if the other one is. -/
structure SameValidity (cv : Curve p q G) (hs : Hashes p) (root : ZMod p) (i i' : CInputs p G) : Prop where
  length_s : i'.sigS.length = modBits q
  length_e : i'.sigE.length = modBits q
  rest : i' = { i with sigS := i'.sigS, sigE := i'.sigE }
  valid : i.signed cv hs root = i'.signed cv hs root

theorem stepOne_validity (h : Sizes p q) (hpq : p ≤ q) (P : Params p G) (cv : Curve p q G) (z z' : CState p)
    (i i' : CInputs p G) (hv : SameValidity cv P.hs z.txRootFinal i i') (hstep : stepOne P cv z i z') :
    stepOne P cv z i' z' := by
  obtain ⟨h1, h2, h3, h4, sigOk, r1, w, h5, h6⟩ := hstep
  obtain ⟨l1, l2, hr, hval⟩ := hv
  have h5' := ((isValid_iff h cv P.hs z.txRootFinal i h2 sigOk).1 h5).2
  have h7 := (isValid_iff h cv P.hs z.txRootFinal i' l2 sigOk).2
    ⟨sigDefined_of_le h hpq cv P.hs _ _ l2, by rw [h5', hval]⟩
  obtain ⟨tx, txProof, dels, adds, signerProof, senderPk, sigS, sigE⟩ := i
  obtain ⟨tx', txProof', dels', adds', signerProof', senderPk', sigS', sigE'⟩ := i'
  simp only [CInputs.mk.injEq, and_true] at hr
  obtain ⟨rfl, rfl, rfl, rfl, rfl, rfl⟩ := hr
  exact ⟨l1, l2, h3, h4, sigOk, r1, w, h7, h6⟩

/-- **C122**: a step of the aggregator's circuit uses a signature for its validity only. Putting another signature
that is accepted (or rejected) like the first one into the witness leads from the same state to the same state. -/
theorem C122_step_uses_validity_only (h : Sizes p q) (hpq : p ≤ q) (P : Params p G) (cv : Curve p q G)
    (z z' : CState p) (is is' : List (CInputs p G))
    (hv : List.Forall₂ (SameValidity cv P.hs z.txRootFinal) is is') (hstep : stepBatch P cv z is z') :
    stepBatch P cv z is' z' := by
  generalize hr : z.txRootFinal = r at hv
  induction hv generalizing z with
  | nil => exact hstep
  | cons h1 h2 ih =>
    obtain ⟨z1, h3, h4⟩ := hstep
    refine ⟨z1, stepOne_validity h hpq P cv z z1 _ _ (by rw [hr]; exact h1) h3, ih z1 h4 ?_⟩
    have hf : z1.txRootFinal = z.txRootFinal := by
      obtain ⟨_, _, _, _, _, _, _, _, _, _, _, _, _, _, hf⟩ := h3
      exact hf
    rw [hf, hr]

/-- **C122**, whole runs: the final state of a run, hence what the contract checks, does not depend on which of the
equally valid signatures the prover uses. -/
theorem C122_run_uses_validity_only (h : Sizes p q) (hpq : p ≤ q) (P : Params p G) (cv : Curve p q G)
    (z z' : CState p) (bs bs' : List (List (CInputs p G)))
    (hv : List.Forall₂ (List.Forall₂ (SameValidity cv P.hs z.txRootFinal)) bs bs')
    (hrun : runSteps P cv z bs z') : runSteps P cv z bs' z' := by
  generalize hr : z.txRootFinal = r at hv
  induction hv generalizing z with
  | nil => exact hrun
  | @cons is is' bs bs' h1 h2 ih =>
    obtain ⟨z1, h3, h4⟩ := hrun
    refine ⟨z1, C122_step_uses_validity_only h hpq P cv z z1 _ _ (by rw [hr]; exact h1) h3, ih z1 h4 ?_⟩
    have hf : z1.txRootFinal = z.txRootFinal :=
      (C56_counter_and_final_root h P cv z z1 [is] ⟨z1, h3, rfl⟩).2
    rw [hf, hr]

/-! ## The aggregator -/

/-- The state with the signatures in the recorded circuit inputs blanked. -/
def withoutSignatures (s : Agg.State p q G) : Agg.State p q G :=
  { s with ivcInputs := s.ivcInputs.map fun i => { i with signature := (0, 0) } }

/-- Running `m` and `m'` from states equal but for signatures gives the same outcome and states equal but for
signatures, with the same transactions and transaction tree. -/
def Blind {α : Type} (m m' : SM (Agg.State p q G) AggError α) : Prop :=
  ∀ s s' : Agg.State p q G, withoutSignatures s = withoutSignatures s' →
    withoutSignatures (m s).1 = withoutSignatures (m' s').1 ∧ (m s).2 = (m' s').2 ∧
    (m s).1.transactions = s.transactions ∧ (m s).1.txTree = s.txTree

theorem ws_iff (s s' : Agg.State p q G) : withoutSignatures s = withoutSignatures s' ↔
    s.ledger = s'.ledger ∧ s.transactions = s'.transactions ∧ s.txTree = s'.txTree ∧ s.deposits = s'.deposits ∧
    s.withdrawals = s'.withdrawals ∧ s.signerTree = s'.signerTree ∧ s.signers = s'.signers ∧
    s.height = s'.height ∧ s.txProofs = s'.txProofs ∧
    s.ivcInputs.map (fun i => { i with signature := ((0, 0) : ZMod q × ZMod q) }) =
      s'.ivcInputs.map (fun i => { i with signature := ((0, 0) : ZMod q × ZMod q) }) := by
  unfold withoutSignatures
  simp only [Agg.State.mk.injEq]

theorem Blind.bind {α β : Type} {m m' : SM (Agg.State p q G) AggError α}
    {f f' : α → SM (Agg.State p q G) AggError β} (hm : Blind m m') (hf : ∀ a, Blind (f a) (f' a)) :
    Blind (SM.bind m f) (SM.bind m' f') := by
  intro s s' hs
  obtain ⟨h1, h2, h3, h4⟩ := hm s s' hs
  unfold SM.bind
  rcases e : m s with ⟨t, o⟩
  rcases e' : m' s' with ⟨t', o'⟩
  rw [e, e'] at h1 h2
  rw [e] at h3 h4
  dsimp only at h1 h2 h3 h4
  subst h2
  cases o with
  | ok a =>
    obtain ⟨g1, g2, g3, g4⟩ := hf a t t' h1
    exact ⟨g1, g2, g3.trans h3, g4.trans h4⟩
  | err e => exact ⟨h1, rfl, h3, h4⟩
  | panic => exact ⟨h1, rfl, h3, h4⟩

theorem Blind.pure {α : Type} (a : α) :
    Blind (SM.pure a : SM (Agg.State p q G) AggError α) (SM.pure a) := fun _ _ hs => ⟨hs, rfl, rfl, rfl⟩

theorem Blind.onLedger {α : Type} (m : SM (Ledger p G) AggError α) :
    Blind (Agg.onLedger m : SM (Agg.State p q G) AggError α) (Agg.onLedger m) := by
  intro s s' hs
  rw [ws_iff] at hs
  obtain ⟨a1, a2, a3, a4, a5, a6, a7, a8, a9, a10⟩ := hs
  unfold Agg.onLedger
  rw [ws_iff, a1]
  exact ⟨⟨rfl, a2, a3, a4, a5, a6, a7, a8, a9, a10⟩, rfl, rfl, rfl⟩

theorem Blind.addSigner (cv : Curve p q G) (hs : Hashes p) (pk : G) :
    Blind (Agg.addSigner cv hs pk) (Agg.addSigner cv hs pk) := by
  intro s s' h
  have h' := h
  rw [ws_iff] at h
  obtain ⟨a1, a2, a3, a4, a5, a6, a7, a8, a9, a10⟩ := h
  unfold Agg.addSigner onOk
  rw [a6, a7]
  rcases updateAndProve (signerTreeCfg cv hs) s'.signerTree s'.signers.length pk with r | _ | _
  · refine ⟨?_, rfl, rfl, rfl⟩
    rw [ws_iff]
    exact ⟨a1, a2, a3, a4, a5, rfl, rfl, a8, a9, a10⟩
  · exact ⟨h', rfl, rfl, rfl⟩
  · exact ⟨h', rfl, rfl, rfl⟩

theorem Blind.recordDeposit (rollup pk : G) (u : UTXO Nat G) :
    Blind (Agg.recordDeposit rollup pk u : SM (Agg.State p q G) AggError Unit) (Agg.recordDeposit rollup pk u) := by
  intro s s' h
  have h' := h
  rw [ws_iff] at h
  obtain ⟨a1, a2, a3, a4, a5, a6, a7, a8, a9, a10⟩ := h
  unfold Agg.recordDeposit
  split
  · refine ⟨?_, rfl, rfl, rfl⟩
    rw [ws_iff]
    exact ⟨a1, a2, a3, by rw [a4], a5, a6, a7, a8, a9, a10⟩
  · exact ⟨h', rfl, rfl, rfl⟩

theorem Blind.recordWithdrawal (pk : G) (w : Nat) :
    Blind (Agg.recordWithdrawal pk w : SM (Agg.State p q G) AggError Unit) (Agg.recordWithdrawal pk w) := by
  intro s s' h
  have h' := h
  rw [ws_iff] at h
  obtain ⟨a1, a2, a3, a4, a5, a6, a7, a8, a9, a10⟩ := h
  unfold Agg.recordWithdrawal
  split
  · refine ⟨?_, rfl, rfl, rfl⟩
    rw [ws_iff]
    exact ⟨a1, a2, a3, a4, by rw [a5], a6, a7, a8, a9, a10⟩
  · exact ⟨h', rfl, rfl, rfl⟩

theorem Blind.addWithdrawal (b : Build) (w a : Nat) :
    Blind (Agg.addWithdrawal b w a : SM (Agg.State p q G) AggError Nat) (Agg.addWithdrawal b w a) :=
  fun _ _ hs => ⟨hs, rfl, rfl, rfl⟩

theorem Blind.pushInputs (i : Nat) (tx : Tx Nat G) (dels adds : List (ZMod p × List (ZMod p)))
    (sp : List (ZMod p)) (pk : G) (sig sig' : ZMod q × ZMod q) :
    Blind (Agg.pushInputs i tx dels adds sp pk sig) (Agg.pushInputs i tx dels adds sp pk sig') := by
  intro s s' h
  have h' := h
  rw [ws_iff] at h
  obtain ⟨a1, a2, a3, a4, a5, a6, a7, a8, a9, a10⟩ := h
  unfold Agg.pushInputs
  rw [a9]
  rcases s'.txProofs[i]? with _ | tp
  · exact ⟨h', rfl, rfl, rfl⟩
  · refine ⟨?_, rfl, rfl, rfl⟩
    rw [ws_iff]
    exact ⟨a1, a2, a3, a4, a5, a6, a7, a8, rfl, by simp only [List.map_append, a10, List.map_cons, List.map_nil]⟩

theorem Blind.addOutputs (b : Build) (cv : Curve p q G) (hs : Hashes p) (rollup pk : G) (us : List (UTXO Nat G))
    (w : Nat) : Blind (Agg.addOutputs b cv hs rollup pk us w) (Agg.addOutputs b cv hs rollup pk us w) := by
  induction us generalizing w with
  | nil => exact Blind.pure _
  | cons u us ih =>
    unfold Agg.addOutputs
    refine Blind.bind ?_ fun a => Blind.bind (ih _) fun r => Blind.pure _
    unfold Agg.addOne
    split
    · exact Blind.pure _
    · refine Blind.bind (Blind.recordDeposit _ _ _) fun _ => ?_
      split
      · exact Blind.bind (Blind.onLedger _) fun _ => Blind.pure _
      · exact Blind.bind (Blind.addWithdrawal _ _ _) fun _ => Blind.pure _

theorem Blind.applyAccepted (b : Build) (cv : Curve p q G) (hs : Hashes p) (rollup : G) (i : Nat) (tx : Tx Nat G)
    (pk : G) (sig sig' : ZMod q × ZMod q) :
    Blind (Agg.applyAccepted b cv hs rollup i tx pk sig) (Agg.applyAccepted b cv hs rollup i tx pk sig') := by
  unfold Agg.applyAccepted
  exact Blind.bind (Blind.addSigner _ _ _) fun _ => Blind.bind (Blind.onLedger _) fun _ =>
    Blind.bind (Blind.addOutputs _ _ _ _ _ _ _) fun _ => Blind.bind (Blind.recordWithdrawal _ _) fun _ =>
    Blind.pushInputs _ _ _ _ _ _ _ _

theorem Blind.applyRejected (cv : Curve p q G) (hs : Hashes p) (i : Nat) (tx : Tx Nat G)
    (pk : G) (sig sig' : ZMod q × ZMod q) :
    Blind (Agg.applyRejected cv hs i tx pk sig) (Agg.applyRejected cv hs i tx pk sig') := by
  intro s s' h
  unfold Agg.applyRejected
  obtain ⟨g1, g2, g3, g4⟩ := Blind.pushInputs i tx (List.replicate TX_IO_SIZE (noUpdate cv hs))
    (List.replicate TX_IO_SIZE (noUpdate cv hs)) (defaultTwoPaths 0 (signerTreeCfg cv hs)) pk sig sig'
    { s with signers := s.signers ++ [none] } { s' with signers := s'.signers ++ [none] } (by
      rw [ws_iff] at h ⊢
      obtain ⟨a1, a2, a3, a4, a5, a6, a7, a8, a9, a10⟩ := h
      exact ⟨a1, a2, a3, a4, a5, a6, by rw [a7], a8, a9, a10⟩)
  exact ⟨g1, g2, g3, g4⟩

theorem processFrom_blind (b : Build) (cv : Curve p q G) (hs : Hashes p) (rollup : G) (r : ZMod p)
    (l l' : List (Pair q G)) (i : Nat) (s s' : Agg.State p q G) (h : withoutSignatures s = withoutSignatures s')
    (hroot : s.txTree.root = some r) (hkeys : l.map Prod.fst = l'.map Prod.fst)
    (hv : ∀ (k : Nat) tx x x', s.transactions[i + k]? = some tx → l[k]? = some x → l'[k]? = some x' →
      Approves cv hs rollup r tx x = Approves cv hs rollup r tx x') :
    withoutSignatures (processFrom b cv hs rollup i l s).1 = withoutSignatures (processFrom b cv hs rollup i l' s').1 ∧
    (processFrom b cv hs rollup i l s).2 = (processFrom b cv hs rollup i l' s').2 := by
  induction l generalizing l' i s s' with
  | nil =>
    cases l' with
    | nil => exact ⟨h, rfl⟩
    | cons => simp at hkeys
  | cons x l ih =>
    cases l' with
    | nil => simp at hkeys
    | cons x' l' =>
      simp only [List.map_cons, List.cons.injEq] at hkeys
      obtain ⟨hk, hks⟩ := hkeys
      have h1 : withoutSignatures (processOne b cv hs rollup i x.1 x.2 s).1 =
          withoutSignatures (processOne b cv hs rollup i x'.1 x'.2 s').1 ∧
          (processOne b cv hs rollup i x.1 x.2 s).2 = (processOne b cv hs rollup i x'.1 x'.2 s').2 ∧
          (processOne b cv hs rollup i x.1 x.2 s).1.transactions = s.transactions ∧
          (processOne b cv hs rollup i x.1 x.2 s).1.txTree = s.txTree := by
        have h' := h
        rw [ws_iff] at h'
        obtain ⟨_, a2, a3, _⟩ := h'
        unfold processOne
        rw [← a2, ← a3, hroot, ← hk]
        rcases ht : s.transactions[i]? with _ | tx
        · exact ⟨h, rfl, rfl, rfl⟩
        · dsimp only
          have hacc := hv 0 tx x x' ht rfl rfl
          have e1 : accepted cv hs rollup r tx x.1 (x.2.getD (0, 0)) = Approves cv hs rollup r tx x := rfl
          have e2 : accepted cv hs rollup r tx x.1 (x'.2.getD (0, 0)) = Approves cv hs rollup r tx x' := by
            unfold accepted Approves; rw [hk]
          rw [e1, e2, hacc]
          split
          · exact Blind.applyAccepted b cv hs rollup i tx x.1 _ _ s s' h
          · exact Blind.applyRejected cv hs i tx x.1 _ _ s s' h
      obtain ⟨g1, g2, g3, g4⟩ := h1
      rw [processFrom_cons, processFrom_cons]
      unfold SM.bind
      rcases e : processOne b cv hs rollup i x.1 x.2 s with ⟨t, o⟩
      rcases e' : processOne b cv hs rollup i x'.1 x'.2 s' with ⟨t', o'⟩
      rw [e, e'] at g1 g2
      rw [e] at g3 g4
      dsimp only at g1 g2 g3 g4
      subst g2
      cases o with
      | ok a =>
        refine ih l' (i + 1) t t' g1 (by rw [g4]; exact hroot) hks fun k tx y y' hy => ?_
        rw [g3, show i + 1 + k = i + (k + 1) by omega] at hy
        intro hl hl'
        exact hv (k + 1) tx y y' hy hl hl'
      | err e => exact ⟨g1, rfl⟩
      | panic => exact ⟨g1, rfl⟩

/-- **C122**, the aggregator: `process_signatures` uses the signatures for the approval of the transactions only.
Called on two lists with the same keys whose pairs approve the same transactions, in a reachable state, it returns
the same result and leaves the same state — ledger, trees, signers, deposits, withdrawals, proofs — except for the
signatures stored with the circuit inputs. So the two states also produce the same block. -/
theorem C122_aggregator_uses_validity_only (b : Build) (cv : Curve p q G) (hs : Hashes p) (rollup : G)
    (s : Agg.State p q G) (h : Reach b cv hs s) (l l' : List (Pair q G)) (hkeys : l.map Prod.fst = l'.map Prod.fst)
    (hv : ∀ (k : Nat) tx x x', s.transactions[k]? = some tx → l[k]? = some x → l'[k]? = some x' →
      Approves cv hs rollup (txRoot cv hs s) tx x = Approves cv hs rollup (txRoot cv hs s) tx x') :
    (processSignatures b cv hs rollup l s).2 = (processSignatures b cv hs rollup l' s).2 ∧
    withoutSignatures (processSignatures b cv hs rollup l s).1 =
      withoutSignatures (processSignatures b cv hs rollup l' s).1 ∧
    ∀ st : Contract.State G, produceBlock st (processSignatures b cv hs rollup l s).1 =
      produceBlock st (processSignatures b cv hs rollup l' s).1 := by
  obtain ⟨c, sc, hi⟩ := reach_inv h
  have := processFrom_blind b cv hs rollup (txRoot cv hs s) l l' 0 s s rfl hi.root hkeys (by simpa using hv)
  refine ⟨this.2, this.1, fun st => ?_⟩
  have h2 := this.1
  rw [ws_iff] at h2
  obtain ⟨a1, a2, a3, a4, a5, a6, a7, a8, a9, a10⟩ := h2
  unfold processSignatures produceBlock
  simp only [a1, a2, a3, a4, a5, a6, a7, a8]

end PF.Props
