import Verif.Proof.TreeUpdates
import Verif.Proof.Accumulator
import Verif.Proof.Data
import Verif.Props.Schnorr
import Verif.Spec.AggregatorCircuit

/-!
# Exact characterisation of one step of the aggregator circuit
-/
set_option linter.unusedSectionVars false

namespace PF.AggC
open PF PF.Spec PF.MT PF.Circuit PF.Contract
variable {p q : Nat} {G : Type} [AddCommGroup G] [Module (ZMod q) G]

theorem Sizes.modBits_gt (h : Sizes p q) : 67 < modBits p := Nat.lt_size.2 h.large

theorem Sizes.p_pos (h : Sizes p q) : 0 < p := lt_of_lt_of_le (by decide) h.large

theorem Sizes.modBits_lt (h : Sizes p q) : modBits q < p := by
  have h1 := h.bits
  have h2 : modBits p < p := by
    unfold modBits
    by_contra hc
    have h3 : p ≤ Nat.size p := by omega
    have h4 : 2 ^ (p - 1) ≤ p := by
      have := h.p_pos
      exact Nat.lt_size.1 (by omega)
    have h5 := h.large
    have h6 : p - 1 < 2 ^ (p - 1) := Nat.lt_two_pow_self
    have h7 : 2 * (p - 1) ≤ 2 ^ (p - 1) := by
      have : p - 1 = (p - 2) + 1 := by omega
      rw [this, pow_succ]
      have : p - 2 < 2 ^ (p - 2) := Nat.lt_two_pow_self
      omega
    omega
  omega

theorem toNBits_iff (h : Sizes p q) (x : ZMod p) (bits : List Bool) :
    toNBits x 64 bits ↔ x.val < 2 ^ 64 ∧ bits = natBits 64 x.val := by
  have hp := h.p_pos
  have hl := h.large
  have hb := h.modBits_gt
  have : NeZero p := ⟨by omega⟩
  unfold toNBits
  constructor
  · rintro ⟨h1, _, h3⟩
    have hlt := bitsVal_lt bits
    rw [h1] at hlt
    have hv : x.val = bitsVal bits := by
      rw [← h3, ZMod.val_natCast, Nat.mod_eq_of_lt]
      exact lt_of_lt_of_le hlt (le_trans (by decide) hl)
    refine ⟨by omega, ?_⟩
    rw [hv, ← h1, natBits_bitsVal]
  · rintro ⟨h1, rfl⟩
    refine ⟨natBits_length _ _, fun hc => by omega, ?_⟩
    rw [bitsVal_natBits, Nat.mod_eq_of_lt h1, ZMod.natCast_zmod_val]

theorem bytes64 (x : Nat) : bytesOfBits (natBits 64 x) = bytesLe 8 (x % 2 ^ 64) := by
  rw [bytesOfBits_eq 8 _ (by rw [natBits_length]), bitsVal_natBits]

/-- A list of UTXO updates: the pairs selected by `sel`. -/
def updsOf (us : List (UTXO (ZMod p) G)) (ds : List (ZMod p × List (ZMod p)))
    (sel : UTXO (ZMod p) G → Bool) (o n : UTXO (ZMod p) G → UTXO (ZMod p) G) :
    List (Upd (UTXO (ZMod p) G) (ZMod p)) :=
  ((us.zip ds).filter fun x => sel x.1).map fun x =>
    { idx := x.2.1.val % UTXO_CAP, old := o x.1, new := n x.1, sibs := x.2.2 }

theorem updsOf_cons (u : UTXO (ZMod p) G) (us : List (UTXO (ZMod p) G)) (d : ZMod p × List (ZMod p))
    (ds : List (ZMod p × List (ZMod p))) (sel : UTXO (ZMod p) G → Bool)
    (o n : UTXO (ZMod p) G → UTXO (ZMod p) G) :
    updsOf (u :: us) (d :: ds) sel o n =
      (if sel u then [{ idx := d.1.val % 2 ^ (UTXO_TREE_HEIGHT - 1), old := o u, new := n u, sibs := d.2 }]
        else []) ++ updsOf us ds sel o n := by
  unfold updsOf
  rw [List.zip_cons_cons, List.filter_cons]
  cases sel u <;> simp [UTXO_CAP]

abbrev UtxoChain (cv : Curve p q G) (hs : Hashes p) :=
  UpdChain hs.h2 (fun l : UTXO (ZMod p) G => hs.crh (utxoEncVar cv l)) 31

theorem delLoop_iff (h : Sizes p q) (cv : Curve p q G) (hs : Hashes p) (sigOk : Bool)
    (us : List (UTXO (ZMod p) G)) (ds : List (ZMod p × List (ZMod p))) (r r' : ZMod p) :
    delLoop cv hs sigOk us ds r r' ↔ ProofsShape us ds ∧
      UtxoChain cv hs (updsOf us ds (fun u => sigOk && !u.isDummy) id (fun _ => UTXO.dummy)) r r' := by
  have hb := h.modBits_gt
  induction us generalizing ds r with
  | nil =>
    cases ds with
    | nil => simp [delLoop, ProofsShape, updsOf, UtxoChain, UpdChain]
    | cons => simp [delLoop, ProofsShape]
  | cons u us ih =>
    cases ds with
    | nil => simp [delLoop, ProofsShape]
    | cons d ds =>
      simp only [delLoop, ih, updsOf_cons]
      unfold UtxoChain
      rw [UpdChain_append]
      constructor
      · rintro ⟨r1, h1, ⟨h2, h3⟩, h4⟩
        rw [condUpdate_iff _ (by show 31 ≤ _; omega)] at h1
        refine ⟨⟨by simp [h2], ?_⟩, r1, h1.2, h4⟩
        intro e he
        rcases List.mem_cons.1 he with rfl | he
        · exact h1.1
        · exact h3 e he
      · rintro ⟨⟨h1, h2⟩, r1, h3, h4⟩
        refine ⟨r1, ?_, ⟨by simpa using h1, fun e he => h2 e (by simp [he])⟩, h4⟩
        rw [condUpdate_iff _ (by show 31 ≤ _; omega)]
        exact ⟨h2 d (by simp), h3⟩

variable [DecidableEq G]

/-- Deposit entries of a list of outputs. -/
def depEntries (sic : Bool) (us : List (UTXO (ZMod p) G)) : List (G × Nat) :=
  if sic then (us.filter fun u => !u.isDummy).map fun u => (u.pk, u.amount.val) else []

theorem depEntries_cons (sic : Bool) (u : UTXO (ZMod p) G) (us : List (UTXO (ZMod p) G)) :
    depEntries sic (u :: us) =
      (if sic && !u.isDummy then [(u.pk, u.amount.val)] else []) ++ depEntries sic us := by
  unfold depEntries
  cases sic <;> cases hd : u.isDummy <;> simp [List.filter_cons, hd]

theorem depositStep_iff (h : Sizes p q) (P : Params p G) (cv : Curve p q G) (sic : Bool)
    (u : UTXO (ZMod p) G) (dep dep' : ZMod p) :
    depositStep P cv sic u dep dep' ↔
      (P.transferOnly = true ∧ dep' = dep) ∨
      (P.transferOnly = false ∧ u.amount.val < 2 ^ 64 ∧
        dep' = chain (shaField p P.sha) (amountInput cv) dep
          (if sic && !u.isDummy then [(u.pk, u.amount.val)] else [])) := by
  have hp := h.p_pos
  unfold depositStep
  cases P.transferOnly with
  | true => simp
  | false =>
    simp only [Bool.false_eq_true, if_false, false_and, true_and, false_or]
    constructor
    · rintro ⟨bits, hb, rfl⟩
      obtain ⟨h1, rfl⟩ := (toNBits_iff h _ _).1 hb
      refine ⟨h1, ?_⟩
      rw [shaFieldVar_eq, fBytesVar_eq hp, pkBytesVar_eq hp, bytes64, Nat.mod_eq_of_lt h1]
      cases (sic && !u.isDummy) <;> simp [select, chain, amountInput]
    · rintro ⟨h1, rfl⟩
      refine ⟨_, (toNBits_iff h _ _).2 ⟨h1, rfl⟩, ?_⟩
      rw [shaFieldVar_eq, fBytesVar_eq hp, pkBytesVar_eq hp, bytes64, Nat.mod_eq_of_lt h1]
      cases (sic && !u.isDummy) <;> simp [select, chain, amountInput]

theorem chain_append {D V Q : Type} (h : Q → D) (inp : D → V → Q) (a : D) (vs ws : List V) :
    chain h inp a (vs ++ ws) = chain h inp (chain h inp a vs) ws := by simp [chain]

theorem addLoop_iff (h : Sizes p q) (P : Params p G) (cv : Curve p q G) (sic txOk : Bool)
    (us : List (UTXO (ZMod p) G)) (as : List (ZMod p × List (ZMod p))) (dep w r dep' w' r' : ZMod p) :
    addLoop P cv sic txOk us as dep w r dep' w' r' ↔ ProofsShape us as ∧
      UtxoChain cv P.hs (updsOf us as (fun u => txOk && u.onLedger P.contract) (fun _ => UTXO.dummy) id)
        r r' ∧
      w' = w + (totalVal (us.filter fun u => u.pk = P.contract) : Nat) ∧
      ((P.transferOnly = true ∧ dep' = dep) ∨
        (P.transferOnly = false ∧ (∀ u ∈ us, u.amount.val < 2 ^ 64) ∧
          dep' = chain (shaField p P.sha) (amountInput cv) dep (depEntries sic us))) := by
  have hb := h.modBits_gt
  have hNZ : NeZero p := ⟨by have := h.p_pos; omega⟩
  induction us generalizing as dep w r with
  | nil =>
    cases as with
    | nil =>
      simp only [addLoop, ProofsShape, updsOf, UtxoChain, UpdChain, List.zip_nil_left, List.filter_nil,
        List.map_nil, List.length_nil, List.not_mem_nil, totalVal, List.sum_nil, Nat.cast_zero, add_zero,
        depEntries, ite_self, chain, List.foldl_nil]
      cases P.transferOnly <;> simp <;> tauto
    | cons => simp [addLoop, ProofsShape]
  | cons u us ih =>
    cases as with
    | nil => simp [addLoop, ProofsShape]
    | cons a as =>
      simp only [addLoop, ih, updsOf_cons, depositStep_iff h]
      unfold UtxoChain
      rw [UpdChain_append]
      have hsel : (txOk && !decide (u.pk = P.contract) && !u.isDummy) =
          (txOk && u.onLedger P.contract) := by
        unfold UTXO.onLedger
        by_cases hk : u.pk = P.contract <;> cases txOk <;> cases u.isDummy <;> simp [hk]
      have hw : w + select (decide (u.pk = P.contract) && !u.isDummy) u.amount 0 +
          ((totalVal (us.filter fun u => u.pk = P.contract) : Nat) : ZMod p) =
          w + ((totalVal ((u :: us).filter fun u => u.pk = P.contract) : Nat) : ZMod p) := by
        rw [List.filter_cons]
        by_cases hk : u.pk = P.contract
        · simp only [hk, decide_true, if_true, Bool.true_and, totalVal_cons]
          cases hd : u.isDummy
          · simp [select, add_assoc]
          · simp [select]
        · simp [hk, select]
      rw [hsel, hw, depEntries_cons, chain_append]
      constructor
      · rintro ⟨dep1, r1, h1, h2, ⟨h3, h3'⟩, h4, h5, h6⟩
        rw [condUpdate_iff _ (by show 31 ≤ _; omega)] at h2
        refine ⟨⟨by simp [h3], ?_⟩, ⟨r1, h2.2, h4⟩, h5, ?_⟩
        · intro e he
          rcases List.mem_cons.1 he with rfl | he
          · exact h2.1
          · exact h3' e he
        · rcases h1 with ⟨t, rfl⟩ | ⟨t, h1, rfl⟩
          · simp only [t, Bool.true_eq_false, false_and, or_false, true_and] at h6 ⊢
            exact h6
          · simp only [t, Bool.false_eq_true, false_and, false_or, true_and] at h6 ⊢
            refine ⟨?_, h6.2⟩
            intro v hv
            rcases List.mem_cons.1 hv with rfl | hv
            · exact h1
            · exact h6.1 v hv
      · rintro ⟨⟨h1, h2⟩, ⟨r1, h3, h4⟩, h5, h6⟩
        refine ⟨if P.transferOnly then dep else chain (shaField p P.sha) (amountInput cv) dep
          (if sic && !u.isDummy then [(u.pk, u.amount.val)] else []), r1, ?_, ?_,
          ⟨by simpa using h1, fun e he => h2 e (by simp [he])⟩, h4, h5, ?_⟩
        · rcases h6 with ⟨t, rfl⟩ | ⟨t, h6, rfl⟩
          · simp [t]
          · right; exact ⟨t, h6 u (by simp), by simp [t]⟩
        · rw [condUpdate_iff _ (by show 31 ≤ _; omega)]
          exact ⟨h2 a (by simp), h3⟩
        · rcases h6 with ⟨t, rfl⟩ | ⟨t, h6, rfl⟩
          · simp [t]
          · right; exact ⟨t, fun v hv => h6 v (by simp [hv]), by simp [t]⟩

theorem withdrawalStep_iff (h : Sizes p q) (P : Params p G) (cv : Curve p q G) (pk : G) (W : Nat)
    (hW : P.transferOnly = false → W < p) (acc acc' : ZMod p) :
    withdrawalStep P cv pk (W : ZMod p) acc acc' ↔
      (P.transferOnly = true ∧ acc' = acc) ∨
      (P.transferOnly = false ∧ W < 2 ^ 64 ∧
        acc' = chain (shaField p P.sha) (amountInput cv) acc (if W = 0 then [] else [(pk, W)])) := by
  have hp := h.p_pos
  unfold withdrawalStep
  cases ht : P.transferOnly with
  | true => simp
  | false =>
    have hW' := hW ht
    have hv : ((W : ZMod p)).val = W := by rw [ZMod.val_natCast, Nat.mod_eq_of_lt hW']
    have h0 : ((W : ZMod p) = 0) ↔ W = 0 := by
      constructor
      · intro hz
        have := congrArg ZMod.val hz
        rw [hv] at this; simpa using this
      · rintro rfl; simp
    simp only [Bool.false_eq_true, if_false, false_and, true_and, false_or, h0]
    have key : ∀ (hlt : W < 2 ^ 64), select (decide (W = 0)) acc
        (shaFieldVar p P.sha (fBytesVar acc ++ pkBytesVar cv pk ++ bytesOfBits (natBits 64 W))) =
        chain (shaField p P.sha) (amountInput cv) acc (if W = 0 then [] else [(pk, W)]) := by
      intro hlt
      rw [shaFieldVar_eq, fBytesVar_eq hp, pkBytesVar_eq hp, bytes64, Nat.mod_eq_of_lt hlt]
      by_cases hz : W = 0 <;> simp [hz, select, chain, amountInput]
    constructor
    · rintro ⟨bits, hb, rfl⟩
      obtain ⟨h1, rfl⟩ := (toNBits_iff h _ _).1 hb
      rw [hv] at h1
      exact ⟨h1, by rw [hv]; exact key h1⟩
    · rintro ⟨h1, rfl⟩
      refine ⟨natBits 64 W, (toNBits_iff h _ _).2 ⟨by rw [hv]; exact h1, by rw [hv]⟩, (key h1).symm⟩

/-- The signature gadget is satisfiable (always the case when `p ≤ q`). -/
def SigDefined (cv : Curve p q G) (hs : Hashes p) (root : ZMod p) (i : CInputs p G) : Prop :=
  ∃ out, Schnorr.isValidGadget 32 cv hs.crh i.senderPk (txEncVar cv i.tx ++ [root]) i.sigS i.sigE out

theorem sigDefined_of_le (h : Sizes p q) (hpq : p ≤ q) (cv : Curve p q G) (hs : Hashes p) (root : ZMod p)
    (i : CInputs p G) (hi : i.sigE.length = modBits q) : SigDefined cv hs root i :=
  (Props.C27_is_valid_gadget cv hs.crh 32 (by decide) (le_trans (by decide) h.large) h.pos h.bits
    h.modBits_lt _ _ _ _ hi).2 hpq

theorem isValid_iff (h : Sizes p q) (cv : Curve p q G) (hs : Hashes p) (root : ZMod p) (i : CInputs p G)
    (hi : i.sigE.length = modBits q) (out : Bool) :
    Schnorr.isValidGadget 32 cv hs.crh i.senderPk (txEncVar cv i.tx ++ [root]) i.sigS i.sigE out ↔
      SigDefined cv hs root i ∧ out = i.signed cv hs root := by
  have key := (Props.C27_is_valid_gadget cv hs.crh 32 (by decide) (le_trans (by decide) h.large) h.pos
    h.bits h.modBits_lt i.senderPk (txEncVar cv i.tx ++ [root]) i.sigS i.sigE hi).1
  have key' : ∀ o, Schnorr.isValidGadget 32 cv hs.crh i.senderPk (txEncVar cv i.tx ++ [root]) i.sigS
      i.sigE o → o = i.signed cv hs root := by
    intro o ho
    have := key o ho
    unfold CInputs.signed
    rw [Bool.eq_iff_iff, this, Bool.and_eq_true, decide_eq_true_eq]
  constructor
  · intro ho; exact ⟨⟨out, ho⟩, key' out ho⟩
  · rintro ⟨⟨o, ho⟩, rfl⟩
    rw [← key' o ho]; exact ho

/-- Everything one step says. -/
structure StepFacts (P : Params p G) (cv : Curve p q G) (z : CState p) (i : CInputs p G)
    (z' : CState p) : Prop where
  shape : Shape q i
  owned : OwnedBy i.senderPk i.tx.inputs.toList
  sums : ((totalVal i.tx.inputs.toList : Nat) : ZMod p) = (totalVal i.tx.outputs.toList : Nat)
  sig : SigDefined cv P.hs z.txRootFinal i
  utxo : UtxoChain cv P.hs (i.erases cv P.hs z.txRootFinal ++ i.inserts P cv z.txRootFinal)
    z.utxoRoot z'.utxoRoot
  tx : UpdChain P.hs.h2 (fun l => P.hs.crh (txEncVar cv l)) 12 (txUpds z.step [i]) z.txRoot z'.txRoot
  signer : UpdChain P.hs.h2 (fun l => P.hs.crh (pkEncVar cv l)) 12
    (signerUpds P cv z.txRootFinal z.step [i]) z.signerRoot z'.signerRoot
  signerAcc : z'.signerAcc = chain (shaField p P.sha) (signerInput cv) z.signerAcc
    (signerList P cv z.txRootFinal [i])
  books : (P.transferOnly = true ∧ z'.depositAcc = z.depositAcc ∧ z'.withdrawalAcc = z.withdrawalAcc) ∨
    (P.transferOnly = false ∧ (∀ u ∈ i.tx.outputs.toList, u.amount.val < 2 ^ 64) ∧
      i.withdrawn P < 2 ^ 64 ∧
      z'.depositAcc = chain (shaField p P.sha) (amountInput cv) z.depositAcc (depositList P [i]) ∧
      z'.withdrawalAcc = chain (shaField p P.sha) (amountInput cv) z.withdrawalAcc
        (withdrawalList P [i]))
  step : z'.step = z.step + 1
  final : z'.txRootFinal = z.txRootFinal

theorem erases_eq (cv : Curve p q G) (hs : Hashes p) (root : ZMod p) (i : CInputs p G) :
    i.erases cv hs root = updsOf i.tx.inputs.toList i.dels
      (fun u => i.signed cv hs root && !u.isDummy) id (fun _ => UTXO.dummy) := rfl

theorem inserts_eq (P : Params p G) (cv : Curve p q G) (root : ZMod p) (i : CInputs p G) :
    i.inserts P cv root = updsOf i.tx.outputs.toList i.adds
      (fun u => i.authorised P cv root && u.onLedger P.contract) (fun _ => UTXO.dummy) id := rfl

theorem withdrawn_lt (h : Sizes p q) (P : Params p G) (i : CInputs p G)
    (hu : ∀ u ∈ i.tx.outputs.toList, u.amount.val < 2 ^ 64) : i.withdrawn P < p := by
  have hl := h.large
  unfold CInputs.withdrawn
  by_cases hne : i.tx.outputs.toList.filter (fun u => u.pk = P.contract) = []
  · rw [hne]; simp [totalVal]; have := h.p_pos; omega
  · have := totalVal_lt (i.tx.outputs.toList.filter (fun u => u.pk = P.contract)) (2 ^ 64) (by decide) hne
      (fun u hu' => fun _ => hu u (List.mem_of_mem_filter hu'))
    refine lt_of_lt_of_le this ?_
    have hlen : (i.tx.outputs.toList.filter (fun u => u.pk = P.contract)).length ≤ 4 := by
      refine le_trans (List.length_filter_le _ _) ?_
      simp
    calc _ ≤ 4 * 2 ^ 64 := Nat.mul_le_mul_right _ hlen
      _ ≤ 2 ^ 67 := by decide
      _ ≤ p := hl

theorem stepOne_iff (h : Sizes p q) (P : Params p G) (cv : Curve p q G) (z : CState p) (i : CInputs p G)
    (z' : CState p) : stepOne P cv z i z' ↔ StepFacts P cv z i z' := by
  have hp := h.p_pos
  have hb := h.modBits_gt
  have hNZ : NeZero p := ⟨by omega⟩
  have hdep : depositList P [i] = depEntries (decide (i.senderPk = P.contract)) i.tx.outputs.toList := by
    simp [depositList, depEntries]
  have hwd : withdrawalList P [i] = if i.withdrawn P = 0 then [] else [(i.senderPk, i.withdrawn P)] := by
    simp [withdrawalList]
  have hsa : ∀ b : Bool, shaFieldVar p P.sha (fBytesVar z.signerAcc ++
      pkBytesVar cv (select b i.senderPk 0)) =
      chain (shaField p P.sha) (signerInput cv) z.signerAcc [if b then i.senderPk else 0] := by
    intro b
    rw [shaFieldVar_eq, fBytesVar_eq hp, pkBytesVar_eq hp]; rfl
  constructor
  · rintro ⟨l1, l2, hv, htx, sigOk, r1, w, hsig, hdel, hadd, hsg, hacc, hwa, hst, hfi⟩
    obtain ⟨hdef, rfl⟩ := (isValid_iff h cv P.hs z.txRootFinal i l2 sigOk).1 hsig
    rw [enforceValid_iff] at hv
    rw [delLoop_iff h] at hdel
    rw [addLoop_iff h] at hadd
    rw [condUpdate_iff _ (by show 12 ≤ _; omega)] at htx hsg
    obtain ⟨a1, a2, a3, a4⟩ := hadd
    rw [zero_add] at a3
    have hW : P.transferOnly = false → i.withdrawn P < p := by
      intro t
      rcases a4 with ⟨t', _⟩ | ⟨_, a4, _⟩
      · rw [t] at t'; cases t'
      · exact withdrawn_lt h P i a4
    rw [a3] at hwa
    have hwa' := (withdrawalStep_iff h P cv i.senderPk (i.withdrawn P) hW z.withdrawalAcc _).1 hwa
    refine ⟨⟨l1, l2, hdel.1, a1, htx.1, hsg.1⟩, hv.1, hv.2, hdef, ?_, htx.2, ?_, ?_, ?_, hst, hfi⟩
    · unfold UtxoChain; rw [UpdChain_append]; exact ⟨r1, hdel.2, a2⟩
    · simp only [signerUpds, List.append_nil]
      exact hsg.2
    · rw [hacc, hsa]; rfl
    · rcases a4 with ⟨t, a4⟩ | ⟨t, a4, a5⟩
      · left
        simp only [t, true_and, Bool.true_eq_false, false_and, or_false] at hwa'
        exact ⟨t, a4, hwa'⟩
      · right
        simp only [t, true_and, Bool.false_eq_true, false_and, false_or] at hwa'
        rw [hdep, hwd]
        exact ⟨t, a4, hwa'.1, a5, hwa'.2⟩
  · intro f
    obtain ⟨⟨l1, l2, d1, a1, t1, s1⟩, ow, su, sd, ut, tx, sg, sa, bk, st, fi⟩ := f
    unfold UtxoChain at ut
    rw [UpdChain_append] at ut
    obtain ⟨r1, ut1, ut2⟩ := ut
    refine ⟨l1, l2, ?_, ?_, i.signed cv P.hs z.txRootFinal, r1, (i.withdrawn P : Nat), ?_, ?_, ?_, ?_, ?_,
      ?_, st, fi⟩
    · rw [enforceValid_iff]; exact ⟨ow, su⟩
    · rw [condUpdate_iff _ (by show 12 ≤ _; omega)]; exact ⟨t1, tx⟩
    · rw [isValid_iff h cv P.hs z.txRootFinal i l2]; exact ⟨sd, rfl⟩
    · rw [delLoop_iff h]; exact ⟨d1, ut1⟩
    · rw [addLoop_iff h, zero_add]
      refine ⟨a1, ut2, rfl, ?_⟩
      rcases bk with ⟨t, b1, _⟩ | ⟨t, b0, _, b1, _⟩
      · exact Or.inl ⟨t, b1⟩
      · rw [hdep] at b1; exact Or.inr ⟨t, b0, b1⟩
    · rw [condUpdate_iff _ (by show 12 ≤ _; omega)]
      refine ⟨s1, ?_⟩
      simp only [signerUpds, List.append_nil] at sg
      exact sg
    · rw [hsa, sa]; rfl
    · rw [withdrawalStep_iff h P cv i.senderPk (i.withdrawn P)]
      · rcases bk with ⟨t, _, b1⟩ | ⟨t, _, b0, _, b1⟩
        · exact Or.inl ⟨t, b1⟩
        · rw [hwd] at b1; exact Or.inr ⟨t, b0, b1⟩
      · intro t
        rcases bk with ⟨t', _⟩ | ⟨_, b0, _⟩
        · rw [t] at t'; cases t'
        · exact withdrawn_lt h P i b0

end PF.AggC
