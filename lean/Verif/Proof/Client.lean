import Verif.Spec.Client
import Verif.Proof.SparseMTGadget
import Verif.Proof.Circuit
import Verif.Proof.Data
import Verif.Proof.Accumulator

/-!
# What a satisfied client step says
-/

set_option linter.unusedSectionVars false

namespace PF.Client
open PF PF.Spec PF.MT PF.Circuit

variable {p q : Nat} {G : Type} [AddCommGroup G] [Module (ZMod q) G] [DecidableEq G]

theorem isLess_odd (h : FieldOk p) (l r : ZMod p) (out : Bool) :
    isLess l r out ↔ l.val ≤ (p - 1) / 2 ∧ r.val ≤ (p - 1) / 2 ∧ out = decide (l.val < r.val) := by
  have hp2 : 2 < p := lt_of_lt_of_le (by norm_num) h.large
  unfold isLess
  constructor
  · rintro ⟨h1, h2⟩
    rw [cmpBit_eq hp2 h.odd l r h1] at h2
    exact ⟨h1.1, h1.2, h2⟩
  · rintro ⟨h1, h2, h3⟩
    exact ⟨⟨h1, h2⟩, by rw [h3, cmpBit_eq hp2 h.odd l r ⟨h1, h2⟩]⟩

theorem enforceLe_odd (h : FieldOk p) (l r : ZMod p) :
    enforceLe l r ↔ l.val ≤ r.val ∧ r.val + 1 ≤ (p - 1) / 2 := by
  have hp2 : 2 < p := lt_of_lt_of_le (by norm_num) h.large
  have : NeZero p := ⟨by omega⟩
  have : Fact (1 < p) := ⟨by omega⟩
  unfold enforceLe
  have hval : r.val + 1 < p → (r + 1).val = r.val + 1 := by
    intro h'; rw [ZMod.val_add_of_lt] <;> rw [ZMod.val_one]
    exact h'
  have hlt := ZMod.val_lt r
  constructor
  · rintro ⟨h1, h2⟩
    rw [cmpBit_eq hp2 h.odd _ _ h1] at h2
    simp only [decide_eq_true_eq] at h2
    by_cases hr : r.val + 1 < p
    · rw [hval hr] at h2
      have := h1.2
      rw [hval hr] at this
      omega
    · have hr1 : r + 1 = 0 := by
        have e : ((r.val + 1 : Nat) : ZMod p) = r + 1 := by
          rw [Nat.cast_add, ZMod.natCast_zmod_val, Nat.cast_one]
        rw [← e, show r.val + 1 = p by omega, ZMod.natCast_self]
      rw [hr1, ZMod.val_zero] at h2; omega
  · rintro ⟨h1, h2⟩
    have hv := hval (by omega)
    have hc : cmpRange l (r + 1) := ⟨by omega, by rw [hv]; exact h2⟩
    refine ⟨hc, ?_⟩
    rw [cmpBit_eq hp2 h.odd _ _ hc, hv]
    simp only [decide_eq_true_eq]; omega

theorem FieldOk.bits (h : FieldOk p) : 12 ≤ modBits p := by
  have h1 : (2 : Nat) ^ 66 < p := lt_of_lt_of_le (by norm_num) h.large
  have := Nat.lt_size.2 h1.le
  unfold modBits; omega

theorem dummyHash_eq (cv : Curve p q G) (P : Params p) :
    dummyHash cv P = P.hs.crh (txEncVar cv (Tx.default : Tx (ZMod p) G)) := by
  unfold dummyHash txCRH
  congr 1
  have hu : utxoEnc cv (UTXO.dummy : UTXO Nat G) = utxoEncVar cv (UTXO.dummy : UTXO (ZMod p) G) := by
    simp [utxoEnc, utxoEncVar, UTXO.dummy, pkEncVar_eq]
  simp [txEnc, txEncVar, Tx.ios, Tx.default, List.flatMap_def, List.map_replicate, hu]

theorem debit_sum (k : G) (us : List (UTXO (ZMod p) G)) (b : ZMod p) :
    us.foldl (debit k) b = b - ((us.filter fun u => u.pk = k).map (·.amount)).sum := by
  induction us generalizing b with
  | nil => simp
  | cons u us ih =>
    rw [List.foldl_cons, ih]
    unfold debit boolF
    by_cases h : u.pk = k <;> simp [h, List.filter_cons]
    ring

theorem credit_sum (k : G) (us : List (UTXO (ZMod p) G)) (b : ZMod p) :
    us.foldl (credit k) b = b + ((us.filter fun u => u.pk = k).map (·.amount)).sum := by
  induction us generalizing b with
  | nil => simp
  | cons u us ih =>
    rw [List.foldl_cons, ih]
    unfold credit boolF
    by_cases h : u.pk = k <;> simp [h, List.filter_cons]
    ring

/-- State of the loop after a shown transaction. -/
def Loop.after (cv : Curve p q G) (hs : Hashes p) (k : G) (s : Loop p) (x : Shown p G) : Loop p where
  balance := s.balance + delta k x.tx
  nonce := s.nonce + if k = x.tx.getSigner then 1 else 0
  prevTxIndex := if x.counts cv hs then x.index else s.prevTxIndex

/-- What one iteration of the loop checks. -/
structure TxFacts (P : Params p) (cv : Curve p q G) (blk : BlockVar (ZMod p)) (prev : ZMod p)
    (x : Shown p G) : Prop where
  prevHalf : prev.val ≤ (p - 1) / 2
  indexHalf : x.index.val ≤ (p - 1) / 2
  txPath : x.txPath.length = 12
  signerPath : x.signerPath.length = 12
  lower : x.counts cv P.hs = true → prev.val < x.index.val
  included : x.counts cv P.hs = true →
    checkMembershipIdx (txTreeCfgVar cv P.hs) x.txPath blk.txRoot x.tx x.index
  signer : x.counts cv P.hs = true →
    checkMembership (signerTreeCfgVar cv P.hs) x.signerPath blk.signerRoot x.tx.getSigner

theorem txStep_iff (h : FieldOk p) (P : Params p) (cv : Curve p q G) (blk : BlockVar (ZMod p)) (k : G)
    (s : Loop p) (x : Shown p G) (s' : Loop p) :
    txStep P cv blk k s x.tx x.index x.txPath x.signerPath s' ↔
      TxFacts P cv blk s.prevTxIndex x ∧ s' = s.after cv P.hs k x := by
  have hreg : decide (txVarCRH cv P.hs.crh x.tx ≠ dummyHash cv P) = x.counts cv P.hs := by
    unfold Shown.counts txVarCRH
    rw [dummyHash_eq]
  unfold txStep
  simp only [hreg]
  have hs' : ({ nonce := s.nonce + boolF (decide (k = x.tx.getSigner))
                balance := x.tx.outputs.toList.foldl (credit k)
                  (x.tx.inputs.toList.foldl (debit k) s.balance)
                prevTxIndex := (1 - boolF (x.counts cv P.hs)) * s.prevTxIndex +
                  boolF (x.counts cv P.hs) * x.index } : Loop p) = s.after cv P.hs k x := by
    unfold Loop.after
    congr 1
    · rw [credit_sum, debit_sum]; unfold delta received spent; ring
    · unfold boolF; by_cases hh : k = x.tx.getSigner <;> simp [hh]
    · unfold boolF; cases x.counts cv P.hs <;> simp
  rw [hs']
  constructor
  · rintro ⟨⟨lo, h1, h2⟩, h3, h4, rfl⟩
    rw [isLess_odd h] at h1
    obtain ⟨a1, a2, a3⟩ := h1
    refine ⟨⟨a1, a2, h3.1, h4.1, ?_, ?_, ?_⟩, rfl⟩
    · intro hc
      have := h2 hc
      rw [this] at a3
      simpa using a3.symm
    · intro hc; rw [hc] at h3; exact h3
    · intro hc; rw [hc] at h4; exact h4
  · rintro ⟨f, rfl⟩
    refine ⟨⟨_, (isLess_odd h _ _ _).2 ⟨f.prevHalf, f.indexHalf, rfl⟩, ?_⟩, ?_, ?_, rfl⟩
    · intro hc; simpa using f.lower hc
    · cases hc : x.counts cv P.hs with
      | true => exact f.included hc
      | false =>
        refine ⟨f.txPath, memIdxLoop_off _ _ _ _ _ ?_⟩
        rw [f.txPath, toBitsLe_length]; exact h.bits
    · cases hc : x.counts cv P.hs with
      | true => exact f.signer hc
      | false =>
        refine ⟨f.signerPath, ?_, memLoop_off _ _ _ _⟩
        have hl := f.signerPath
        cases hx : x.signerPath with
        | nil => rw [hx] at hl; simp at hl
        | cons e rest =>
          obtain ⟨l, r⟩ := e
          exact ⟨l, r, rest, rfl, true, by simp [condEq]⟩

/-- Loop states before each shown transaction. -/
def loopAt (cv : Curve p q G) (hs : Hashes p) (k : G) (s : Loop p) (xs : List (Shown p G)) : Loop p :=
  xs.foldl (fun s x => s.after cv hs k x) s

/-- What the whole loop checks. -/
def LoopFacts (P : Params p) (cv : Curve p q G) (blk : BlockVar (ZMod p)) (k : G) :
    Loop p → List (Shown p G) → Prop
  | _, [] => True
  | s, x :: xs => TxFacts P cv blk s.prevTxIndex x ∧ LoopFacts P cv blk k (s.after cv P.hs k x) xs

theorem txLoop_iff (h : FieldOk p) (P : Params p) (cv : Curve p q G) (blk : BlockVar (ZMod p)) (k : G)
    (l : List (((Tx (ZMod p) G × ZMod p) × List (ZMod p × ZMod p)) × List (ZMod p × ZMod p)))
    (s s' : Loop p) :
    txLoop P cv blk k l s s' ↔
      LoopFacts P cv blk k s (l.map fun x => ⟨x.1.1.1, x.1.1.2, x.1.2, x.2⟩) ∧
        s' = loopAt cv P.hs k s (l.map fun x => ⟨x.1.1.1, x.1.1.2, x.1.2, x.2⟩) := by
  induction l generalizing s with
  | nil => simp [txLoop, LoopFacts, loopAt]
  | cons e l ih =>
    obtain ⟨⟨⟨t, i⟩, tp⟩, sp⟩ := e
    simp only [txLoop, List.map_cons, LoopFacts, loopAt, List.foldl_cons]
    constructor
    · rintro ⟨s1, h1, h2⟩
      have h1 := (txStep_iff h P cv blk k s ⟨t, i, tp, sp⟩ s1).1 h1
      obtain ⟨f, rfl⟩ := h1
      obtain ⟨f2, rfl⟩ := (ih _).1 h2
      exact ⟨⟨f, f2⟩, rfl⟩
    · rintro ⟨⟨f, f2⟩, rfl⟩
      exact ⟨_, (txStep_iff h P cv blk k s ⟨t, i, tp, sp⟩ _).2 ⟨f, rfl⟩, (ih _).2 ⟨f2, rfl⟩⟩

/-- Value of the last processed index a step starts with. -/
def startIndex (hs : Hashes p) (z : UState p) (a : UserAuxVar p G) : ZMod p :=
  if a.hash hs = z.prevBlockHash then z.prevTxIndex else 0

/-- Loop state a step starts with. -/
def loopStart (hs : Hashes p) (z : UState p) (a : UserAuxVar p G) : Loop p :=
  ⟨z.balance, z.nonce, startIndex hs z a⟩

/-- What a satisfied step says. -/
structure StepFacts (P : Params p) (cv : Curve p q G) (n : Nat) (z : UState p) (a : UserAuxVar p G) :
    Prop where
  txProofs : a.txProofs.length = n
  transactions : a.transactions.length = n
  signerProofs : a.signerProofs.length = n
  key : P.hs.crh (pkEncVar cv a.pk) = z.pkHash
  height : z.prevBlockNumber.val ≤ a.block.height.val
  heightHalf : a.block.height.val + 1 ≤ (p - 1) / 2
  loop : LoopFacts P cv a.block a.pk (loopStart P.hs z a) a.shown

/-- State after a satisfied step. -/
def UState.after (P : Params p) (cv : Curve p q G) (z : UState p) (a : UserAuxVar p G) : UState p where
  balance := (loopAt cv P.hs a.pk (loopStart P.hs z a) a.shown).balance
  nonce := (loopAt cv P.hs a.pk (loopStart P.hs z a) a.shown).nonce
  pkHash := z.pkHash
  acc := P.acc z.acc (a.hash P.hs)
  prevBlockHash := a.hash P.hs
  prevBlockNumber := a.block.height
  prevTxIndex := (loopAt cv P.hs a.pk (loopStart P.hs z a) a.shown).prevTxIndex

theorem step_iff (h : FieldOk p) (P : Params p) (cv : Curve p q G) (n : Nat) (z : UState p)
    (a : UserAuxVar p G) (z' : UState p) :
    updateBalance P cv n z a z' ↔ StepFacts P cv n z a ∧ z' = z.after P cv a := by
  unfold updateBalance
  have hst : (⟨z.balance, z.nonce, select (decide (blockVarCRH P.hs.crh a.block = z.prevBlockHash))
      z.prevTxIndex 0⟩ : Loop p) = loopStart P.hs z a := by
    unfold loopStart startIndex select UserAuxVar.hash blockVarCRH
    by_cases hh : P.hs.crh (blockEncVar a.block) = z.prevBlockHash <;> simp [hh]
  simp only [hst, txLoop_iff h, enforceLe_odd h]
  constructor
  · rintro ⟨h1, h2, h3, h4, ⟨h5, h6⟩, s', ⟨h7, rfl⟩, rfl⟩
    exact ⟨⟨h1, h2, h3, h4, h5, h6, h7⟩, rfl⟩
  · rintro ⟨f, rfl⟩
    exact ⟨f.txProofs, f.transactions, f.signerProofs, f.key, ⟨f.height, f.heightHalf⟩, _,
      ⟨f.loop, rfl⟩, rfl⟩

end PF.Client
