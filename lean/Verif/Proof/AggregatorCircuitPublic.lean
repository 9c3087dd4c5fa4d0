import Verif.Proof.AggregatorCircuitComplete
import Verif.Proof.AggregatorRun

/-!
# Tree contents after a run of the aggregator circuit
-/
set_option linter.unusedSectionVars false

namespace PF.Spec
variable {L D : Type}

/-- The content of a slot is the initial one if never touched, else the last one written. -/
theorem last_touch (us : List (Upd L D)) (c : Nat → L) (j : Nat) :
    (applied c us j = c j ∧ ∀ (m : Nat) (x : Upd L D), us[m]? = some x → x.idx ≠ j) ∨
    ∃ (k : Nat) (w : Upd L D), us[k]? = some w ∧ w.idx = j ∧ applied c us j = w.new ∧
      ∀ (m : Nat) (x : Upd L D), k < m → us[m]? = some x → x.idx ≠ j := by
  induction us using List.reverseRecOn with
  | nil => left; exact ⟨rfl, by simp⟩
  | append_singleton us u ih =>
    have hl : (us ++ [u])[us.length]? = some u := by simp
    have ha : applied c (us ++ [u]) = write (applied c us) u.idx u.new := by
      rw [applied_append]; rfl
    by_cases hj : u.idx = j
    · right
      refine ⟨us.length, u, hl, hj, by rw [ha, ← hj]; simp [write], ?_⟩
      intro m x hm hx
      rw [List.getElem?_eq_none (by simp; omega)] at hx; simp at hx
    · have ha' : applied c (us ++ [u]) j = applied c us j := by rw [ha]; simp [write, Ne.symm hj]
      have hlast : ∀ (m : Nat) (x : Upd L D), (us ++ [u])[m]? = some x → ¬ m < us.length → x.idx ≠ j := by
        intro m x hx hm
        have : m = us.length := by
          by_contra hne
          rw [List.getElem?_eq_none (by simp; omega)] at hx; simp at hx
        subst this; rw [hl] at hx; simp at hx; subst hx; exact hj
      rcases ih with ⟨h1, h2⟩ | ⟨k, w, h1, h2, h3, h4⟩
      · left
        refine ⟨by rw [ha', h1], fun m x hx => ?_⟩
        by_cases hm : m < us.length
        · rw [List.getElem?_append_left hm] at hx; exact h2 m x hx
        · exact hlast m x hx hm
      · right
        have hk : k < us.length := (List.getElem?_eq_some_iff.1 h1).1
        refine ⟨k, w, by rw [List.getElem?_append_left hk]; exact h1, h2, by rw [ha', h3], ?_⟩
        intro m x hkm hx
        by_cases hm : m < us.length
        · rw [List.getElem?_append_left hm] at hx; exact h4 m x hkm hx
        · exact hlast m x hx hm

end PF.Spec

namespace PF.AggC
open PF PF.Spec PF.MT PF.Circuit PF.Contract
variable {p q : Nat} {G : Type} [AddCommGroup G] [Module (ZMod q) G] [DecidableEq G]

theorem utxoEncVar_length (cv : Curve p q G) (u : UTXO (ZMod p) G) : (utxoEncVar cv u).length = 5 := rfl

theorem txEncVar_inj (cv : Curve p q G) (hp : 1 < p) {t t' : Tx (ZMod p) G}
    (h : txEncVar cv t = txEncVar cv t') : t = t' :=
  Tx.ext_ios (flatMap_inj (utxoEncVar cv) 5 (utxoEncVar_length cv) _ _ (by simp [Tx.ios])
    (fun _ _ _ _ e => utxoEncVar_inj cv hp e) h)

theorem pkEncVar_inj (cv : Curve p q G) (hp : 1 < p) {a b : G} (h : pkEncVar cv a = pkEncVar cv b) :
    a = b := by
  rw [pkEncVar_eq, pkEncVar_eq] at h; exact pkEnc_inj cv hp h

theorem val_add_one {s : ZMod p} (hp : 0 < p) (h : s.val + 1 < p) : (s + 1).val = s.val + 1 := by
  have hNZ : NeZero p := ⟨by omega⟩
  have : ((s.val + 1 : Nat) : ZMod p) = s + 1 := by push_cast; rw [ZMod.natCast_zmod_val]
  rw [← this, ZMod.val_natCast, Nat.mod_eq_of_lt h]

/-- Transaction tree after a run that stays within the capacity. -/
theorem tx_applied (hp : TX_CAP < p) (is : List (CInputs p G)) (s : ZMod p)
    (hs : s.val + is.length ≤ TX_CAP) (ct : Nat → Tx (ZMod p) G) :
    (∀ (k : Nat) (i : CInputs p G), is[k]? = some i →
      applied ct (txUpds s is) (s.val + k) = i.tx) ∧
    (∀ j, j < s.val ∨ s.val + is.length ≤ j → applied ct (txUpds s is) j = ct j) := by
  induction is generalizing s ct with
  | nil => exact ⟨by simp, fun _ _ => rfl⟩
  | cons i is ih =>
    simp only [List.length_cons] at hs
    have hv : s.val % TX_CAP = s.val := Nat.mod_eq_of_lt (by omega)
    have e : applied ct (txUpds s (i :: is)) = applied (write ct s.val i.tx) (txUpds (s + 1) is) := by
      simp only [txUpds, applied_cons, hv]
    rw [e]
    have hv1 := val_add_one (s := s) (by omega) (by omega)
    obtain ⟨h1, h2⟩ := ih (s + 1) (by rw [hv1]; omega) (write ct s.val i.tx)
    rw [hv1] at h1 h2
    constructor
    · intro k j hk
      cases k with
      | zero =>
        simp at hk; subst hk
        rw [Nat.add_zero, h2 s.val (Or.inl (by omega))]; simp [write]
      | succ k => rw [← h1 k j (by simpa using hk)]; congr 1; omega
    · intro j hj
      simp only [List.length_cons] at hj
      rw [h2 j (by omega)]
      have : j ≠ s.val := by omega
      simp [write, this]

/-- The positions of a legal run held the default transaction. -/
theorem tx_legal (hp : TX_CAP < p) (is : List (CInputs p G)) (s : ZMod p)
    (hs : s.val + is.length ≤ TX_CAP) (ct : Nat → Tx (ZMod p) G) (hl : Legal ct (txUpds s is)) :
    ∀ k < is.length, ct (s.val + k) = Tx.default := by
  induction is generalizing s ct with
  | nil => simp
  | cons i is ih =>
    simp only [List.length_cons] at hs
    have hv : s.val % TX_CAP = s.val := Nat.mod_eq_of_lt (by omega)
    have hv1 := val_add_one (s := s) (by omega) (by omega)
    simp only [txUpds, legal_cons, hv] at hl
    intro k hk
    cases k with
    | zero => exact hl.1
    | succ k =>
      have := ih (s + 1) (by rw [hv1]; omega) _ hl.2 k (by simpa using hk)
      rw [hv1] at this
      have hne : s.val + 1 + k ≠ s.val := by omega
      simp only [write, hne, if_false] at this
      rw [← this]; congr 1; omega

/-- Signer tree after a run that stays within the capacity. -/
theorem signer_applied (hp : TX_CAP < p) (P : Params p G) (cv : Curve p q G) (root : ZMod p)
    (is : List (CInputs p G)) (s : ZMod p) (hs : s.val + is.length ≤ TX_CAP) (cs : Nat → G) :
    (∀ (k : Nat) (i : CInputs p G), is[k]? = some i →
      applied cs (signerUpds P cv root s is) (s.val + k) =
        if i.authorised P cv root then i.senderPk else cs (s.val + k)) ∧
    (∀ j, j < s.val ∨ s.val + is.length ≤ j → applied cs (signerUpds P cv root s is) j = cs j) := by
  induction is generalizing s cs with
  | nil => exact ⟨by simp, fun _ _ => rfl⟩
  | cons i is ih =>
    simp only [List.length_cons] at hs
    have hv : s.val % TX_CAP = s.val := Nat.mod_eq_of_lt (by omega)
    have e : applied cs (signerUpds P cv root s (i :: is)) =
        applied (if i.authorised P cv root then write cs s.val i.senderPk else cs)
          (signerUpds P cv root (s + 1) is) := by
      rw [signerUpds, applied_append, hv]
      split <;> rfl
    rw [e]
    have hv1 := val_add_one (s := s) (by omega) (by omega)
    obtain ⟨h1, h2⟩ := ih (s + 1) (by rw [hv1]; omega)
      (if i.authorised P cv root then write cs s.val i.senderPk else cs)
    rw [hv1] at h1 h2
    have out : ∀ j, j ≠ s.val →
        (if i.authorised P cv root then write cs s.val i.senderPk else cs) j = cs j := by
      intro j hj; split <;> simp [write, hj]
    constructor
    · intro k j hk
      cases k with
      | zero =>
        simp at hk; subst hk
        rw [Nat.add_zero, h2 s.val (Or.inl (by omega))]
        split <;> simp [write]
      | succ k =>
        have := h1 k j (by simpa using hk)
        rw [out _ (by omega)] at this
        rw [show s.val + (k + 1) = s.val + 1 + k by omega]; exact this
    · intro j hj
      simp only [List.length_cons] at hj
      rw [h2 j (by omega), out j (by omega)]

/-- The signer positions of the authorised transactions of a legal run were empty. -/
theorem signer_legal (hp : TX_CAP < p) (P : Params p G) (cv : Curve p q G) (root : ZMod p)
    (is : List (CInputs p G)) (s : ZMod p) (hs : s.val + is.length ≤ TX_CAP) (cs : Nat → G)
    (hl : Legal cs (signerUpds P cv root s is)) (k : Nat) (i : CInputs p G) (hk : is[k]? = some i)
    (ha : i.authorised P cv root = true) : cs (s.val + k) = 0 := by
  induction is generalizing s cs k with
  | nil => simp at hk
  | cons i' is ih =>
    simp only [List.length_cons] at hs
    have hv : s.val % TX_CAP = s.val := Nat.mod_eq_of_lt (by omega)
    have hv1 := val_add_one (s := s) (by omega) (by omega)
    rw [signerUpds, hv, legal_append] at hl
    cases k with
    | zero =>
      simp at hk; subst hk
      rw [ha] at hl
      exact ((legal_cons _ _ _).1 hl.1).1
    | succ k =>
      have := ih (s + 1) (by rw [hv1]; omega) _ hl.2 k (by simpa using hk)
      rw [hv1] at this
      have hne : s.val + 1 + k ≠ s.val := by omega
      rw [show s.val + (k + 1) = s.val + 1 + k by omega, ← this]
      split
      · simp [applied, write, hne]
      · rfl

theorem txUpds_append (s : ZMod p) (is js : List (CInputs p G)) :
    txUpds s (is ++ js) = txUpds s is ++ txUpds (s + (is.length : ZMod p)) js := by
  induction is generalizing s with
  | nil => simp [txUpds]
  | cons i is ih =>
    simp only [List.cons_append, txUpds, ih, List.length_cons]
    rw [show s + 1 + (is.length : ZMod p) = s + ((is.length + 1 : Nat) : ZMod p) by push_cast; ring]

end PF.AggC
