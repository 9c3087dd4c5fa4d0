import Verif.Proof.ProgramSize

/-!
# How often a program calls the expensive gadgets
-/
set_option linter.unusedSectionVars false

namespace PF.Prog
open PF PF.Circuit
variable {p q : Nat} {G α β γ σ τ : Type}

/-- The total weight of the calls recorded. -/
def weigh (w : Gadget → Nat) (l : List (Entry p G)) : Nat := (l.map fun e => w e.gadget).sum

theorem weigh_append (w : Gadget → Nat) (l l' : List (Entry p G)) : weigh w (l ++ l') = weigh w l + weigh w l' := by
  simp [weigh]

/-- Weights that count only hashes, scalar multiplications, point additions and conditional equality constraints. -/
def Heavy (w : Gadget → Nat) : Prop :=
  ∀ g, g ≠ .hash → g ≠ .twoToOne → g ≠ .sha → g ≠ .scalarMul → g ≠ .pointAdd → g ≠ .condEnforceEq → w g = 0

/-- Whenever the synthesis does not panic its calls weigh `k`. -/
def Costs (w : Gadget → Nat) (m : Tr p G α) (k : Nat) : Prop := ∀ n a o, m n = some (a, o) → weigh w o.log = k

variable {w : Gadget → Nat}

theorem costs_bind' {P : α → Prop} {m : Tr p G α} {k : α → Tr p G β} {i j : Nat} (hg : Gives P m) (hm : Costs w m i)
    (hk : ∀ a, P a → Costs w (k a) j) : Costs w (m >>= k) (i + j) := by
  intro n b o h
  obtain ⟨a, t, t', e1, e2, e3⟩ := runs_bind h
  rw [e3, weigh_append, hm n a t e1, hk a (hg n a t e1) _ _ _ e2]

theorem gives_any {m : Tr p G α} : Gives (fun _ => True) m := fun _ _ _ _ => trivial

theorem costs_bind {m : Tr p G α} {k : α → Tr p G β} {i j : Nat} (hm : Costs w m i)
    (hk : ∀ a, Costs w (k a) j) : Costs w (m >>= k) (i + j) := costs_bind' gives_any hm fun a _ => hk a

theorem costs_skip' {P : α → Prop} {m : Tr p G α} {k : α → Tr p G β} {j : Nat} (hg : Gives P m) (hm : Costs w m 0)
    (hk : ∀ a, P a → Costs w (k a) j) : Costs w (m >>= k) j := by
  have := costs_bind' hg hm hk
  rwa [Nat.zero_add] at this

theorem costs_skip {m : Tr p G α} {k : α → Tr p G β} {j : Nat} (hm : Costs w m 0)
    (hk : ∀ a, Costs w (k a) j) : Costs w (m >>= k) j := costs_skip' gives_any hm fun a _ => hk a

theorem costs_pure {a : α} : Costs w (pure a : Tr p G α) 0 := by
  intro n b o e
  cases e
  rfl

theorem costs_panic {k : Nat} : Costs w (panic : Tr p G α) k := by
  intro n b o e
  cases e

theorem costs_assert {b : Bool} : Costs w (assert b : Tr p G Unit) 0 := by
  intro n a o e
  cases b
  · cases e
  · cases e
    rfl

theorem gives_assert {b : Bool} : Gives (fun _ => b = true) (assert b : Tr p G Unit) := by
  intro n a o e
  cases b
  · cases e
  · rfl

theorem costs_call {k : Wire α → Arg p G} {g : Gadget} {args : List (Arg p G)} {v : α} : Costs w (call k g args v) (w g) := by
  intro n b o e
  cases e
  simp [weigh]

theorem costs_callN {k : Wire α → Arg p G} {g : Gadget} {args : List (Arg p G)} {v : List α} : Costs w (callN k g args v) (w g) := by
  intro n b o e
  cases e
  simp [weigh]

theorem costs_constrain {g : Gadget} {args : List (Arg p G)} {b : Bool} : Costs w (constrain g args b) (w g) := by
  intro n _ o e
  cases e
  simp [weigh]

theorem Costs.of {m : Tr p G α} {i j : Nat} (h : Costs w m i) (e : i = j) : Costs w m j := e ▸ h

theorem costs_each {f : α → Tr p G β} {k : Nat} (l : List α) (h : ∀ a ∈ l, Costs w (f a) k) : Costs w (each f l) (l.length * k) := by
  induction l with
  | nil => exact costs_pure.of (by simp)
  | cons a l ih =>
    refine (costs_bind (h a (by simp)) fun _ => costs_bind (ih fun a ha => h a (by simp [ha])) fun _ => costs_pure).of ?_
    rw [List.length_cons, Nat.succ_mul]; omega

theorem gives_callN {k : Wire α → Arg p G} {g : Gadget} {args : List (Arg p G)} {v : List α} :
    Gives (fun l => l.length = v.length) (callN k g args v) := by
  intro n b o e
  cases e
  simpa using congrArg List.length (wiresFrom_kinds v v n n rfl) |>.trans (by
    clear args g k
    induction v generalizing n with
    | nil => rfl
    | cons a v ih => simpa [wiresFrom] using ih (n + 1))

theorem gives_each {P : β → Prop} {f : α → Tr p G β} (l : List α) (h : ∀ a ∈ l, Gives P (f a)) :
    Gives (fun bs => bs.length = l.length ∧ ∀ b ∈ bs, P b) (each f l) := by
  induction l with
  | nil => exact gives_pure ⟨rfl, by simp⟩
  | cons a l ih =>
    refine gives_bind (h a (by simp)) fun b hb => gives_bind (ih fun a ha => h a (by simp [ha])) fun bs hbs => gives_pure ?_
    refine ⟨by simp [hbs.1], ?_⟩
    intro x hx
    rcases List.mem_cons.1 hx with rfl | hx
    · exact hb
    · exact hbs.2 x hx

section
variable (hw : Heavy w)
include hw

theorem cheap {g : Gadget} (h : g ≠ .hash ∧ g ≠ .twoToOne ∧ g ≠ .sha ∧ g ≠ .scalarMul ∧ g ≠ .pointAdd ∧ g ≠ .condEnforceEq) :
    w g = 0 := hw g h.1 h.2.1 h.2.2.1 h.2.2.2.1 h.2.2.2.2.1 h.2.2.2.2.2

theorem cheap_call {k : Wire α → Arg p G} {g : Gadget} {args : List (Arg p G)} {v : α}
    (h : g ≠ .hash ∧ g ≠ .twoToOne ∧ g ≠ .sha ∧ g ≠ .scalarMul ∧ g ≠ .pointAdd ∧ g ≠ .condEnforceEq := by decide) :
    Costs w (call k g args v) 0 := costs_call.of (cheap hw h)
theorem cheap_callN {k : Wire α → Arg p G} {g : Gadget} {args : List (Arg p G)} {v : List α}
    (h : g ≠ .hash ∧ g ≠ .twoToOne ∧ g ≠ .sha ∧ g ≠ .scalarMul ∧ g ≠ .pointAdd ∧ g ≠ .condEnforceEq := by decide) :
    Costs w (callN k g args v) 0 := costs_callN.of (cheap hw h)
theorem cheap_constrain {g : Gadget} {args : List (Arg p G)} {b : Bool}
    (h : g ≠ .hash ∧ g ≠ .twoToOne ∧ g ≠ .sha ∧ g ≠ .scalarMul ∧ g ≠ .pointAdd ∧ g ≠ .condEnforceEq := by decide) :
    Costs w (constrain g args b) 0 := costs_constrain.of (cheap hw h)

theorem cheap_each {f : α → Tr p G β} (l : List α) (h : ∀ a, Costs w (f a) 0) : Costs w (each f l) 0 :=
  (costs_each l fun a _ => h a).of (by simp)

theorem costs_shaField {sha : Sha} {l : List (Wire Byte)} : Costs w (shaField sha l : Tr p G _) (w .sha) :=
  (costs_bind costs_callN fun _ => cheap_call hw).of (by simp)

theorem costs_toNBits {x : Wire (ZMod p)} {n : Nat} : Costs w (toNBits x n : Tr p G _) 0 :=
  costs_skip (cheap_callN hw) fun _ => costs_skip (cheap_constrain hw) fun _ => costs_pure

theorem costs_ltLoop (bs : List (Wire Bool)) (ds : List (Wire (ZMod p))) (c r : Wire (ZMod p)) :
    Costs w (ltLoop bs ds c r : Tr p G _) 0 := by
  induction bs generalizing ds c r with
  | nil => cases ds <;> exact costs_pure
  | cons b bs ih =>
    cases ds with
    | nil => exact costs_pure
    | cons d ds =>
      exact costs_skip (cheap_call hw) fun _ => costs_skip (cheap_call hw) fun _ => costs_skip (cheap_call hw) fun _ =>
        costs_skip (cheap_constrain hw) fun _ => costs_skip (cheap_call hw) fun _ => costs_skip (cheap_call hw) fun _ => ih _ _ _

theorem costs_enforceLt (W : Nat) (x y : List (Wire Bool)) : Costs w (enforceLt W x y : Tr p G _) 0 := by
  refine costs_skip (cheap_each hw _ fun _ => cheap_call hw) fun _ => costs_skip (cheap_each hw _ fun _ => cheap_call hw) fun _ =>
    costs_skip (cheap_each hw _ fun _ => cheap_call hw) fun _ => costs_skip (cheap_callN hw) fun _ =>
    costs_skip (costs_ltLoop hw _ _ _ _) fun cr => ?_
  obtain ⟨c, r⟩ := cr
  exact costs_skip (cheap_call hw) fun _ => costs_skip (cheap_callN hw) fun _ => costs_skip (cheap_call hw) fun _ =>
    costs_skip (cheap_constrain hw) fun _ => cheap_constrain hw

section
variable [AddCommGroup G] [Module (ZMod q) G]

theorem costs_isValid (W : Nat) (cv : Curve p q G) (H : List (ZMod p) → ZMod p) (pk : Wire G) (m : List (Wire (ZMod p)))
    (s e : List (Wire Bool)) : Costs w (isValid W cv H pk m s e) (2 * w .scalarMul + w .pointAdd + w .hash) := by
  refine (costs_bind costs_call fun _ => costs_bind costs_call fun _ => costs_bind costs_call fun _ =>
    costs_skip (cheap_callN hw) fun _ => costs_bind costs_call fun _ => costs_skip (cheap_callN hw) fun hb =>
    costs_skip (j := 0) (costs_enforceLt hw _ _ _) fun _ => ?_).of (by omega)
  split
  · exact costs_skip (cheap_call hw) fun _ => costs_skip (cheap_call hw) fun _ => costs_skip (cheap_call hw) fun _ =>
      costs_skip (cheap_call hw) fun _ => cheap_call hw
  · exact costs_panic

theorem costs_utxoHash (cv : Curve p q G) (H : List (ZMod p) → ZMod p) (u : UtxoW p G) : Costs w (utxoHash cv H u) (w .hash) :=
  costs_skip (costs_skip (cheap_call hw) fun _ => costs_skip (cheap_callN hw) fun _ => costs_pure) fun _ => costs_call

theorem costs_txFields (cv : Curve p q G) (t : TxW p G) : Costs w (txFields cv t) 0 :=
  costs_skip (cheap_each hw _ fun _ => costs_skip (cheap_call hw) fun _ => costs_skip (cheap_callN hw) fun _ => costs_pure)
    fun _ => costs_pure

theorem costs_txHash (cv : Curve p q G) (H : List (ZMod p) → ZMod p) (u : TxW p G) : Costs w (txHash cv H u) (w .hash) :=
  costs_skip (costs_txFields hw cv u) fun _ => costs_call

theorem costs_pkHash (cv : Curve p q G) (H : List (ZMod p) → ZMod p) (u : Wire G) : Costs w (pkHash cv H u) (w .hash) :=
  costs_skip (cheap_callN hw) fun _ => costs_call

theorem costs_updateLoop (h2 : ZMod p → ZMod p → ZMod p) (l : List (Wire (ZMod p))) (bs : List (Wire Bool))
    (o n : Wire (ZMod p)) (hl : l.length ≤ bs.length) :
    Costs w (updateLoop h2 l bs o n : Tr p G _) (l.length * (2 * w .twoToOne)) := by
  induction l generalizing bs o n with
  | nil => cases bs <;> exact costs_pure.of (by simp)
  | cons a l ih =>
    cases bs with
    | nil => simp at hl
    | cons b bs =>
      refine (costs_skip (cheap_call hw) fun _ => costs_skip (cheap_call hw) fun _ => costs_skip (cheap_call hw) fun _ =>
        costs_skip (cheap_call hw) fun _ => costs_skip (cheap_call hw) fun _ => costs_skip (cheap_call hw) fun _ =>
        costs_bind costs_call fun _ => costs_bind costs_call fun _ => ih _ _ _ (by simpa using hl)).of ?_
      rw [List.length_cons, Nat.add_one_mul l.length]; omega

theorem costs_updateRoot {L : Type} {leafHash : L → Tr p G (Wire (ZMod p))} {k : Nat} (hh : ∀ a, Costs w (leafHash a) k)
    (h2 : ZMod p → ZMod p → ZMod p) (height : Nat) (hp : height - 1 ≤ modBits p) (l : List (Wire (ZMod p))) (o n : L)
    (i : Wire (ZMod p)) :
    Costs w (updateRoot leafHash h2 height l o n i) (2 * k + (height - 1) * (2 * w .twoToOne)) := by
  have e : 2 * k + (height - 1) * (2 * w .twoToOne) = k + (k + (height - 1) * (2 * w .twoToOne)) := by omega
  rw [e]
  refine costs_skip' gives_assert costs_assert fun _ hl => costs_bind (hh _) fun _ => costs_bind (hh _) fun _ =>
    costs_skip' gives_callN (cheap_callN hw) fun bs hbs => ?_
  have hl : l.length = height - 1 := of_decide_eq_true hl
  rw [← hl]
  refine costs_updateLoop hw _ _ _ _ _ ?_
  rw [hbs, hl, toBitsLe, natBits_length]
  exact hp

theorem costs_condUpdate {L : Type} {leafHash : L → Tr p G (Wire (ZMod p))} {k : Nat} (hh : ∀ a, Costs w (leafHash a) k)
    (h2 : ZMod p → ZMod p → ZMod p) (height : Nat) (hp : height - 1 ≤ modBits p) (on : Wire Bool) (i : Wire (ZMod p))
    (l : List (Wire (ZMod p))) (o n : L) (r : Wire (ZMod p)) :
    Costs w (condUpdate leafHash h2 height on i l o n r)
      (2 * k + (height - 1) * (2 * w .twoToOne) + w .condEnforceEq) :=
  (costs_bind (costs_updateRoot hw hh h2 height hp l o n i) fun _ => costs_bind costs_constrain fun _ => cheap_call hw).of
    (by omega)

theorem costs_memLoop (h2 : ZMod p → ZMod p → ZMod p) (on : Wire Bool) (l : List (Wire (ZMod p) × Wire (ZMod p)))
    (o : Wire (ZMod p)) : Costs w (memLoop h2 on l o : Tr p G _) (l.length * (w .condEnforceEq + w .twoToOne)) := by
  induction l generalizing o with
  | nil => exact costs_pure.of (by simp)
  | cons a l ih =>
    refine (costs_skip (cheap_call hw) fun _ => costs_skip (cheap_call hw) fun _ => costs_bind costs_constrain fun _ =>
      costs_bind costs_call fun _ => ih _).of ?_
    rw [List.length_cons, Nat.add_one_mul l.length]; omega

theorem costs_memIdxLoop (h2 : ZMod p → ZMod p → ZMod p) (on : Wire Bool) (l : List (Wire (ZMod p) × Wire (ZMod p)))
    (bs : List (Wire Bool)) (o : Wire (ZMod p)) :
    Costs w (memIdxLoop h2 on l bs o : Tr p G _) (l.length * (w .condEnforceEq + w .twoToOne)) := by
  induction l generalizing bs o with
  | nil => exact costs_pure.of (by simp)
  | cons a l ih =>
    cases bs with
    | nil => exact costs_panic
    | cons b bs =>
      refine (costs_skip (cheap_call hw) fun _ => costs_skip (cheap_call hw) fun _ => costs_bind costs_constrain fun _ =>
        costs_bind costs_call fun _ => ih _ _).of ?_
      rw [List.length_cons, Nat.add_one_mul l.length]; omega

theorem costs_checkMembership {L : Type} {leafHash : L → Tr p G (Wire (ZMod p))} {k : Nat} (hh : ∀ a, Costs w (leafHash a) k)
    (h2 : ZMod p → ZMod p → ZMod p) (height : Nat) (l : List (Wire (ZMod p) × Wire (ZMod p))) (r : Wire (ZMod p)) (o : L)
    (on : Wire Bool) :
    Costs w (checkMembership leafHash h2 height l r o on)
      (k + (height - 1) * (w .condEnforceEq + w .twoToOne) + 2 * w .condEnforceEq) := by
  have e : k + (height - 1) * (w .condEnforceEq + w .twoToOne) + 2 * w .condEnforceEq =
    k + (w .condEnforceEq + ((height - 1) * (w .condEnforceEq + w .twoToOne) + w .condEnforceEq)) := by omega
  rw [e]
  refine costs_skip' gives_assert costs_assert fun _ hl => costs_bind (hh _) fun lh => ?_
  have hl : l.length = height - 1 := of_decide_eq_true hl
  rw [← hl]
  cases l with
  | nil => exact costs_panic
  | cons a l =>
    exact costs_skip (cheap_call hw) fun _ => costs_skip (cheap_call hw) fun _ => costs_bind costs_constrain fun _ =>
      costs_bind (costs_memLoop hw _ _ _ _) fun _ => costs_constrain

theorem costs_checkMembershipIdx {L : Type} {leafHash : L → Tr p G (Wire (ZMod p))} {k : Nat} (hh : ∀ a, Costs w (leafHash a) k)
    (h2 : ZMod p → ZMod p → ZMod p) (height : Nat) (l : List (Wire (ZMod p) × Wire (ZMod p))) (r : Wire (ZMod p)) (o : L)
    (i : Wire (ZMod p)) (on : Wire Bool) :
    Costs w (checkMembershipIdx leafHash h2 height l r o i on)
      (k + (height - 1) * (w .condEnforceEq + w .twoToOne) + w .condEnforceEq) := by
  have e : k + (height - 1) * (w .condEnforceEq + w .twoToOne) + w .condEnforceEq =
    k + ((height - 1) * (w .condEnforceEq + w .twoToOne) + w .condEnforceEq) := by omega
  rw [e]
  refine costs_skip' gives_assert costs_assert fun _ hl => costs_bind (hh _) fun lh => ?_
  have hl : l.length = height - 1 := of_decide_eq_true hl
  rw [← hl]
  exact costs_skip (cheap_callN hw) fun _ => costs_bind (costs_memIdxLoop hw _ _ _ _ _) fun _ => costs_constrain

variable [DecidableEq G]

/-! ## Aggregator -/

theorem costs_ownerLoop (s : Wire G) (l : List (UtxoW p G)) : Costs w (ownerLoop s l) (l.length * w .condEnforceEq) := by
  induction l with
  | nil => exact costs_pure.of (by simp)
  | cons a l ih =>
    refine (costs_skip (cheap_call hw) fun _ => costs_bind costs_constrain fun _ => ih).of ?_
    rw [List.length_cons, Nat.add_one_mul l.length]; omega

theorem costs_sumLoop {op : Wire (ZMod p) → Wire (ZMod p) → Tr p G (Wire (ZMod p))} (hop : ∀ x y, Costs w (op x y) 0)
    (l : List (UtxoW p G)) (s : Wire (ZMod p)) : Costs w (sumLoop op l s) 0 := by
  induction l generalizing s with
  | nil => exact costs_pure
  | cons a l ih => exact costs_skip (cheap_call hw) fun _ => costs_skip (hop _ _) fun _ => ih _

theorem costs_enforceValid (t : TxW p G) (s : Wire G) (ht : t.inputs.length = TX_IO_SIZE) :
    Costs w (enforceValid t s) (TX_IO_SIZE * w .condEnforceEq) :=
  (costs_bind (costs_ownerLoop hw s t.inputs) fun _ => costs_skip (costs_sumLoop hw (fun _ _ => cheap_call hw) _ _) fun _ =>
    costs_skip (costs_sumLoop hw (fun _ _ => cheap_call hw) _ _) fun _ => cheap_constrain hw).of (by rw [ht, Nat.add_zero])

/-- The weight of the update of one leaf of the UTXO tree. -/
def leafBill (w : Gadget → Nat) : Nat := 2 * w .hash + (UTXO_TREE_HEIGHT - 1) * (2 * w .twoToOne) + w .condEnforceEq

theorem costs_delLoop (hp : UTXO_TREE_HEIGHT - 1 ≤ modBits p) (cv : Curve p q G) (hs : Hashes p) (on : Wire Bool)
    (us : List (UtxoW p G)) (ds : List (Wire (ZMod p) × List (Wire (ZMod p)))) (r : Wire (ZMod p)) :
    Costs w (delLoop cv hs on us ds r) (us.length * leafBill w) := by
  induction us generalizing ds r with
  | nil => cases ds <;> first | exact costs_pure.of (by simp) | exact costs_panic
  | cons u us ih =>
    cases ds with
    | nil => exact costs_panic
    | cons d ds =>
      refine (costs_skip (cheap_call hw) fun _ => costs_skip (cheap_call hw) fun _ =>
        costs_bind (costs_condUpdate hw (costs_utxoHash hw cv _) _ _ hp _ _ _ _ _ _) fun _ => ih _ _).of ?_
      rw [List.length_cons, Nat.add_one_mul us.length, Nat.add_comm, leafBill, Nat.two_mul (w .hash)]

/-- The weight of an accumulator update that the transfer-only mode omits. -/
def shaBill (P : AggC.Params p G) (w : Gadget → Nat) : Nat := if P.transferOnly then 0 else w .sha

theorem costs_depositStep (P : AggC.Params p G) (cv : Curve p q G) (on : Wire Bool) (u : UtxoW p G) (d : Wire (ZMod p)) :
    Costs w (depositStep P cv on u d) (shaBill P w) := by
  unfold depositStep shaBill
  by_cases ht : P.transferOnly
  · rw [if_pos ht, if_pos ht]; exact costs_pure
  · rw [if_neg ht, if_neg ht]
    exact costs_skip (cheap_callN hw) fun _ => costs_skip (cheap_callN hw) fun _ => costs_skip (costs_toNBits hw) fun _ =>
      costs_skip (cheap_callN hw) fun _ => costs_skip (cheap_call hw) fun _ => costs_skip (cheap_call hw) fun _ =>
      (costs_bind (costs_shaField hw) fun _ => cheap_call hw).of (by simp)

theorem costs_withdrawalStep (P : AggC.Params p G) (cv : Curve p q G) (k : Wire G) (x d : Wire (ZMod p)) :
    Costs w (withdrawalStep P cv k x d) (shaBill P w) := by
  unfold withdrawalStep shaBill
  by_cases ht : P.transferOnly
  · rw [if_pos ht, if_pos ht]; exact costs_pure
  · rw [if_neg ht, if_neg ht]
    exact costs_skip (cheap_callN hw) fun _ => costs_skip (cheap_callN hw) fun _ => costs_skip (costs_toNBits hw) fun _ =>
      costs_skip (cheap_callN hw) fun _ => costs_skip (cheap_call hw) fun _ =>
      (costs_bind (costs_shaField hw) fun _ => cheap_call hw).of (by simp)

theorem costs_addLoop (hp : UTXO_TREE_HEIGHT - 1 ≤ modBits p) (P : AggC.Params p G) (cv : Curve p q G) (on ok : Wire Bool)
    (us : List (UtxoW p G)) (ds : List (Wire (ZMod p) × List (Wire (ZMod p)))) (d x r : Wire (ZMod p)) :
    Costs w (addLoop P cv on ok us ds d x r) (us.length * (shaBill P w + leafBill w)) := by
  induction us generalizing ds d x r with
  | nil => cases ds <;> first | exact costs_pure.of (by simp) | exact costs_panic
  | cons u us ih =>
    cases ds with
    | nil => exact costs_panic
    | cons a ds =>
      refine (costs_skip (cheap_call hw) fun _ => costs_bind (costs_depositStep hw P cv _ _ _) fun _ =>
        costs_skip (cheap_call hw) fun _ => costs_skip (cheap_call hw) fun _ => costs_skip (cheap_call hw) fun _ =>
        costs_skip (cheap_call hw) fun _ => costs_skip (cheap_call hw) fun _ => costs_skip (cheap_call hw) fun _ =>
        costs_skip (cheap_call hw) fun _ => costs_skip (cheap_call hw) fun _ =>
        costs_bind (costs_condUpdate hw (costs_utxoHash hw cv _) _ _ hp _ _ _ _ _ _) fun _ => ih _ _ _ _).of ?_
      rw [List.length_cons, Nat.add_one_mul us.length, leafBill]; omega

/-- The weight of one transaction of the aggregator. -/
def txBill (P : AggC.Params p G) (w : Gadget → Nat) : Nat :=
  21 * w .hash + 544 * w .twoToOne + 2 * w .scalarMul + w .pointAdd + 13 * w .condEnforceEq + w .sha + 5 * shaBill P w

theorem costs_stepOne (hp : UTXO_TREE_HEIGHT - 1 ≤ modBits p) (P : AggC.Params p G) (cv : Curve p q G) (z : StateW p)
    (i : InputsW p G) (hi : i.tx.inputs.length = TX_IO_SIZE) (ho : i.tx.outputs.length = TX_IO_SIZE) :
    Costs w (stepOne P cv z i) (txBill P w) := by
  refine (costs_skip costs_assert fun _ => costs_bind (costs_enforceValid hw _ _ hi) fun _ =>
    costs_bind (costs_updateRoot hw (costs_txHash hw cv _) _ _ (le_trans (by decide) hp) _ _ _ _) fun u => costs_skip (cheap_constrain hw) fun _ =>
    costs_skip (costs_txFields hw cv _) fun m => costs_bind (costs_isValid hw _ cv _ _ _ _ _) fun _ =>
    costs_skip (cheap_call hw) fun _ => costs_skip (cheap_call hw) fun _ =>
    costs_bind (costs_delLoop hw hp cv _ _ _ _ _) fun _ => costs_bind (costs_addLoop hw hp P cv _ _ _ _ _ _ _) fun x =>
    costs_bind (costs_updateRoot hw (costs_pkHash hw cv _) _ _ (le_trans (by decide) hp) _ _ _ _) fun s => costs_bind costs_constrain fun _ =>
    costs_skip (cheap_call hw) fun _ => costs_skip (cheap_callN hw) fun _ => costs_skip (cheap_call hw) fun _ =>
    costs_skip (cheap_callN hw) fun _ => costs_bind (costs_shaField hw) fun _ => costs_bind (costs_withdrawalStep hw P cv _ _ _) fun _ =>
    costs_skip (cheap_call hw) fun _ => costs_pure).of ?_
  rw [hi, ho]
  simp only [txBill, leafBill, TX_IO_SIZE, UTXO_TREE_HEIGHT, TX_TREE_HEIGHT, SIGNER_TREE_HEIGHT]
  omega

omit hw in
theorem gives_allocTx (t : Tx (ZMod p) G) :
    Gives (fun t : TxW p G => t.inputs.length = TX_IO_SIZE ∧ t.outputs.length = TX_IO_SIZE) (allocTx t) :=
  gives_bind (gives_each (P := fun _ => True) _ fun _ _ => gives_any) fun _ h1 =>
    gives_bind (gives_each (P := fun _ => True) _ fun _ _ => gives_any) fun _ h2 =>
      gives_pure ⟨by rw [h1.1, Vector.length_toList], by rw [h2.1, Vector.length_toList]⟩

theorem costs_allocTx (t : Tx (ZMod p) G) : Costs w (allocTx t) 0 := by
  have h : ∀ u : UTXO (ZMod p) G, Costs w (allocUtxo u) 0 := fun u => costs_skip (cheap_call hw) fun _ =>
    costs_skip (cheap_call hw) fun _ => costs_skip (cheap_call hw) fun _ => costs_pure
  exact costs_skip (cheap_each hw _ h) fun _ => costs_skip (cheap_each hw _ h) fun _ => costs_pure

omit hw in
theorem gives_allocInputs (i : AggC.CInputs p G) :
    Gives (fun i : InputsW p G => i.tx.inputs.length = TX_IO_SIZE ∧ i.tx.outputs.length = TX_IO_SIZE) (allocInputs i) :=
  gives_bind (gives_allocTx _) fun _ h => gives_skip fun _ => gives_skip fun _ => gives_skip fun _ => gives_skip fun _ =>
    gives_skip fun _ => gives_skip fun _ => gives_skip fun _ => gives_skip fun _ => gives_skip fun _ => gives_pure h

theorem costs_allocInputs (i : AggC.CInputs p G) : Costs w (allocInputs i) 0 :=
  costs_skip (costs_allocTx hw _) fun _ => costs_skip (cheap_callN hw) fun _ => costs_skip (cheap_each hw _ fun _ => cheap_callN hw) fun _ =>
    costs_skip (cheap_each hw _ fun _ => cheap_call hw) fun _ => costs_skip (cheap_each hw _ fun _ => cheap_callN hw) fun _ =>
    costs_skip (cheap_each hw _ fun _ => cheap_call hw) fun _ => costs_skip (cheap_callN hw) fun _ => costs_skip (cheap_call hw) fun _ =>
    costs_skip (cheap_callN hw) fun _ => costs_skip (cheap_callN hw) fun _ => costs_pure

theorem costs_stepBatch (hp : UTXO_TREE_HEIGHT - 1 ≤ modBits p) (P : AggC.Params p G) (cv : Curve p q G) (z : StateW p)
    (is : List (InputsW p G)) (hi : ∀ i ∈ is, i.tx.inputs.length = TX_IO_SIZE ∧ i.tx.outputs.length = TX_IO_SIZE) :
    Costs w (stepBatch P cv z is) (is.length * txBill P w) := by
  induction is generalizing z with
  | nil => exact costs_pure.of (by simp)
  | cons i is ih =>
    refine (costs_bind (costs_stepOne hw hp P cv z i (hi i (by simp)).1 (hi i (by simp)).2) fun _ =>
      ih _ fun i h => hi i (by simp [h])).of ?_
    rw [List.length_cons, Nat.add_one_mul is.length, Nat.add_comm]

theorem costs_aggregatorStep (hp : UTXO_TREE_HEIGHT - 1 ≤ modBits p) (P : AggC.Params p G) (cv : Curve p q G) (z : AggC.CState p)
    (is : List (AggC.CInputs p G)) : Costs w (aggregatorStep P cv z is) (is.length * txBill P w) := by
  refine costs_skip ?_ fun _ => costs_skip' (gives_each _ fun _ _ => gives_allocInputs _)
    (cheap_each hw _ fun _ => costs_allocInputs hw _) fun l hl => ?_
  · exact costs_skip (cheap_call hw) fun _ => costs_skip (cheap_call hw) fun _ => costs_skip (cheap_call hw) fun _ =>
      costs_skip (cheap_call hw) fun _ => costs_skip (cheap_call hw) fun _ => costs_skip (cheap_call hw) fun _ =>
      costs_skip (cheap_call hw) fun _ => costs_skip (cheap_call hw) fun _ => costs_pure
  · exact (costs_stepBatch hw hp P cv _ l hl.2).of (by rw [hl.1])

/-! ## Client -/

theorem costs_balanceLoop {op : Wire (ZMod p) → Wire (ZMod p) → Tr p G (Wire (ZMod p))} (hop : ∀ x y, Costs w (op x y) 0)
    (k : Wire G) (us : List (UtxoW p G)) (b : Wire (ZMod p)) : Costs w (balanceLoop op k us b) 0 := by
  induction us generalizing b with
  | nil => exact costs_pure
  | cons u us ih =>
    exact costs_skip (cheap_call hw) fun _ => costs_skip (cheap_call hw) fun _ => costs_skip (cheap_call hw) fun _ =>
      costs_skip (hop _ _) fun _ => ih _

theorem costs_signerLoop (us : List (UtxoW p G)) (k : Wire G) : Costs w (signerLoop us k) 0 := by
  induction us generalizing k with
  | nil => exact costs_pure
  | cons u us ih => exact costs_skip (cheap_call hw) fun _ => ih _

/-- The weight of one transaction of the client. -/
def userTxBill (w : Gadget → Nat) : Nat := 3 * w .hash + 24 * w .twoToOne + 28 * w .condEnforceEq

theorem costs_txStep (P : Client.Params p) (cv : Curve p q G) (b : BlockW p) (k : Wire G) (s : LoopW p)
    (t : TxW p G) (i : Wire (ZMod p)) (l m : List (Wire (ZMod p) × Wire (ZMod p))) :
    Costs w (txStep P cv b k s t i l m) (userTxBill w) := by
  refine (costs_bind (costs_txHash hw cv _ _) fun _ => costs_skip (cheap_call hw) fun _ => costs_skip (cheap_call hw) fun _ =>
    costs_skip (costs_skip (cheap_constrain hw) fun _ => cheap_call hw) fun _ => costs_bind costs_constrain fun _ =>
    costs_bind (costs_checkMembershipIdx hw (costs_txHash hw cv _) _ _ _ _ _ _ _) fun _ =>
    costs_skip (costs_signerLoop hw _ _) fun _ =>
    costs_bind (costs_checkMembership hw (costs_pkHash hw cv _) _ _ _ _ _ _) fun _ => costs_skip (cheap_call hw) fun _ =>
    costs_skip (cheap_call hw) fun _ => costs_skip (cheap_call hw) fun _ =>
    costs_skip (costs_balanceLoop hw (fun _ _ => cheap_call hw) _ _ _) fun _ =>
    costs_skip (costs_balanceLoop hw (fun _ _ => cheap_call hw) _ _ _) fun _ => costs_skip (cheap_call hw) fun _ =>
    costs_skip (cheap_call hw) fun _ => costs_skip (cheap_call hw) fun _ => costs_skip (cheap_call hw) fun _ =>
    costs_skip (cheap_call hw) fun _ => costs_skip (cheap_call hw) fun _ => costs_pure).of ?_
  simp only [userTxBill, TX_TREE_HEIGHT, SIGNER_TREE_HEIGHT]
  omega

theorem costs_txLoop (P : Client.Params p) (cv : Curve p q G) (b : BlockW p) (k : Wire G)
    (l : List (((TxW p G × Wire (ZMod p)) × List (Wire (ZMod p) × Wire (ZMod p))) × List (Wire (ZMod p) × Wire (ZMod p))))
    (s : LoopW p) : Costs w (txLoop P cv b k l s) (l.length * userTxBill w) := by
  induction l generalizing s with
  | nil => exact costs_pure.of (by simp)
  | cons x l ih =>
    refine (costs_bind (costs_txStep hw P cv _ _ _ _ _ _ _) fun _ => ih _).of ?_
    rw [List.length_cons, Nat.add_one_mul l.length, Nat.add_comm]

/-- The weight of the accumulator. -/
def accBill (A : AccKind) (w : Gadget → Nat) : Nat :=
  match A with
  | .poseidon => w .twoToOne
  | .sha _ => w .sha

omit [DecidableEq G] [AddCommGroup G] in
theorem costs_accumulate (A : AccKind) (hs : Hashes p) (x y : Wire (ZMod p)) :
    Costs w (accumulate A hs x y : Tr p G _) (accBill A w) := by
  cases A with
  | poseidon => exact costs_call
  | sha s => exact (costs_skip (cheap_callN hw) fun _ => costs_skip (cheap_callN hw) fun _ => costs_bind costs_callN fun _ =>
      cheap_call hw).of (Nat.add_zero _)

theorem costs_updateBalance (hs : Hashes p) (A : AccKind) (cv : Curve p q G) (n : Nat) (z : UStateW p) (a : AuxW p G) :
    Costs w (updateBalance hs A cv n z a) (2 * w .hash + accBill A w + n * userTxBill w) := by
  have e : 2 * w .hash + accBill A w + n * userTxBill w = w .hash + (w .hash + (accBill A w + (n * userTxBill w + 0))) := by omega
  rw [e]
  refine costs_skip' gives_assert costs_assert fun _ h1 => costs_skip' gives_assert costs_assert fun _ h2 =>
    costs_skip' gives_assert costs_assert fun _ h3 => costs_bind (costs_pkHash hw cv _ _) fun _ =>
    costs_skip (cheap_constrain hw) fun _ => costs_bind costs_call fun _ => costs_bind (costs_accumulate hw A hs _ _) fun _ =>
    costs_skip (cheap_constrain hw) fun _ => costs_skip (cheap_call hw) fun _ => costs_skip (cheap_call hw) fun _ =>
    costs_bind ((costs_txLoop hw (A.params hs) cv _ _ _ _).of ?_) fun _ => costs_pure
  have h1 : a.txProofs.length = n := of_decide_eq_true h1
  have h2 : a.transactions.length = n := of_decide_eq_true h2
  have h3 : a.signerProofs.length = n := of_decide_eq_true h3
  rw [List.length_zip, List.length_zip, h1, h2, h3, Nat.min_self, Nat.min_self]

theorem costs_clientStep (hs : Hashes p) (A : AccKind) (cv : Curve p q G) (n : Nat) (z : Client.UState p)
    (a : Client.UserAuxVar p G) : Costs w (clientStep hs A cv n z a) (2 * w .hash + accBill A w + n * userTxBill w) := by
  have hpath : ∀ l : List (ZMod p × ZMod p), Costs w (allocPath l : Tr p G _) 0 := fun l =>
    cheap_each hw _ fun _ => costs_skip (cheap_call hw) fun _ => costs_skip (cheap_call hw) fun _ => costs_pure
  refine costs_skip ?_ fun _ => costs_skip ?_ fun _ => costs_updateBalance hw hs A cv n _ _
  · exact costs_skip (cheap_call hw) fun _ => costs_skip (cheap_call hw) fun _ => costs_skip (cheap_call hw) fun _ =>
      costs_skip (cheap_call hw) fun _ => costs_skip (cheap_call hw) fun _ => costs_skip (cheap_call hw) fun _ =>
      costs_skip (cheap_call hw) fun _ => costs_pure
  · refine costs_skip (cheap_each hw _ hpath) fun _ => costs_skip (cheap_each hw _ hpath) fun _ => costs_skip ?_ fun _ =>
      costs_skip (cheap_each hw _ fun _ => ?_) fun _ => costs_skip (cheap_call hw) fun _ => costs_pure
    · exact costs_skip (cheap_call hw) fun _ => costs_skip (cheap_call hw) fun _ => costs_skip (cheap_call hw) fun _ =>
        costs_skip (cheap_call hw) fun _ => costs_pure
    · exact costs_skip (costs_allocTx hw _) fun _ => costs_skip (cheap_call hw) fun _ => costs_pure

end
end
end PF.Prog
