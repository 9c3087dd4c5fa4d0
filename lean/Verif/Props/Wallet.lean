import Verif.Props.EndToEndDemo
import Verif.Props.ClientExamples

/-!
# Property C84 (and more on C33): the native wallet against the exact books and the client circuit
-/

set_option linter.unusedSectionVars false

namespace PF.Props
open PF PF.Spec PF.Client
variable {p q : Nat} {G S : Type} [AddCommGroup G] [Module (ZMod q) G] [DecidableEq G]

/-- Real outputs of the transactions received, whoever owns them. -/
def credited (ops : List (UserOp G)) : Nat :=
  (ops.map fun o => match o with
    | .receive t => totalOf t.outputs.toList
    | .spend _ => 0).sum

/-- Real inputs of the transactions spent, whoever owns them. -/
def debited (ops : List (UserOp G)) : Nat :=
  (ops.map fun o => match o with
    | .receive _ => 0
    | .spend t => totalOf t.inputs.toList).sum

/-- Number of transactions spent. -/
def spendCount (ops : List (UserOp G)) : Nat := (ops.map (·.spends)).sum

private theorem credited_cons (o : UserOp G) (ops : List (UserOp G)) :
    credited (o :: ops) = (match o with
      | .receive t => totalOf t.outputs.toList
      | .spend _ => 0) + credited ops := by simp [credited]
private theorem debited_cons (o : UserOp G) (ops : List (UserOp G)) :
    debited (o :: ops) = (match o with
      | .receive _ => 0
      | .spend t => totalOf t.inputs.toList) + debited ops := by simp [debited]
private theorem spendCount_cons (o : UserOp G) (ops : List (UserOp G)) :
    spendCount (o :: ops) = o.spends + spendCount ops := by simp [spendCount]

/-- **C33** (debug builds, every history that does not panic): the balance changes by exactly the real
outputs of the received transactions minus the real inputs of the spent ones, the nonce by the number of
spends. -/
theorem C33_exact_debug (u u' : User S G) (ops : List (UserOp G)) (h : runUser .debug u ops = .ok u') :
    u'.balance + debited ops = u.balance + credited ops ∧ u'.nonce = u.nonce + spendCount ops ∧
    u'.pk = u.pk := by
  induction ops generalizing u with
  | nil => simp [runUser] at h; subst h; simp [credited, debited, spendCount]
  | cons o ops ih =>
    rw [credited_cons, debited_cons, spendCount_cons]
    cases o with
    | spend t =>
      simp only [runUser] at h
      rcases hs : u.spend .debug t with u1 | e | _
      · rw [hs, Outcome.bind_ok] at h
        unfold User.spend at hs
        rcases hb : (nonDummy t.inputs.toList).foldlM
            (fun bal x => (subU64 .debug bal x.amount : Outcome Unit Nat)) u.balance with bal | e | _
        · rw [hb, Outcome.bind_ok] at hs
          by_cases hn : u.nonce + 1 < U64
          · rw [addU64_lt _ hn, Outcome.bind_ok] at hs
            cases hs
            have hbal := foldlM_sub_debug _ _ _ hb
            rw [sum_nonDummy] at hbal
            obtain ⟨i1, i2, i3⟩ := ih _ h
            simp only [UserOp.spends] at i1 i2 i3 ⊢
            exact ⟨by omega, by omega, i3⟩
          · rw [addU64_debug hn] at hs; simp at hs
        · rw [hb] at hs; simp at hs
        · rw [hb] at hs; simp at hs
      · rw [hs] at h; simp at h
      · rw [hs] at h; simp at h
    | receive t =>
      simp only [runUser] at h
      rcases hs : u.receive .debug t with u1 | e | _
      · rw [hs, Outcome.bind_ok] at h
        unfold User.receive at hs
        rcases hb : (nonDummy t.outputs.toList).foldlM
            (fun bal x => (addU64 .debug bal x.amount : Outcome Unit Nat)) u.balance with bal | e | _
        · rw [hb, Outcome.bind_ok] at hs
          cases hs
          have hbal := foldlM_add_debug _ _ _ hb
          rw [sum_nonDummy] at hbal
          obtain ⟨i1, i2, i3⟩ := ih _ h
          simp only [UserOp.spends] at i1 i2 i3 ⊢
          exact ⟨by omega, by omega, i3⟩
        · rw [hb] at hs; simp at hs
        · rw [hb] at hs; simp at hs
      · rw [hs] at h; simp at h
      · rw [hs] at h; simp at h

/-- A debug build spends without panicking exactly when the inputs are covered and the nonce has room. -/
private theorem spend_debug (u : User S G) (t : Tx Nat G) :
    u.spend .debug t = if totalOf t.inputs.toList ≤ u.balance ∧ u.nonce + 1 < U64 then
      .ok { u with balance := u.balance - totalOf t.inputs.toList, nonce := u.nonce + 1 }
    else .panic := by
  have hf : ∀ (us : List (UTXO Nat G)) (a : Nat),
      us.foldlM (fun bal x => (subU64 .debug bal x.amount : Outcome Unit Nat)) a =
        if (us.map (·.amount)).sum ≤ a then .ok (a - (us.map (·.amount)).sum) else .panic := by
    intro us
    induction us with
    | nil => intro a; simp
    | cons x us ih =>
      intro a
      simp only [List.foldlM_cons, List.map_cons, List.sum_cons]
      by_cases hx : x.amount ≤ a
      · rw [subU64_le _ hx, Outcome.bind_ok, ih]
        by_cases hs : (us.map (·.amount)).sum ≤ a - x.amount
        · rw [if_pos hs, if_pos (by omega)]; congr 1; omega
        · rw [if_neg hs, if_neg (by omega)]
      · rw [subU64_debug hx, if_neg (by omega)]; rfl
  unfold User.spend
  rw [hf, sum_nonDummy]
  by_cases h1 : totalOf t.inputs.toList ≤ u.balance
  · rw [if_pos h1, Outcome.bind_ok]
    by_cases h2 : u.nonce + 1 < U64
    · rw [addU64_lt _ h2, if_pos ⟨h1, h2⟩]; rfl
    · rw [addU64_debug h2, if_neg (by tauto)]; rfl
  · rw [if_neg h1, if_neg (by tauto)]; rfl

private theorem receive_debug (u : User S G) (t : Tx Nat G) (hb : u.balance < U64) :
    u.receive .debug t = if u.balance + totalOf t.outputs.toList < U64 then
      .ok { u with balance := u.balance + totalOf t.outputs.toList } else .panic := by
  have hf : ∀ (us : List (UTXO Nat G)) (a : Nat), a < U64 →
      us.foldlM (fun bal x => (addU64 .debug bal x.amount : Outcome Unit Nat)) a =
        if a + (us.map (·.amount)).sum < U64 then .ok (a + (us.map (·.amount)).sum) else .panic := by
    intro us
    induction us with
    | nil => intro a ha; simp [ha]
    | cons x us ih =>
      intro a ha
      simp only [List.foldlM_cons, List.map_cons, List.sum_cons]
      by_cases hx : a + x.amount < U64
      · rw [addU64_lt _ hx, Outcome.bind_ok, ih _ hx]
        by_cases hs : a + x.amount + (us.map (·.amount)).sum < U64
        · rw [if_pos hs, if_pos (by omega)]; congr 1; omega
        · rw [if_neg hs, if_neg (by omega)]
      · rw [addU64_debug hx, if_neg (by omega)]; rfl
  unfold User.receive
  rw [hf _ _ hb, sum_nonDummy]
  split <;> rfl

/-- The wallet has room for the next operation: a spend is covered by the balance so far and the nonce
does not overflow; a receipt does not overflow the balance. -/
def Covered (bal nonce : Nat) (pre : List (UserOp G)) : UserOp G → Prop
  | .spend t => debited pre + totalOf t.inputs.toList ≤ bal + credited pre ∧
      nonce + spendCount pre + 1 < U64
  | .receive t => bal + credited pre + totalOf t.outputs.toList < U64 + debited pre

/-- **C33** (debug builds, every history): the history succeeds exactly when every operation is covered
by the exact balance before it, and panics otherwise. -/
theorem C33_debug_decision (u : User S G) (ops : List (UserOp G)) (hb : u.balance < U64) :
    ((∃ u', runUser .debug u ops = .ok u') ↔
      ∀ pre o suf, ops = pre ++ o :: suf → Covered u.balance u.nonce pre o) ∧
    (runUser .debug u ops = .panic ↔
      ¬ ∀ pre o suf, ops = pre ++ o :: suf → Covered u.balance u.nonce pre o) := by
  suffices hmain : ((∀ pre o suf, ops = pre ++ o :: suf → Covered u.balance u.nonce pre o) →
        ∃ u', runUser .debug u ops = .ok u') ∧
      ((¬ ∀ pre o suf, ops = pre ++ o :: suf → Covered u.balance u.nonce pre o) →
        runUser .debug u ops = .panic) by
    obtain ⟨h1, h2⟩ := hmain
    refine ⟨⟨fun ⟨u', h⟩ => ?_, h1⟩, fun h hc => ?_, h2⟩
    · by_contra hc; rw [h2 hc] at h; cases h
    · obtain ⟨u', h'⟩ := h1 hc; rw [h] at h'; cases h'
  induction ops generalizing u with
  | nil => exact ⟨fun _ => ⟨u, rfl⟩, fun h => absurd (fun pre o suf e => by simp at e) h⟩
  | cons o ops ih =>
    have key : ∀ u1 : User S G, u1.balance < U64 →
        (∀ pre x, Covered u.balance u.nonce (o :: pre) x ↔ Covered u1.balance u1.nonce pre x) →
        Covered u.balance u.nonce [] o →
        ((∀ pre x suf, o :: ops = pre ++ x :: suf → Covered u.balance u.nonce pre x) ↔
          (∀ pre x suf, ops = pre ++ x :: suf → Covered u1.balance u1.nonce pre x)) := by
      intro u1 _ hc h0
      constructor
      · intro h pre x suf e
        exact (hc pre x).1 (h (o :: pre) x suf (by rw [e]; rfl))
      · intro h pre x suf e
        cases pre with
        | nil => cases e; exact h0
        | cons y pre =>
          simp only [List.cons_append, List.cons.injEq] at e
          obtain ⟨rfl, e⟩ := e
          exact (hc pre x).2 (h pre x suf e)
    cases o with
    | spend t =>
      simp only [runUser, spend_debug]
      by_cases hc : totalOf t.inputs.toList ≤ u.balance ∧ u.nonce + 1 < U64
      · rw [if_pos hc, Outcome.bind_ok]
        set u1 : User S G :=
          { u with balance := u.balance - totalOf t.inputs.toList, nonce := u.nonce + 1 } with hu1
        have hb1 : u1.balance < U64 := by
          rw [hu1]; exact lt_of_le_of_lt (Nat.sub_le _ _) hb
        have hk := key u1 hb1 (by
          intro pre x
          cases x <;> simp only [Covered, debited_cons, credited_cons, spendCount_cons, hu1,
            UserOp.spends] <;> omega) (by simpa [Covered, debited, credited, spendCount] using hc)
        rw [hk]
        exact ih u1 hb1
      · rw [if_neg hc]
        refine ⟨fun h => absurd ?_ hc, fun _ => rfl⟩
        simpa [Covered, debited, credited, spendCount] using h [] _ ops rfl
    | receive t =>
      simp only [runUser]
      rw [receive_debug u t hb]
      by_cases hc : u.balance + totalOf t.outputs.toList < U64
      · rw [if_pos hc, Outcome.bind_ok]
        set u1 : User S G := { u with balance := u.balance + totalOf t.outputs.toList } with hu1
        have hb1 : u1.balance < U64 := by rw [hu1]; exact hc
        have hk := key u1 hb1 (by
          intro pre x
          cases x <;> simp only [Covered, debited_cons, credited_cons, spendCount_cons, hu1,
            UserOp.spends] <;> omega) (by simpa [Covered, debited, credited, spendCount] using hc)
        rw [hk]
        exact ih u1 hb1
      · rw [if_neg hc]
        refine ⟨fun h => absurd ?_ hc, fun _ => rfl⟩
        simpa [Covered, debited, credited, spendCount] using h [] _ ops rfl

/-- Both outcomes occur: spending 8 of 9 twice panics, once does not. -/
example : (∃ u', runUser .debug (⟨(), 1, 9, 0, 0⟩ : User Unit (ZMod 7)) [.spend toyTx] = .ok u') ∧
    runUser .debug (⟨(), 1, 9, 0, 0⟩ : User Unit (ZMod 7)) [.spend toyTx, .spend toyTx] = .panic :=
  ⟨⟨⟨(), 1, 1, 1, 0⟩, rfl⟩, rfl⟩

private theorem totalOf_split (k : G) (us : List (UTXO Nat G)) :
    totalOf us = totalOf (us.filter fun u => u.pk = k) + totalOf (us.filter fun u => u.pk ≠ k) := by
  induction us with
  | nil => rfl
  | cons u us ih =>
    rw [totalOf_cons, ih]
    by_cases hu : u.pk = k
    · simp [hu, totalOf_cons]; omega
    · simp [hu, totalOf_cons]; omega

/-- Outputs received and inputs spent that belong to somebody else. -/
def creditedOthers (k : G) (ops : List (UserOp G)) : Nat :=
  (ops.map fun o => match o with
    | .receive t => totalOf (t.outputs.toList.filter fun u => u.pk ≠ k)
    | .spend _ => 0).sum
def debitedOthers (k : G) (ops : List (UserOp G)) : Nat :=
  (ops.map fun o => match o with
    | .receive _ => 0
    | .spend t => totalOf (t.inputs.toList.filter fun u => u.pk ≠ k)).sum

/-- **C33** (debug builds, every history that does not panic): the balance differs from the amounts the
user owns by exactly the outputs of others in received transactions minus the inputs of others in spent
ones; so it equals them iff the two cancel. -/
theorem C33_surplus (u u' : User S G) (ops : List (UserOp G)) (h : runUser .debug u ops = .ok u') :
    u'.balance + (ops.map (·.out u.pk)).sum + debitedOthers u.pk ops =
      u.balance + (ops.map (·.inc u.pk)).sum + creditedOthers u.pk ops := by
  have hs : ∀ (ops : List (UserOp G)),
      credited ops = (ops.map (·.inc u.pk)).sum + creditedOthers u.pk ops ∧
      debited ops = (ops.map (·.out u.pk)).sum + debitedOthers u.pk ops := by
    intro ops
    induction ops with
    | nil => simp [credited, debited, creditedOthers, debitedOthers]
    | cons o ops ih =>
      obtain ⟨i1, i2⟩ := ih
      rw [credited_cons, debited_cons, i1, i2]
      cases o with
      | spend t =>
        have := totalOf_split u.pk t.inputs.toList
        simp only [creditedOthers, debitedOthers, List.map_cons, List.sum_cons, UserOp.inc, UserOp.out,
          totalOwned]
        omega
      | receive t =>
        have := totalOf_split u.pk t.outputs.toList
        simp only [creditedOthers, debitedOthers, List.map_cons, List.sum_cons, UserOp.inc, UserOp.out,
          totalOwned]
        omega
  have h1 := (C33_exact_debug u u' ops h).1
  obtain ⟨i1, i2⟩ := hs ops
  omega

/-- Amounts of the transactions are `u64`s. -/
def UserOp.FitsU64 : UserOp G → Prop
  | .spend t => t.U64Amounts
  | .receive t => t.U64Amounts

private theorem fold_add_release (us : List (UTXO Nat G)) (a : Nat) (ha : a < U64) :
    ∃ r, us.foldlM (fun bal x => (addU64 .release bal x.amount : Outcome Unit Nat)) a = .ok r ∧
      r < U64 ∧ (r : Int) ≡ a + ((us.map (·.amount)).sum : Nat) [ZMOD U64] := by
  have hU : 0 < U64 := by norm_num [U64]
  induction us generalizing a with
  | nil => exact ⟨a, rfl, ha, by simp⟩
  | cons u us ih =>
    simp only [List.foldlM_cons]
    have h1 : ∃ r, (addU64 .release a u.amount : Outcome Unit Nat) = .ok r ∧ r < U64 ∧
        (r : Int) ≡ a + u.amount [ZMOD U64] := by
      unfold addU64
      split
      · exact ⟨_, rfl, by assumption, by push_cast; exact Int.ModEq.refl _⟩
      · refine ⟨_, rfl, Nat.mod_lt _ hU, ?_⟩
        push_cast
        exact Int.mod_modEq _ _
    obtain ⟨r, h1, h2, h3⟩ := h1
    obtain ⟨r', h4, h5, h6⟩ := ih r h2
    refine ⟨r', by rw [h1, Outcome.bind_ok, h4], h5, ?_⟩
    refine h6.trans ?_
    simp only [List.map_cons, List.sum_cons]
    push_cast
    rw [← add_assoc]
    exact h3.add_right _

private theorem fold_sub_release (us : List (UTXO Nat G)) (hu : ∀ u ∈ us, u.amount < U64) (a : Nat)
    (ha : a < U64) :
    ∃ r, us.foldlM (fun bal x => (subU64 .release bal x.amount : Outcome Unit Nat)) a = .ok r ∧
      r < U64 ∧ (r : Int) ≡ a - ((us.map (·.amount)).sum : Nat) [ZMOD U64] := by
  have hU : 0 < U64 := by norm_num [U64]
  induction us generalizing a with
  | nil => exact ⟨a, rfl, ha, by simp⟩
  | cons u us ih =>
    simp only [List.foldlM_cons]
    have hu0 := hu u (by simp)
    have h1 : ∃ r, (subU64 .release a u.amount : Outcome Unit Nat) = .ok r ∧ r < U64 ∧
        (r : Int) ≡ a - u.amount [ZMOD U64] := by
      unfold subU64
      split
      · rename_i hle
        exact ⟨_, rfl, by omega, by rw [Nat.cast_sub hle]⟩
      · refine ⟨_, rfl, Nat.mod_lt _ hU, ?_⟩
        rw [Int.natCast_mod, Nat.cast_sub (by omega)]
        push_cast
        refine (Int.mod_modEq _ _).trans ?_
        rw [Int.modEq_iff_dvd]
        exact ⟨-1, by ring⟩
    obtain ⟨r, h1, h2, h3⟩ := h1
    obtain ⟨r', h4, h5, h6⟩ := ih (fun v hv => hu v (by simp [hv])) r h2
    refine ⟨r', by rw [h1, Outcome.bind_ok, h4], h5, ?_⟩
    refine h6.trans ?_
    simp only [List.map_cons, List.sum_cons]
    push_cast
    rw [← sub_sub]
    exact h3.sub_right _

/-- **C33** (release builds, every history): nothing ever fails, and the balance and the nonce are the
exact ones modulo 2^64. -/
theorem C33_exact_release (u : User S G) (ops : List (UserOp G)) (hb : u.balance < U64)
    (hn : u.nonce < U64) (ha : ∀ o ∈ ops, o.FitsU64) :
    ∃ u', runUser .release u ops = .ok u' ∧ u'.pk = u.pk ∧ u'.balance < U64 ∧
      (u'.balance : Int) ≡ u.balance + credited ops - debited ops [ZMOD U64] ∧
      u'.nonce = (u.nonce + spendCount ops) % U64 := by
  have hU : 0 < U64 := by norm_num [U64]
  induction ops generalizing u with
  | nil => exact ⟨u, rfl, rfl, hb, by simp [credited, debited], by simp [spendCount, Nat.mod_eq_of_lt hn]⟩
  | cons o ops ih =>
    have hao := ha o (by simp)
    rw [credited_cons, debited_cons, spendCount_cons]
    cases o with
    | spend t =>
      obtain ⟨r, h1, h2, h3⟩ := fold_sub_release (nonDummy t.inputs.toList) (by
        intro x hx
        apply hao
        simp only [nonDummy, List.mem_filter] at hx
        simp [Tx.ios, hx.1]) u.balance hb
      rw [sum_nonDummy] at h3
      have h4 : ∃ m, (addU64 .release u.nonce 1 : Outcome Unit Nat) = .ok m ∧ m = (u.nonce + 1) % U64 := by
        unfold addU64
        split
        · exact ⟨_, rfl, (Nat.mod_eq_of_lt (by assumption)).symm⟩
        · exact ⟨_, rfl, rfl⟩
      obtain ⟨m, h4, rfl⟩ := h4
      have hs : u.spend .release t = .ok { u with balance := r, nonce := (u.nonce + 1) % U64 } := by
        unfold User.spend
        rw [h1, Outcome.bind_ok, h4, Outcome.bind_ok]
      obtain ⟨u', i1, i2, i3, i4, i5⟩ := ih { u with balance := r, nonce := (u.nonce + 1) % U64 } h2
        (Nat.mod_lt _ hU) (fun o ho => ha o (by simp [ho]))
      refine ⟨u', by simp only [runUser]; rw [hs, Outcome.bind_ok, i1], i2, i3, ?_, ?_⟩
      · refine i4.trans ?_
        simp only [zero_add]
        push_cast
        have := (h3.add_right (credited ops : Int)).sub_right (debited ops : Int)
        refine this.trans ?_
        rw [show (u.balance : Int) - (totalOf t.inputs.toList : Int) + credited ops - debited ops =
          u.balance + credited ops - (totalOf t.inputs.toList + debited ops) by ring]
      · rw [i5]
        simp only [UserOp.spends, Nat.mod_add_mod, Nat.add_assoc]
    | receive t =>
      obtain ⟨r, h1, h2, h3⟩ := fold_add_release (nonDummy t.outputs.toList) u.balance hb
      rw [sum_nonDummy] at h3
      have hs : u.receive .release t = .ok { u with balance := r } := by
        unfold User.receive
        rw [h1, Outcome.bind_ok]
      obtain ⟨u', i1, i2, i3, i4, i5⟩ := ih { u with balance := r } h2 hn (fun o ho => ha o (by simp [ho]))
      refine ⟨u', by simp only [runUser]; rw [hs, Outcome.bind_ok, i1], i2, i3, ?_, ?_⟩
      · refine i4.trans ?_
        simp only [zero_add]
        push_cast
        have := (h3.add_right (credited ops : Int)).sub_right (debited ops : Int)
        refine this.trans ?_
        rw [show (u.balance : Int) + (totalOf t.outputs.toList : Int) + credited ops - debited ops =
          u.balance + (totalOf t.outputs.toList + credited ops) - debited ops by ring]
      · rw [i5]
        simp [UserOp.spends]

/-! ## C84 -/

/-- The transaction has a real output for `k`. -/
def pays (k : G) (t : Tx Nat G) : Bool := t.outputs.toList.any fun u => !u.isDummy && decide (u.pk = k)

/-- What a wallet does with the transactions of its blocks: spend those it signed, receive those that pay
it. -/
def walletOps (k : G) (ts : List (Tx Nat G)) : List (UserOp G) :=
  ts.flatMap fun t => (if k = t.getSigner then [.spend t] else []) ++ (if pays k t then [.receive t] else [])

/-- Real outputs to somebody else, of a transaction that also pays `k`. -/
def toOthers (k : G) (t : Tx Nat G) : Nat :=
  if pays k t then totalOf (t.outputs.toList.filter fun u => u.pk ≠ k) else 0

private theorem credited_append (a b : List (UserOp G)) : credited (a ++ b) = credited a + credited b := by
  simp [credited]
private theorem debited_append (a b : List (UserOp G)) : debited (a ++ b) = debited a + debited b := by
  simp [debited]
private theorem spendCount_append (a b : List (UserOp G)) :
    spendCount (a ++ b) = spendCount a + spendCount b := by simp [spendCount]

private theorem paidTo_zero {k : G} {t : Tx Nat G} (h : pays k t = false) : paidTo k t = 0 := by
  unfold paidTo totalOf
  rw [List.sum_eq_zero_iff]
  intro x hx
  obtain ⟨u, hu, rfl⟩ := List.mem_map.1 hx
  rw [List.mem_filter] at hu
  simp only [pays, List.any_eq_false] at h
  have := h u hu.1
  have hk := hu.2
  simp only [decide_eq_true_eq] at hk
  cases hd : u.isDummy
  · simp [hd, hk] at this
  · simp

private theorem wallet_books (k : G) (ts : List (Tx Nat G))
    (hown : ∀ t ∈ ts, OwnedBy t.getSigner t.inputs.toList) :
    credited (walletOps k ts) = (ts.map (paidTo k)).sum + (ts.map (toOthers k)).sum ∧
    debited (walletOps k ts) = (ts.map (paidBy k)).sum ∧
    spendCount (walletOps k ts) = ts.countP fun t => k = t.getSigner := by
  induction ts with
  | nil => simp [walletOps, credited, debited, spendCount]
  | cons t ts ih =>
    obtain ⟨i1, i2, i3⟩ := ih fun t ht => hown t (by simp [ht])
    have e : walletOps k (t :: ts) = ((if k = t.getSigner then [.spend t] else []) ++
      (if pays k t then [.receive t] else [])) ++ walletOps k ts := by simp [walletOps]
    have ho := hown t (by simp)
    rw [e, credited_append, debited_append, spendCount_append, credited_append, debited_append,
      spendCount_append, i1, i2, i3]
    simp only [List.map_cons, List.sum_cons, List.countP_cons]
    have c1 : credited (if k = t.getSigner then [UserOp.spend t] else []) = 0 := by
      split <;> simp [credited]
    have c2 : credited (if pays k t then [UserOp.receive t] else []) = paidTo k t + toOthers k t := by
      unfold toOthers
      cases hp : pays k t
      · simp [credited, paidTo_zero hp]
      · simp only [if_true, credited, List.map_cons, List.map_nil, List.sum_cons, List.sum_nil, add_zero]
        exact totalOf_split k _
    have d1 : debited (if k = t.getSigner then [UserOp.spend t] else []) = paidBy k t := by
      split
      · rename_i hk
        simp only [debited, List.map_cons, List.map_nil, List.sum_cons, List.sum_nil, add_zero]
        rw [← hk] at ho
        exact (totalOwned_of_owned k _ ho).symm
      · rename_i hk
        simp only [debited, List.map_nil, List.sum_nil]
        symm
        unfold paidBy totalOf
        rw [List.sum_eq_zero_iff]
        intro x hx
        obtain ⟨u, hu, rfl⟩ := List.mem_map.1 hx
        rw [List.mem_filter] at hu
        have hk2 := hu.2
        simp only [decide_eq_true_eq] at hk2
        cases hd : u.isDummy
        · exact absurd (hk2.symm.trans (ho u hu.1 hd)) hk
        · simp
    have d2 : debited (if pays k t then [UserOp.receive t] else []) = 0 := by
      split <;> simp [debited]
    have s1 : spendCount (if k = t.getSigner then [UserOp.spend t] else []) =
        if k = t.getSigner then 1 else 0 := by
      split <;> simp [spendCount, UserOp.spends]
    have s2 : spendCount (if pays k t then [UserOp.receive t] else []) = 0 := by
      split <;> simp [spendCount, UserOp.spends]
    rw [c1, c2, d1, d2, s1, s2]
    refine ⟨by omega, by omega, ?_⟩
    by_cases hk : k = t.getSigner <;> simp [hk] <;> omega

private theorem shown_balance (k : G) (b : Int) (as : List (UserAux p G)) (hpk : ∀ a ∈ as, a.pk = k)
    (hclean : ∀ t ∈ shownTxs as, CleanTx t) :
    exactBalance b as =
      b + ((shownTxs as).map fun t => (paidTo k t : Int) - (paidBy k t : Int)).sum := by
  unfold exactBalance
  congr 1
  induction as with
  | nil => simp [shownTxs]
  | cons a as ih =>
    have e : shownTxs (a :: as) = a.transactions.map (·.1) ++ shownTxs as := by simp [shownTxs]
    rw [e] at hclean ⊢
    rw [List.map_append, List.sum_append, List.map_cons, List.sum_cons,
      ih (fun a ha => hpk a (by simp [ha])) (fun t ht => hclean t (by simp [ht]))]
    congr 1
    rw [List.map_map]
    congr 1
    apply List.map_congr_left
    intro t ht
    have hc := hclean t.1 (List.mem_append_left _ (List.mem_map_of_mem ht))
    rw [hpk a (by simp)]
    simp only [Function.comp_apply]
    rw [clean_received hc, clean_spent hc]

/-- **C84**: a wallet that spends the transactions it signed and receives those that pay it, and the
client circuit shown the same transactions from the same balance and nonce, agree on the nonce; the wallet's
balance exceeds the circuit's by exactly what the received transactions pay to others. (Transactions whose
real inputs all belong to the signer and whose dummies carry no amount; debug build, no panic.) -/
theorem C84_wallet_drift (h : FieldOk p) (P : Client.Params p) (cv : Curve p q G) (n : Nat)
    (z z' : UState p) (as : List (UserAux p G)) (u u' : User S G) (hpk : ∀ a ∈ as, a.pk = u.pk)
    (hrun : Client.runSteps P cv n z (as.map UserAux.alloc) z')
    (hclean : ∀ t ∈ shownTxs as, CleanTx t)
    (hown : ∀ t ∈ shownTxs as, OwnedBy t.getSigner t.inputs.toList)
    (hwal : runUser .debug u (walletOps u.pk (shownTxs as)) = .ok u')
    (hb : z.balance = (u.balance : ZMod p)) (hn : z.nonce = (u.nonce : ZMod p)) :
    (u'.balance : ZMod p) = z'.balance + (((shownTxs as).map (toOthers u.pk)).sum : Nat) ∧
    z'.nonce = (u'.nonce : ZMod p) := by
  have hp : 0 < p := lt_of_lt_of_le (by norm_num) h.large
  have : NeZero p := ⟨by omega⟩
  obtain ⟨w1, w2, -⟩ := C33_exact_debug u u' _ hwal
  obtain ⟨b1, b2, b3⟩ := wallet_books u.pk (shownTxs as) hown
  obtain ⟨e1, e2⟩ := C61_balance_and_nonce h P cv n z z' _ hrun
  have e1 := (C61_exact_integers h P cv n z z' as hrun).1
  rw [shown_balance u.pk _ as hpk hclean] at e1
  have hsum : ∀ ts : List (Tx Nat G), (ts.map fun t => (paidTo u.pk t : Int) - (paidBy u.pk t : Int)).sum =
      ((ts.map (paidTo u.pk)).sum : Nat) - ((ts.map (paidBy u.pk)).sum : Nat) := by
    intro ts
    induction ts with
    | nil => simp
    | cons t ts ih => simp only [List.map_cons, List.sum_cons, ih]; push_cast; ring
  rw [hsum] at e1
  rw [b1, b2] at w1
  constructor
  · have key : ∀ x y A B C : Nat, x + B = y + (A + C) →
        (x : ZMod p) = (((y : Int) + ((A : Nat) - (B : Nat) : Int) : Int) : ZMod p) + (C : Nat) := by
      intro x y A B C e
      have e := congrArg (fun m : Nat => (m : ZMod p)) e
      push_cast at e ⊢
      linear_combination e
    rw [e1, key _ _ _ _ _ w1]
    push_cast
    rw [ZMod.natCast_zmod_val, hb]
  · rw [w2, b3, e2, hn, Nat.cast_add]
    congr 2
    rw [shownTxs, List.countP_flatMap]
    congr 1
    rw [List.map_map]
    apply List.map_congr_left
    intro a ha
    simp only [Function.comp_apply, signedBy, UserAux.alloc, List.countP_map, List.map_map]
    apply List.countP_congr
    intro t _
    have hk := hpk a ha
    simp only [Function.comp_apply, alloc_getSigner, decide_eq_true_eq]
    show a.pk = _ ↔ _
    rw [hk]

/-- **C84**: wallet and circuit agree on the balance exactly when no received transaction pays anyone else
(as long as these payments stay below the field order). -/
theorem C84_agree_iff (h : FieldOk p) (P : Client.Params p) (cv : Curve p q G) (n : Nat)
    (z z' : UState p) (as : List (UserAux p G)) (u u' : User S G) (hpk : ∀ a ∈ as, a.pk = u.pk)
    (hrun : Client.runSteps P cv n z (as.map UserAux.alloc) z')
    (hclean : ∀ t ∈ shownTxs as, CleanTx t)
    (hown : ∀ t ∈ shownTxs as, OwnedBy t.getSigner t.inputs.toList)
    (hwal : runUser .debug u (walletOps u.pk (shownTxs as)) = .ok u')
    (hb : z.balance = (u.balance : ZMod p)) (hn : z.nonce = (u.nonce : ZMod p))
    (hsmall : ((shownTxs as).map (toOthers u.pk)).sum < p) :
    z'.balance = (u'.balance : ZMod p) ↔ ∀ t ∈ shownTxs as, toOthers u.pk t = 0 := by
  rw [(C84_wallet_drift h P cv n z z' as u u' hpk hrun hclean hown hwal hb hn).1, left_eq_add,
    ZMod.natCast_eq_zero_iff]
  constructor
  · intro hd t ht
    have := Nat.eq_zero_of_dvd_of_lt hd hsmall
    rw [List.sum_eq_zero_iff] at this
    exact this _ (List.mem_map_of_mem ht)
  · intro hz
    have : ((shownTxs as).map (toOthers u.pk)).sum = 0 := by
      rw [List.sum_eq_zero_iff]
      intro x hx
      obtain ⟨t, ht, rfl⟩ := List.mem_map.1 hx
      exact hz t ht
    rw [this]; exact dvd_zero p

/-- `k` spends eight, pays six to `r` and keeps two as change. -/
def changeTx (k r : G) : Tx Nat G where
  inputs := #v[UTXO.new k 8, UTXO.dummy, UTXO.dummy, UTXO.dummy]
  outputs := #v[UTXO.new r 6, UTXO.new k 2, UTXO.dummy, UTXO.dummy]

/-- **C84** fails without the condition: a user with balance eight processes its own payment of six with
two back as change. The circuit ends with two; the wallet, which spends and receives the same transaction,
still shows eight. All other hypotheses of `C84_wallet_drift` are met. -/
theorem C84_change_credited_too_much (h : FieldOk p) (cv : Curve p q G) (k r : G) (hr : r ≠ k) :
    ∃ (a : UserAux p G) (z z' : UState p) (u' : User Unit G),
      Client.runSteps (demoParams p) cv 1 z ([a].map UserAux.alloc) z' ∧ a.pk = k ∧
      z.balance = 8 ∧ z.nonce = 0 ∧ shownTxs [a] = [changeTx k r] ∧
      (∀ t ∈ shownTxs [a], CleanTx t ∧ OwnedBy t.getSigner t.inputs.toList) ∧
      runUser .debug (⟨(), k, 8, 0, 0⟩ : User Unit G) (walletOps k (shownTxs [a])) = .ok u' ∧
      (changeTx k r).isValid .debug (some k) = .ok () ∧
      z'.balance = 2 ∧ u'.balance = 8 ∧ z'.nonce = 1 ∧ u'.nonce = 1 := by
  have hsig : (changeTx k r).getSigner = k := by
    simp [changeTx, Tx.getSigner, UTXO.dummy, UTXO.new, Circuit.select]
  have hsig2 : ((changeTx k r).alloc p).getSigner = k := by rw [alloc_getSigner, hsig]
  have hne : NotPadding cv (demoParams p).hs ((changeTx k r).alloc p) := by
    have e1 : (demoParams p).hs.crh (txEncVar cv ((changeTx k r).alloc p)) = ((6 : Nat) : ZMod p) := rfl
    have e3 : (demoParams p).hs.crh (txEncVar cv (Tx.default : Tx (ZMod p) G)) = 0 := rfl
    unfold NotPadding; rw [e1, e3]; exact natCast_ne h (by decide) (by decide)
  have hready : ReadyFor cv (demoParams p).hs k (demoBlk cv 1 ((changeTx k r).alloc p) k).height
      { demoUser cv k with balance := 8 } := ⟨rfl, by simp [demoUser], by simp [demoUser]⟩
  obtain ⟨a, z', h1, h2, h3, h4, -, h6, h7⟩ := C70_every_position h (demoParams p) cv _ _ _
    (demo_commits h cv 1 ((changeTx k r).alloc p) k) k { demoUser cv k with balance := 8 } hready
    (by rw [demo_hash]; exact one_ne h) 3 5 (by decide) (by decide) (by decide) hne hsig2.symm
  let b : UserAux p G :=
    { txProofs := a.txProofs, signerProofs := a.signerProofs
      block := ⟨a.block.utxoRoot, a.block.txRoot, a.block.signerRoot, [], 1, [], []⟩
      transactions := [(changeTx k r, 3)], pk := k }
  have hb : b.alloc = a := by
    obtain ⟨a1, a2, a3, a4, a5⟩ := a
    simp only at h1 h2 h4
    simp [b, UserAux.alloc, Block.alloc, h1, h2, h4, demoBlk, demoTxs]
  have hsh : shownTxs [b] = [changeTx k r] := rfl
  have hops : walletOps k [changeTx k r] = [.spend (changeTx k r), .receive (changeTx k r)] := by
    have hpays : pays k (changeTx k r) = true := by simp [pays, changeTx, UTXO.new]
    simp [walletOps, hsig, hpays]
  refine ⟨b, { demoUser cv k with balance := 8 }, z', ⟨(), k, 8, 1, 0⟩, ?_, rfl, rfl, rfl, hsh, ?_, ?_, ?_, ?_,
    rfl, ?_, rfl⟩
  · exact ⟨z', by rw [hb]; exact h3, rfl⟩
  · rw [hsh]
    intro t ht
    rw [List.mem_singleton] at ht
    subst ht
    rw [hsig]
    constructor
    · simp [CleanTx, Tx.ios, changeTx, UTXO.new, UTXO.dummy]
    · simp [OwnedBy, changeTx, UTXO.new, UTXO.dummy]
  · rw [hsh, hops]; rfl
  · simp [Tx.isValid, changeTx, nonDummy, UTXO.new, UTXO.dummy, sumU64, addU64, U64]
  · rw [h6]
    have : demoTxs ((changeTx k r).alloc p) 3 = (changeTx k r).alloc p := rfl
    rw [this, delta, received_alloc, spent_alloc]
    have e1 : receivedNat k (changeTx k r) = 2 := by
      by_cases hk0 : (0 : G) = k <;> simp [receivedNat, changeTx, UTXO.new, UTXO.dummy, hr, hk0]
    have e2 : spentNat k (changeTx k r) = 8 := by
      by_cases hk0 : (0 : G) = k <;> simp [spentNat, changeTx, UTXO.new, UTXO.dummy, hk0]
    rw [e1, e2]
    norm_num
  · rw [h7, if_pos]
    · simp [demoUser]
    · exact hsig2.symm

end PF.Props
