import Verif.Spec.Tx
import Mathlib.Tactic.Ring
import Mathlib.Tactic.Linarith
import Mathlib.Algebra.Field.ZMod

/-! Helper lemmas about encodings and transaction sums. -/

namespace PF
variable {A G : Type} {p q : Nat}

/-! ### Encodings -/

theorem natCast_inj_of_lt {a b : Nat} (ha : a < p) (hb : b < p) (h : (a : ZMod p) = b) : a = b := by
  have := (ZMod.natCast_eq_natCast_iff' a b p).1 h
  rwa [Nat.mod_eq_of_lt ha, Nat.mod_eq_of_lt hb] at this

theorem zmod_one_ne_zero (hp : 1 < p) : (1 : ZMod p) ≠ 0 := by
  have : Fact (1 < p) := ⟨hp⟩
  exact one_ne_zero

theorem boolF_inj (hp : 1 < p) {a b : Bool} (h : (boolF a : ZMod p) = boolF b) : a = b := by
  have h1 := zmod_one_ne_zero hp
  cases a <;> cases b <;> simp_all [boolF]

section
variable [AddCommGroup G] [Module (ZMod q) G] (cv : Curve p q G)

theorem pkEnc_length (P : G) : (pkEnc cv P).length = 3 := by
  unfold pkEnc; split <;> rfl

theorem pkEncVar_length (P : G) : (pkEncVar cv P).length = 3 := rfl

theorem pkEncVar_eq (P : G) : pkEncVar cv P = pkEnc cv P := by
  unfold pkEncVar pkEnc
  split
  · rename_i h; simp [h, boolF]
  · rename_i h; simp [h, boolF]

theorem pkEnc_inj (hp : 1 < p) {P Q : G} (h : pkEnc cv P = pkEnc cv Q) : P = Q := by
  have h1 := zmod_one_ne_zero hp
  apply cv.xy_inj
  unfold pkEnc at h
  rcases hP : cv.xy P with _ | ⟨x, y⟩ <;> rcases hQ : cv.xy Q with _ | ⟨x', y'⟩ <;>
    simp_all

theorem pkEnc_zero : pkEnc cv (0 : G) = [0, 0, 1] := by
  unfold pkEnc
  rw [(cv.xy_none 0).2 rfl]

theorem utxoEnc_length (u : UTXO Nat G) : (utxoEnc cv u).length = 5 := by
  simp [utxoEnc, pkEnc_length]

theorem utxoEncVar_length (u : UTXO (ZMod p) G) : (utxoEncVar cv u).length = 5 := by
  simp [utxoEncVar, pkEncVar_length]

theorem utxoEncVar_alloc (u : UTXO Nat G) : utxoEncVar cv (u.alloc p) = utxoEnc cv u := by
  simp [utxoEncVar, utxoEnc, UTXO.alloc, pkEncVar_eq]

theorem utxoEncVar_inj (hp : 1 < p) {u v : UTXO (ZMod p) G} (h : utxoEncVar cv u = utxoEncVar cv v) :
    u = v := by
  unfold utxoEncVar at h
  simp only [List.cons.injEq] at h
  obtain ⟨h1, h2, h3⟩ := h
  rw [pkEncVar_eq, pkEncVar_eq] at h3
  cases u; cases v
  simp_all only [UTXO.mk.injEq, true_and]
  exact ⟨pkEnc_inj cv hp h3, boolF_inj hp h2⟩

omit [AddCommGroup G] in
theorem alloc_inj {u v : UTXO Nat G} (hu : u.amount < p) (hv : v.amount < p)
    (h : u.alloc p = v.alloc p) : u = v := by
  cases u; cases v
  simp only [UTXO.alloc, UTXO.mk.injEq] at h
  simp only [UTXO.mk.injEq]
  exact ⟨natCast_inj_of_lt hu hv h.1, h.2⟩

theorem utxoEnc_inj (hp : 1 < p) {u v : UTXO Nat G} (hu : u.amount < p) (hv : v.amount < p)
    (h : utxoEnc cv u = utxoEnc cv v) : u = v := by
  rw [← utxoEncVar_alloc, ← utxoEncVar_alloc] at h
  exact alloc_inj hu hv (utxoEncVar_inj cv hp h)

end

/-- Concatenations of equally long blocks determine the blocks. -/
theorem flatMap_inj {α β : Type} (f : α → List β) (k : Nat) (hk : ∀ a, (f a).length = k)
    (xs ys : List α) (hl : xs.length = ys.length)
    (hinj : ∀ a ∈ xs, ∀ b ∈ ys, f a = f b → a = b)
    (h : xs.flatMap f = ys.flatMap f) : xs = ys := by
  induction xs generalizing ys with
  | nil => cases ys <;> simp_all
  | cons x xs ih =>
    cases ys with
    | nil => simp at hl
    | cons y ys =>
      simp only [List.flatMap_cons] at h
      obtain ⟨h1, h2⟩ := List.append_inj h (by rw [hk, hk])
      rw [hinj x (by simp) y (by simp) h1,
        ih ys (by simpa using hl) (fun a ha b hb => hinj a (by simp [ha]) b (by simp [hb])) h2]

theorem Tx.ios_length (t : Tx A G) : t.ios.length = 2 * TX_IO_SIZE := by
  simp [Tx.ios, TX_IO_SIZE]

theorem Tx.ext_ios {t t' : Tx A G} (h : t.ios = t'.ios) : t = t' := by
  unfold Tx.ios at h
  obtain ⟨h1, h2⟩ := List.append_inj h (by simp)
  cases t; cases t'
  simp only [Tx.mk.injEq]
  exact ⟨Vector.toList_inj.1 h1, Vector.toList_inj.1 h2⟩

theorem Tx.ios_alloc (t : Tx Nat G) : (t.alloc p).ios = t.ios.map (UTXO.alloc p) := by
  simp [Tx.ios, Tx.alloc]

/-! ### Sums -/

@[simp] theorem totalOf_nil : totalOf ([] : List (UTXO Nat G)) = 0 := rfl

theorem totalOf_cons (u : UTXO Nat G) (us : List (UTXO Nat G)) :
    totalOf (u :: us) = (if u.isDummy then 0 else u.amount) + totalOf us := by
  simp [totalOf]

theorem sum_nonDummy (us : List (UTXO Nat G)) :
    ((nonDummy us).map (·.amount)).sum = totalOf us := by
  induction us with
  | nil => rfl
  | cons u us ih =>
    rw [totalOf_cons, ← ih]
    unfold nonDummy
    cases h : u.isDummy <;> simp [h]

theorem addU64_lt {ε : Type} (b : Build) {x y : Nat} (h : x + y < U64) :
    (addU64 b x y : Outcome ε Nat) = .ok (x + y) := if_pos h

theorem addU64_debug {ε : Type} {x y : Nat} (h : ¬ x + y < U64) :
    (addU64 .debug x y : Outcome ε Nat) = .panic := if_neg h

theorem addU64_release {ε : Type} {x y : Nat} :
    (addU64 .release x y : Outcome ε Nat) = .ok ((x + y) % U64) := by
  unfold addU64; split
  · rename_i h; rw [Nat.mod_eq_of_lt h]
  · rfl

theorem subU64_le {ε : Type} (b : Build) {x y : Nat} (h : y ≤ x) :
    (subU64 b x y : Outcome ε Nat) = .ok (x - y) := if_pos h

theorem subU64_debug {ε : Type} {x y : Nat} (h : ¬ y ≤ x) :
    (subU64 .debug x y : Outcome ε Nat) = .panic := if_neg h

theorem foldlM_addU64_aux {ε : Type} (b : Build) (xs : List Nat) (a : Nat) (h : a + xs.sum < U64) :
    xs.foldlM (fun acc x => (addU64 b acc x : Outcome ε Nat)) a = .ok (a + xs.sum) := by
  induction xs generalizing a with
  | nil => simp
  | cons x xs ih =>
    simp only [List.sum_cons] at h
    simp only [List.foldlM_cons, List.sum_cons]
    rw [addU64_lt b (by omega), Outcome.bind_ok, ih _ (by omega)]
    congr 1; omega

theorem sumU64_ok {ε : Type} (b : Build) (xs : List Nat) (h : xs.sum < U64) :
    (sumU64 b xs : Outcome ε Nat) = .ok xs.sum := by
  unfold sumU64; rw [foldlM_addU64_aux b xs 0 (by omega)]; simp

theorem foldlM_addU64_debug {ε : Type} (xs : List Nat) (a : Nat) (ha : a < U64)
    (h : ¬ a + xs.sum < U64) :
    xs.foldlM (fun acc x => (addU64 .debug acc x : Outcome ε Nat)) a = .panic := by
  induction xs generalizing a with
  | nil => simp at h; omega
  | cons x xs ih =>
    simp only [List.sum_cons] at h
    simp only [List.foldlM_cons]
    by_cases hx : a + x < U64
    · rw [addU64_lt _ hx, Outcome.bind_ok, ih _ hx (by omega)]
    · rw [addU64_debug hx]; rfl

theorem sumU64_debug_panic {ε : Type} (xs : List Nat) (h : ¬ xs.sum < U64) :
    (sumU64 .debug xs : Outcome ε Nat) = .panic :=
  foldlM_addU64_debug xs 0 (by unfold U64; omega) (by omega)

theorem foldlM_addU64_release {ε : Type} (xs : List Nat) (a : Nat) (ha : a < U64) :
    xs.foldlM (fun acc x => (addU64 .release acc x : Outcome ε Nat)) a = .ok ((a + xs.sum) % U64) := by
  induction xs generalizing a with
  | nil => simp [Nat.mod_eq_of_lt ha]
  | cons x xs ih =>
    simp only [List.foldlM_cons, List.sum_cons]
    rw [addU64_release, Outcome.bind_ok, ih _ (Nat.mod_lt _ (by unfold U64; omega)), Nat.mod_add_mod,
      Nat.add_assoc]

theorem sumU64_release {ε : Type} (xs : List Nat) :
    (sumU64 .release xs : Outcome ε Nat) = .ok (xs.sum % U64) := by
  unfold sumU64; rw [foldlM_addU64_release xs 0 (by unfold U64; omega)]; simp

@[simp] theorem totalVal_nil : totalVal ([] : List (UTXO (ZMod p) G)) = 0 := rfl

theorem totalVal_cons (u : UTXO (ZMod p) G) (us : List (UTXO (ZMod p) G)) :
    totalVal (u :: us) = (if u.isDummy then 0 else u.amount.val) + totalVal us := by
  simp [totalVal]

theorem foldl_add_select [NeZero p] (us : List (UTXO (ZMod p) G)) (s : ZMod p) :
    us.foldl (fun s i => s + Circuit.select i.isDummy 0 i.amount) s = s + (totalVal us : Nat) := by
  induction us generalizing s with
  | nil => simp
  | cons u us ih =>
    simp only [List.foldl_cons, ih, totalVal_cons]
    cases h : u.isDummy
    · simp [Circuit.select]; ring
    · simp [Circuit.select]

theorem foldl_sub_select [NeZero p] (us : List (UTXO (ZMod p) G)) (s : ZMod p) :
    us.foldl (fun s i => s - Circuit.select i.isDummy 0 i.amount) s = s - (totalVal us : Nat) := by
  induction us generalizing s with
  | nil => simp
  | cons u us ih =>
    simp only [List.foldl_cons, ih, totalVal_cons]
    cases h : u.isDummy
    · simp [Circuit.select]; ring
    · simp [Circuit.select]

/-- Field form of `enforce_valid`. -/
theorem enforceValid_iff [NeZero p] (t : Tx (ZMod p) G) (s : G) :
    t.enforceValid s ↔ (∀ i ∈ t.inputs.toList, i.isDummy = false → i.pk = s) ∧
      ((totalVal t.inputs.toList : Nat) : ZMod p) = (totalVal t.outputs.toList : Nat) := by
  unfold Tx.enforceValid
  simp only [foldl_add_select, foldl_sub_select, Circuit.condEq, zero_add, sub_eq_zero,
    Bool.not_eq_true']

theorem totalVal_lt (us : List (UTXO (ZMod p) G)) (B : Nat) (hB : 0 < B) (hne : us ≠ [])
    (h : ∀ u ∈ us, u.isDummy = false → u.amount.val < B) : totalVal us < us.length * B := by
  induction us with
  | nil => exact absurd rfl hne
  | cons u us ih =>
    rw [totalVal_cons, List.length_cons]
    have h1 : (if u.isDummy then 0 else u.amount.val) < B := by
      cases hd : u.isDummy
      · simpa using h u (by simp) hd
      · simpa using hB
    by_cases hus : us = []
    · subst hus; simpa using h1
    · have := ih hus (fun v hv => h v (by simp [hv]))
      rw [Nat.add_mul]; omega

theorem totalVal_alloc (us : List (UTXO Nat G)) (h : ∀ u ∈ us, u.isDummy = false → u.amount < p) :
    totalVal (us.map (UTXO.alloc p)) = totalOf us := by
  induction us with
  | nil => rfl
  | cons u us ih =>
    rw [List.map_cons, totalVal_cons, totalOf_cons, ih (fun v hv => h v (by simp [hv]))]
    cases hd : u.isDummy
    · simp [UTXO.alloc, hd, ZMod.val_natCast, Nat.mod_eq_of_lt (h u (by simp) hd)]
    · simp [UTXO.alloc, hd]

theorem amount_le_totalOf {us : List (UTXO Nat G)} {u : UTXO Nat G} (hu : u ∈ us)
    (hd : u.isDummy = false) : u.amount ≤ totalOf us := by
  induction us with
  | nil => simp at hu
  | cons v us ih =>
    rw [totalOf_cons]
    rcases List.mem_cons.1 hu with rfl | h
    · simp [hd]
    · have := ih h; omega

theorem getSigner_fold [Zero G] (us : List (UTXO A G)) (s a : G)
    (h : ∀ i ∈ us, i.isDummy = false → i.pk = s) :
    us.foldl (fun pk i => Circuit.select i.isDummy pk i.pk) a =
      if ∃ i ∈ us, i.isDummy = false then s else a := by
  classical
  induction us generalizing a with
  | nil => simp
  | cons u us ih =>
    simp only [List.foldl_cons]
    rw [ih _ (fun i hi => h i (by simp [hi]))]
    by_cases h1 : ∃ i ∈ us, i.isDummy = false
    · rw [if_pos h1, if_pos (by obtain ⟨i, hi, hd⟩ := h1; exact ⟨i, by simp [hi], hd⟩)]
    · rw [if_neg h1]
      cases hd : u.isDummy
      · rw [if_pos ⟨u, by simp, hd⟩]
        simp [Circuit.select, h u (by simp) hd]
      · rw [if_neg]
        · simp [Circuit.select]
        · rintro ⟨i, hi, hid⟩
          rcases List.mem_cons.1 hi with rfl | hi
          · simp [hd] at hid
          · exact h1 ⟨i, hi, hid⟩

end PF
