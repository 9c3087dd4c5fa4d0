import Verif.Model.Schnorr
import Verif.Proof.Circuit
import Verif.Proof.Data
import Mathlib.Algebra.Module.ZMod

/-! Lemmas on `enforce_lt`, bits and Schnorr algebra. -/

namespace PF.Schnorr
open PF.Circuit
variable {p q : Nat}

/-- Value of little-endian digits in base `B`. -/
def digitsVal (B : Nat) : List Nat → Nat
  | [] => 0
  | d :: t => d + B * digitsVal B t

theorem bitsVal_append (a b : List Bool) : bitsVal (a ++ b) = bitsVal a + 2 ^ a.length * bitsVal b := by
  induction a with
  | nil => simp [bitsVal]
  | cons x t ih =>
    simp only [List.cons_append, bitsVal, List.length_cons, ih, pow_succ]
    ring

theorem chunks_vals (w : Nat) (x : List Bool) :
    digitsVal (2 ^ (w + 1)) ((chunks w x).map bitsVal) = bitsVal x := by
  induction x using chunks.induct (w := w) with
  | case1 => simp [chunks, digitsVal, bitsVal]
  | case2 a t ih =>
    rw [chunks, List.map_cons, digitsVal, ih]
    by_cases h : w ≤ t.length
    · have : bitsVal (a :: t) = bitsVal ((a :: t.take w) ++ t.drop w) := by
        rw [List.cons_append, List.take_append_drop]
      rw [this, bitsVal_append]
      simp [Nat.min_eq_left h]
    · have h1 : t.take w = t := List.take_of_length_le (by omega)
      have h2 : t.drop w = [] := List.drop_of_length_le (by omega)
      rw [h1, h2]; simp [bitsVal]

theorem chunks_lt (w : Nat) (x : List Bool) : ∀ c ∈ chunks w x, bitsVal c < 2 ^ (w + 1) := by
  induction x using chunks.induct (w := w) with
  | case1 => simp [chunks]
  | case2 a t ih =>
    rw [chunks]
    intro c hc
    rcases List.mem_cons.1 hc with rfl | h
    · refine lt_of_lt_of_le (bitsVal_lt _) (Nat.pow_le_pow_right (by omega) ?_)
      simp
    · exact ih c h

theorem chunks_length_le (w : Nat) (x : List Bool) : (chunks w x).length ≤ x.length := by
  induction x using chunks.induct (w := w) with
  | case1 => simp [chunks]
  | case2 a t ih =>
    rw [chunks]; simp at ih ⊢; omega

/-- The loop of `enforce_lt` once one helper bit has been set. -/
theorem ltLoop_one (hp : 1 < p) (ps : List (Nat × Nat)) (B : Nat) (hB : B ≤ p)
    (hlt : ∀ e ∈ ps, e.1 < B ∧ e.2 < B) (bs : List Bool) (hl : bs.length = ps.length)
    (c : ZMod p) (k : ZMod p → ZMod p → Prop) (n : Nat) (hn : 1 ≤ n) (hlen : n + ps.length < p)
    (hk : ∀ c r, k c r → r = 1)
    (h : ltLoop bs (ps.map fun e => ((e.2 : ZMod p) - (e.1 : ZMod p))) c (n : ZMod p) k) :
    n = 1 ∧ (∀ e ∈ ps, e.1 = e.2) ∧ k c 1 := by
  induction ps generalizing bs c n with
  | nil =>
    have : bs = [] := by simpa using hl
    subst this
    simp only [ltLoop] at h
    have h1 := hk _ _ h
    have h2 : n = 1 := natCast_inj_of_lt (p := p) (by simp at hlen; omega) hp (by simpa using h1)
    subst h2
    exact ⟨rfl, by simp, by simpa using h⟩
  | cons e ps ih =>
    cases bs with
    | nil => simp at hl
    | cons b bs =>
      simp only [List.map_cons, ltLoop] at h
      obtain ⟨h1, h2⟩ := h
      simp only [List.length_cons] at hlen hl
      have hb : ((n : ZMod p) + boolF b) = ((n + b.toNat : Nat) : ZMod p) := by
        cases b <;> simp [boolF]
      rw [hb] at h2
      have hbt := Bool.toNat_le b
      obtain ⟨h3, h4, h5⟩ := ih (fun e he => hlt e (by simp [he])) bs (by omega) _ (n + b.toNat)
        (by omega) (by omega) h2
      have hb0 : b = false := by cases b <;> simp_all
      have hn1 : n = 1 := by omega
      subst hb0; subst hn1
      have he : e.1 = e.2 := by
        have := hlt e (by simp)
        rw [Nat.cast_one, one_mul, sub_eq_zero] at h1
        exact (natCast_inj_of_lt (by omega) (by omega) h1).symm
      refine ⟨rfl, ?_, by simpa [select] using h5⟩
      intro e' he'
      rcases List.mem_cons.1 he' with rfl | h
      · exact he
      · exact h4 e' h

theorem ltLoop_one_complete (ps : List (Nat × Nat)) (heq : ∀ e ∈ ps, e.1 = e.2) (c r : ZMod p)
    (k : ZMod p → ZMod p → Prop) (hk : k c r) :
    ltLoop (List.replicate ps.length false) (ps.map fun e => ((e.2 : ZMod p) - (e.1 : ZMod p))) c r k := by
  induction ps with
  | nil => simpa [ltLoop] using hk
  | cons e ps ih =>
    simp only [List.length_cons, List.replicate_succ, List.map_cons, ltLoop, select, boolF,
      Bool.false_eq_true, if_false, add_zero]
    refine ⟨by rw [heq e (by simp)]; simp, ih (fun e he => heq e (by simp [he]))⟩

theorem digits_eq_of_all (B : Nat) (ps : List (Nat × Nat)) (h : ∀ e ∈ ps, e.1 = e.2) :
    digitsVal B (ps.map (·.1)) = digitsVal B (ps.map (·.2)) := by
  congr 1
  exact List.map_congr_left h

theorem digits_inj (W : Nat) (ps : List (Nat × Nat))
    (hlt : ∀ e ∈ ps, e.1 < 2 ^ W ∧ e.2 < 2 ^ W)
    (hc : digitsVal (2 ^ W) (ps.map (·.1)) = digitsVal (2 ^ W) (ps.map (·.2))) :
    ∀ e ∈ ps, e.1 = e.2 := by
  have hpow : 0 < 2 ^ W := by positivity
  induction ps with
  | nil => simp
  | cons f ps ihp =>
    have hf := hlt f (by simp)
    simp only [List.map_cons, digitsVal] at hc
    have e1 : f.1 = f.2 := by
      have := congrArg (· % 2 ^ W) hc
      simp only [Nat.add_mul_mod_self_left] at this
      rwa [Nat.mod_eq_of_lt hf.1, Nat.mod_eq_of_lt hf.2] at this
    have e2 : digitsVal (2 ^ W) (ps.map (·.1)) = digitsVal (2 ^ W) (ps.map (·.2)) := by
      rw [e1] at hc
      exact Nat.eq_of_mul_eq_mul_left hpow (Nat.add_left_cancel hc)
    intro e he
    rcases List.mem_cons.1 he with rfl | h
    · exact e1
    · exact ihp (fun e he => hlt e (by simp [he])) e2 e h

/-- `enforce_lt` on digits. -/
theorem ltLoop_iff (W : Nat) (hW : 2 ^ (W + 1) ≤ p) (ps : List (Nat × Nat))
    (hlt : ∀ e ∈ ps, e.1 < 2 ^ W ∧ e.2 < 2 ^ W) (hlen : ps.length < p) :
    (∃ helper bits : List Bool, helper.length = ps.length ∧ bits.length = W ∧
      ltLoop helper (ps.map fun e => ((e.2 : ZMod p) - (e.1 : ZMod p))) 0 0
        (fun c r => (bitsVal bits : ZMod p) = c - 1 ∧ r = 1)) ↔
    digitsVal (2 ^ W) (ps.map (·.1)) < digitsVal (2 ^ W) (ps.map (·.2)) := by
  have hpow : 0 < 2 ^ W := Nat.pos_of_ne_zero (by positivity)
  have hp : 1 < p := by rw [pow_succ] at hW; omega
  induction ps with
  | nil =>
    simp only [List.map_nil, digitsVal, lt_irrefl, iff_false]
    rintro ⟨helper, bits, _, _, h⟩
    have h2 : ((fun c r => (bitsVal bits : ZMod p) = c - 1 ∧ r = 1) : ZMod p → ZMod p → Prop) 0 0 := by
      cases helper <;> simpa [ltLoop] using h
    exact zmod_one_ne_zero hp h2.2.symm
  | cons e ps ih =>
    have he := hlt e (by simp)
    have ih := ih (fun e he => hlt e (by simp [he])) (by simp at hlen; omega)
    simp only [List.length_cons] at hlen
    simp only [List.map_cons, digitsVal]
    rw [pow_succ] at hW
    constructor
    · rintro ⟨helper, bits, hl, hbl, h⟩
      cases helper with
      | nil => simp at hl
      | cons b bs =>
        simp only [List.map_cons, ltLoop] at h
        obtain ⟨-, h⟩ := h
        simp only [List.length_cons] at hl
        cases b with
        | false =>
          have := ih.1 ⟨bs, bits, by omega, hbl, by simpa [select, boolF] using h⟩
          have h1 : digitsVal (2 ^ W) (ps.map (·.1)) + 1 ≤ digitsVal (2 ^ W) (ps.map (·.2)) := this
          have := Nat.mul_le_mul_left (2 ^ W) h1
          rw [Nat.mul_add] at this
          omega
        | true =>
          simp only [select, boolF, if_true, zero_add] at h
          obtain ⟨-, h2, h3, -⟩ := ltLoop_one hp ps (2 ^ W) (by omega)
            (fun e he => hlt e (by simp [he])) bs (by omega) _
            (fun c r => (bitsVal bits : ZMod p) = c - 1 ∧ r = 1) 1 le_rfl (by omega)
            (fun c r hk => hk.2) (by simpa using h)
          rw [digits_eq_of_all _ ps h2]
          have hv := bitsVal_lt bits
          rw [hbl] at hv
          have : ((bitsVal bits + 1 + e.1 : Nat) : ZMod p) = (e.2 : Nat) := by
            push_cast; rw [h3]; ring
          have := natCast_inj_of_lt (by omega) (by omega) this
          omega
    · intro h
      rcases Nat.lt_trichotomy (digitsVal (2 ^ W) (ps.map (·.1))) (digitsVal (2 ^ W) (ps.map (·.2)))
        with hc | hc | hc
      · obtain ⟨helper, bits, h1, h2, h3⟩ := ih.2 hc
        exact ⟨false :: helper, bits, by simp [h1], h2, by simpa [ltLoop, select, boolF] using h3⟩
      · rw [hc] at h
        have hall := digits_inj W ps (fun e he => hlt e (by simp [he])) hc
        have hlt' : e.1 < e.2 := by omega
        refine ⟨true :: List.replicate ps.length false, natBits W (e.2 - e.1 - 1), by simp,
          natBits_length _ _, ?_⟩
        simp only [List.map_cons, ltLoop, select, boolF, if_true, zero_add, zero_mul, true_and]
        apply ltLoop_one_complete ps hall
        refine ⟨?_, rfl⟩
        rw [bitsVal_natBits, Nat.mod_eq_of_lt (by omega)]
        push_cast [Nat.cast_sub (show 1 ≤ e.2 - e.1 by omega), Nat.cast_sub hlt'.le]
        rfl
      · exfalso
        have := Nat.mul_le_mul_left (2 ^ W) (show _ + 1 ≤ _ from hc)
        rw [Nat.mul_add] at this
        omega

theorem digitsVal_append_zeros (B : Nat) (l : List Nat) (n : Nat) :
    digitsVal B (l ++ List.replicate n 0) = digitsVal B l := by
  induction l with
  | nil =>
    induction n with
    | zero => rfl
    | succ n ih => simp [List.replicate_succ, digitsVal] at ih ⊢; exact Or.inr ih
  | cons d t ih => simp [digitsVal, ih]

theorem range_getD (l : List Nat) (n : Nat) (h : l.length ≤ n) :
    (List.range n).map (fun i => l.getD i 0) = l ++ List.replicate (n - l.length) 0 := by
  apply List.ext_getElem
  · simp; omega
  · intro i h1 h2
    simp only [List.getElem_map, List.getElem_range, List.getD_eq_getElem?_getD]
    by_cases hi : i < l.length
    · simp [hi]
    · rw [List.getElem_append_right (by omega)]
      simp [hi]

/-- C28 core: `enforce_lt` is satisfiable exactly when the integer `x` is below `y`. -/
theorem enforceLt_iff (W : Nat) (hW1 : 1 ≤ W) (hW : 2 ^ (W + 1) ≤ p) (x y : List Bool)
    (hx : x.length < p) (hy : y.length < p) :
    enforceLt p W x y ↔ bitsVal x < bitsVal y := by
  obtain ⟨w, rfl⟩ : ∃ w, W = w + 1 := ⟨W - 1, by omega⟩
  set X := (chunks w x).map bitsVal with hX
  set Y := (chunks w y).map bitsVal with hY
  set n := max X.length Y.length with hn
  set ps := (List.range n).map fun i => (X.getD i 0, Y.getD i 0) with hps
  have hXl : ∀ i, X.getD i 0 < 2 ^ (w + 1) := by
    intro i
    rw [List.getD_eq_getElem?_getD]
    by_cases h : i < X.length
    · simp only [h, List.getElem?_eq_getElem, Option.getD_some]
      obtain ⟨c, hc, e⟩ := List.mem_map.1 (show X[i] ∈ (chunks w x).map bitsVal from List.getElem_mem h)
      rw [← e]; exact chunks_lt w x c hc
    · simp [h]
  have hYl : ∀ i, Y.getD i 0 < 2 ^ (w + 1) := by
    intro i
    rw [List.getD_eq_getElem?_getD]
    by_cases h : i < Y.length
    · simp only [h, List.getElem?_eq_getElem, Option.getD_some]
      obtain ⟨c, hc, e⟩ := List.mem_map.1 (show Y[i] ∈ (chunks w y).map bitsVal from List.getElem_mem h)
      rw [← e]; exact chunks_lt w y c hc
    · simp [h]
  have hnp : n < p := by
    have h1 := chunks_length_le w x
    have h2 := chunks_length_le w y
    simp [hn, hX, hY]; omega
  have hv1 : digitsVal (2 ^ (w + 1)) (ps.map (·.1)) = bitsVal x := by
    rw [hps, List.map_map]
    have : ((fun e : Nat × Nat => e.1) ∘ fun i => (X.getD i 0, Y.getD i 0)) = fun i => X.getD i 0 := rfl
    rw [this, range_getD X n (by omega), digitsVal_append_zeros, hX, chunks_vals]
  have hv2 : digitsVal (2 ^ (w + 1)) (ps.map (·.2)) = bitsVal y := by
    rw [hps, List.map_map]
    have : ((fun e : Nat × Nat => e.2) ∘ fun i => (X.getD i 0, Y.getD i 0)) = fun i => Y.getD i 0 := rfl
    rw [this, range_getD Y n (by omega), digitsVal_append_zeros, hY, chunks_vals]
  have hds : deltas (chunkVals p (w + 1) x) (chunkVals p (w + 1) y) =
      ps.map fun e => ((e.2 : ZMod p) - (e.1 : ZMod p)) := by
    unfold deltas chunkVals
    simp only [Nat.add_sub_cancel, List.length_map, hps, List.map_map, hn, hX, hY]
    apply List.map_congr_left
    intro i _
    simp only [Function.comp, List.getD_eq_getElem?_getD, List.getElem?_map]
    cases (chunks w x)[i]? <;> cases (chunks w y)[i]? <;> simp
  rw [← hv1, ← hv2, ← ltLoop_iff (p := p) (w + 1) hW ps ?_ (by simpa [hps] using hnp)]
  · unfold enforceLt
    simp only [hds, List.length_map]
  · intro e he
    obtain ⟨i, _, rfl⟩ := List.mem_map.1 he
    exact ⟨hXl i, hYl i⟩

/-! ### Signature algebra -/

variable {G : Type} [AddCommGroup G] [Module (ZMod q) G]

theorem pow_modBits_pred_le (hq : 0 < q) : 2 ^ (modBits q - 1) ≤ q := by
  have h : modBits q - 1 < Nat.size q := by
    have : 0 < Nat.size q := Nat.size_pos.2 hq
    unfold modBits; omega
  exact Nat.lt_size.1 h

theorem q_lt_pow_modBits : q < 2 ^ modBits q := Nat.lt_size_self q

theorem gen_smul_inj [Fact q.Prime] (cv : Curve p q G) {a b : ZMod q}
    (h : a • cv.gen = b • cv.gen) : a = b := by
  by_contra hne
  have h1 : (a - b) • cv.gen = 0 := by rw [sub_smul, h, sub_self]
  have h2 : a - b ≠ 0 := sub_ne_zero.2 hne
  have : cv.gen = 0 := by
    rw [← one_smul (ZMod q) cv.gen, ← inv_mul_cancel₀ h2, mul_smul, h1, smul_zero]
  exact cv.gen_ne this

theorem bitsVal_take (l : List Bool) (n : Nat) : bitsVal (l.take n) = bitsVal l % 2 ^ n := by
  induction l generalizing n with
  | nil => simp [bitsVal]
  | cons b t ih =>
    cases n with
    | zero => simp [bitsVal, Nat.mod_one]
    | succ n =>
      simp only [List.take_succ_cons, bitsVal, ih, pow_succ']
      rw [Nat.mod_mul]
      have h1 : (b.toNat + 2 * bitsVal t) / 2 = bitsVal t := by
        cases b
        · simp
        · simp; omega
      have h2 : (b.toNat + 2 * bitsVal t) % 2 = b.toNat := by cases b <;> simp
      rw [h1, h2]

theorem bitsVal_inj {a b : List Bool} (hl : a.length = b.length) (h : bitsVal a = bitsVal b) : a = b := by
  rw [← natBits_bitsVal a, ← natBits_bitsVal b, hl, h]

/-- Packed comparison of the first `len-1` bits plus Boolean comparison of the last bit is equality of
the bit strings. -/
theorem bits_cmp {len : Nat} (hlen : 1 ≤ len) (hlp : 2 ^ (len - 1) ≤ p) {a b : List Bool}
    (ha : a.length = len) (hb : b.length = len) :
    ((bitsVal (a.take (len - 1)) : ZMod p) = bitsVal (b.take (len - 1)) ∧ a[len - 1]? = b[len - 1]?) ↔
      a = b := by
  constructor
  · rintro ⟨h1, h2⟩
    have hv : ∀ l : List Bool, bitsVal (l.take (len - 1)) < 2 ^ (len - 1) := by
      intro l; rw [bitsVal_take]; exact Nat.mod_lt _ (by positivity)
    have h3 := natCast_inj_of_lt (lt_of_lt_of_le (hv a) hlp) (lt_of_lt_of_le (hv b) hlp) h1
    have h4 : a.take (len - 1) = b.take (len - 1) := bitsVal_inj (by simp [ha, hb]) h3
    apply List.ext_getElem? 
    intro i
    by_cases hi : i < len - 1
    · have := congrArg (·[i]?) h4
      simpa [List.getElem?_take, hi] using this
    · by_cases hi' : i = len - 1
      · rw [hi', h2]
      · rw [List.getElem?_eq_none (by omega), List.getElem?_eq_none (by omega)]
  · rintro rfl; exact ⟨rfl, rfl⟩

end PF.Schnorr
