import Verif.Proof.Schnorr
import Verif.Props.Data

/-!
# Properties C25–C30: Schnorr signatures and range gadgets
-/

namespace PF.Props
open PF PF.Circuit PF.Schnorr
variable {G : Type} {p q : Nat}

/-- Toy curve with base field 5 smaller than the scalar field 7, of equal bit size (as Grumpkin). -/
def toyCurve2 : Curve 5 7 (ZMod 7) :=
  { gen := 3
    gen_ne := by decide
    xy := fun P => if P = 0 then none else some ((P.val : ZMod 5), ((P.val / 5 : Nat) : ZMod 5))
    xy_none := by decide
    xy_inj := by decide }

/-- Toy sponge. -/
def toyH (p : Nat) : List (ZMod p) → ZMod p := fun l => l.foldl (fun a x => 3 * a + x + 5) 0

instance : Fact (Nat.Prime 7) := ⟨by decide⟩
instance : Fact (Nat.Prime 5) := ⟨by decide⟩
instance : Fact (Nat.Prime 101) := ⟨by decide⟩

section
variable [AddCommGroup G] [Module (ZMod q) G]

theorem fromBigint_some {h : Nat} {e : ZMod q} :
    fromBigint q h = some e ↔ h < q ∧ (h : ZMod q) = e := by
  unfold fromBigint; split <;> simp_all

/-! ## C25 -/

/-- C25: whatever nonces are sampled, a signature returned by `sign` verifies under the public key of
the secret key. -/
theorem C25_sign_verifies (cv : Curve p q G) (H : List (ZMod p) → ZMod p) (sk : ZMod q)
    (m : List (ZMod p)) (ks : List (ZMod q)) (sig : ZMod q × ZMod q)
    (h : sign cv H sk m ks = .ok (some sig)) :
    verify cv H (keyGen cv sk).2 m sig = true := by
  induction ks with
  | nil => simp [sign] at h
  | cons k ks ih =>
    simp only [sign] at h
    rcases hxy : cv.xy (k • cv.gen) with _ | ⟨x, y⟩
    · rw [hxy] at h; simp at h
    · rw [hxy] at h
      simp only [Outcome.unwrap_some, Outcome.bind_ok] at h
      rcases he : fromBigint q ((H ([x, y] ++ m)).val % 2 ^ (modBits q + 1)) with _ | e
      · rw [he] at h; exact ih h
      · rw [he] at h
        simp only [Outcome.ok.injEq, Option.some.injEq] at h
        subst h
        obtain ⟨h1, h2⟩ := fromBigint_some.1 he
        have hR : (k - sk * e) • cv.gen + e • (sk • cv.gen) = k • cv.gen := by
          rw [sub_smul, mul_comm sk e, mul_smul, sub_add_cancel]
        unfold verify keyGen
        simp only [hR, hxy, Option.getD_some, decide_eq_true_eq]
        rw [fromBigint_some]
        have hm : (H ([x, y] ++ m)).val % 2 ^ modBits q = (H ([x, y] ++ m)).val % 2 ^ (modBits q + 1) := by
          have hd : 2 ^ modBits q ∣ 2 ^ (modBits q + 1) := pow_dvd_pow 2 (by omega)
          rw [← Nat.mod_mod_of_dvd _ hd]
          exact Nat.mod_eq_of_lt (lt_trans h1 q_lt_pow_modBits)
        rw [hm]; exact ⟨h1, h2⟩

/-- C25: `sign` panics exactly on a zero nonce, and if the base field is not larger than the scalar
field (as for Grumpkin) the first non-zero nonce produces a signature. -/
theorem C25_sign_progress [Fact q.Prime] (cv : Curve p q G) (hp : 0 < p) (hpq : p ≤ q)
    (H : List (ZMod p) → ZMod p) (sk : ZMod q) (m : List (ZMod p)) (k : ZMod q) (ks : List (ZMod q)) :
    (k = 0 → sign cv H sk m (k :: ks) = .panic) ∧
    (k ≠ 0 → ∃ sig, sign cv H sk m (k :: ks) = .ok (some sig)) := by
  have hNZ : NeZero p := ⟨by omega⟩
  constructor
  · rintro rfl
    simp only [sign, zero_smul]
    rw [(cv.xy_none 0).2 rfl]; rfl
  · intro hk
    have hne : k • cv.gen ≠ 0 := by
      intro h; exact hk (gen_smul_inj cv (by rw [h, zero_smul]))
    rcases hxy : cv.xy (k • cv.gen) with _ | ⟨x, y⟩
    · exact absurd ((cv.xy_none _).1 hxy) hne
    · simp only [sign, hxy, Outcome.unwrap_some, Outcome.bind_ok]
      have hlt : (H ([x, y] ++ m)).val % 2 ^ (modBits q + 1) < q :=
        lt_of_le_of_lt (Nat.mod_le _ _) (lt_of_lt_of_le (ZMod.val_lt _) hpq)
      rw [fromBigint_some.2 ⟨hlt, rfl⟩]
      exact ⟨_, rfl⟩

example : sign toyCurve2 (toyH 5) 4 [1, 2] [2, 5] = .ok (some (5, 1)) ∧
    verify toyCurve2 (toyH 5) (keyGen toyCurve2 4).2 [1, 2] (5, 1) = true ∧
    verify toyCurve2 (toyH 5) (keyGen toyCurve2 4).2 [1, 3] (5, 1) = false ∧
    sign toyCurve2 (toyH 5) 4 [1, 2] [0] = .panic := by decide

/-- With a larger base field the loop really retries. -/
example : sign toyCurve (toyH 101) 4 [1, 2] [1] = .ok none ∧
    sign toyCurve (toyH 101) 4 [1, 2] [1, 4] = .ok (some (6, 3)) := by decide

/-! ## C26 -/

/-- C26: from two responses for the same commitment point `R` with different challenges, the secret
key is computed by a formula, and for every commitment, key and challenge there is exactly one
response. (The verifier recomputes `R = s·g + e·pk`.) -/
theorem C26_special_soundness [Fact q.Prime] (cv : Curve p q G) (pk R : G) (s e s' e' : ZMod q)
    (h : s • cv.gen + e • pk = R) (h' : s' • cv.gen + e' • pk = R) :
    (e ≠ e' → pk = ((s - s') / (e' - e)) • cv.gen ∧
      ∀ sk, pk = (keyGen cv sk).2 → sk = (s - s') / (e' - e)) ∧
    (e = e' → s = s') := by
  constructor
  · intro hne
    have hd : e' - e ≠ 0 := sub_ne_zero.2 (Ne.symm hne)
    have h1 : (s - s') • cv.gen = (e' - e) • pk := by
      have : s • cv.gen + e • pk = s' • cv.gen + e' • pk := by rw [h, h']
      rw [sub_smul, sub_smul]
      rw [sub_eq_sub_iff_add_eq_add, this, add_comm]
    have h2 : pk = ((s - s') / (e' - e)) • cv.gen := by
      rw [div_eq_inv_mul, mul_smul, h1, ← mul_smul, inv_mul_cancel₀ hd, one_smul]
    exact ⟨h2, fun sk hsk => gen_smul_inj cv (by rw [← h2]; exact hsk.symm)⟩
  · rintro rfl
    exact gen_smul_inj cv (by
      have : s • cv.gen + e • pk = s' • cv.gen + e • pk := by rw [h, h']
      exact add_right_cancel this)

/-- C26: two accepted signatures for one key and message with the same commitment are equal (the
challenge is a function of commitment and message). -/
theorem C26_unique_per_commitment [Fact q.Prime] (cv : Curve p q G) (H : List (ZMod p) → ZMod p)
    (pk : G) (m : List (ZMod p)) (s e s' e' : ZMod q)
    (h : verify cv H pk m (s, e) = true) (h' : verify cv H pk m (s', e') = true)
    (hR : s • cv.gen + e • pk = s' • cv.gen + e' • pk) : s = s' ∧ e = e' := by
  unfold verify at h h'
  simp only [decide_eq_true_eq] at h h'
  rw [hR] at h
  have he : e = e' := Option.some.inj (h.symm.trans h')
  subst he
  exact ⟨(C26_special_soundness cv pk _ s e s' e hR rfl).2 rfl, rfl⟩

/-- Non-vacuity: two accepting transcripts (under two hash functions) sharing a commitment. -/
example : let pk : ZMod 7 := (keyGen toyCurve2 4).2
    (6 : ZMod 7) • toyCurve2.gen + (2 : ZMod 7) • pk = 0 ∧
    (3 : ZMod 7) • toyCurve2.gen + (1 : ZMod 7) • pk = 0 ∧
    (2 : ZMod 7) ≠ 1 := by decide

/-! ## C28 -/

omit [AddCommGroup G] [Module (ZMod q) G] in
/-- C28: `enforce_lt` with word size `W` is satisfiable (for some helper bits) exactly when the integer
denoted by `x` is smaller than the one denoted by `y`, for bit strings of any lengths, in any field
of at least `2^(W+1)` elements. -/
theorem C28_enforce_lt_iff (W : Nat) (hW1 : 1 ≤ W) (hW : 2 ^ (W + 1) ≤ p) (x y : List Bool)
    (hx : x.length < p) (hy : y.length < p) :
    enforceLt p W x y ↔ bitsVal x < bitsVal y :=
  enforceLt_iff W hW1 hW x y hx hy

example : (1 : Nat) ≤ 2 ∧ 2 ^ (2 + 1) ≤ 101 ∧
    bitsVal [true, true, false, true, false] < bitsVal [false, false, true, true] := by decide

/-! ## C29 -/

omit [AddCommGroup G] [Module (ZMod q) G] in
/-- C29: `to_n_bits(n)` is satisfiable exactly when the canonical value is below `2^n`, and then the
bits are determined: the binary expansion. -/
theorem C29_to_n_bits (hp : 1 < p) (x : ZMod p) (n : Nat) :
    ((∃ bits, toNBits x n bits) ↔ x.val < 2 ^ n) ∧
    ∀ bits, toNBits x n bits → bits = natBits n x.val ∧ bitsVal bits = x.val := by
  have hNZ : NeZero p := ⟨by omega⟩
  have key : ∀ bits, toNBits x n bits → bitsVal bits = x.val := by
    rintro bits ⟨h1, h2, h3⟩
    have hb : bitsVal bits < p := by
      by_cases hn : modBits p ≤ n
      · exact h2 hn
      · refine lt_of_lt_of_le (bitsVal_lt bits) ?_
        rw [h1]
        exact le_trans (Nat.pow_le_pow_right (by omega) (by omega)) (pow_modBits_pred_le (by omega))
    rw [← h3, ZMod.val_natCast, Nat.mod_eq_of_lt hb]
  refine ⟨⟨?_, ?_⟩, ?_⟩
  · rintro ⟨bits, h⟩
    rw [← key bits h, ← h.1]; exact bitsVal_lt bits
  · intro h
    refine ⟨natBits n x.val, natBits_length _ _, fun _ => ?_, ?_⟩
    · rw [bitsVal_natBits, Nat.mod_eq_of_lt h]; exact ZMod.val_lt x
    · rw [bitsVal_natBits, Nat.mod_eq_of_lt h, ZMod.natCast_zmod_val]
  · intro bits h
    refine ⟨?_, key bits h⟩
    rw [← key bits h, ← h.1, natBits_bitsVal]

example : toNBits (11 : ZMod 101) 4 [true, true, false, true] ∧ ¬ (17 : ZMod 101).val < 2 ^ 4 := by
  unfold toNBits; decide

/-! ## C27 -/

omit [Module (ZMod q) G] in
theorem nsmul_eq_cast [Module (ZMod q) G] (n : Nat) (P : G) : n • P = (n : ZMod q) • P :=
  (Nat.cast_smul_eq_nsmul (ZMod q) n P).symm

theorem pkEncVar_dropLast (cv : Curve p q G) (P : G) :
    (pkEncVar cv P).dropLast = [((cv.xy P).getD (0, 0)).1, ((cv.xy P).getD (0, 0)).2] := rfl

/-- Integer value of the challenge bits computed in the circuit: the native truncated digest. -/
theorem challenge_val (cv : Curve p q G) (H : List (ZMod p) → ZMod p) (hp : 0 < p) (pk : G)
    (m : List (ZMod p)) (s e : List Bool) :
    bitsVal (challengeBits cv H pk m s e) =
      (H ([((cv.xy ((bitsVal s : ZMod q) • cv.gen + (bitsVal e : ZMod q) • pk)).getD (0, 0)).1,
        ((cv.xy ((bitsVal s : ZMod q) • cv.gen + (bitsVal e : ZMod q) • pk)).getD (0, 0)).2] ++ m)).val
        % 2 ^ modBits q := by
  unfold challengeBits
  simp only [pkEncVar_dropLast, nsmul_eq_cast (q := q)]
  rw [bitsVal_take, bitsVal_toBitsLe hp]

theorem challenge_length (cv : Curve p q G) (H : List (ZMod p) → ZMod p)
    (hb : modBits q ≤ modBits p) (pk : G) (m : List (ZMod p)) (s e : List Bool) :
    (challengeBits cv H pk m s e).length = modBits q := by
  unfold challengeBits
  simp only [List.length_take, toBitsLe_length]; omega

/-- C27: for arbitrary witness bit strings of the allocated length, `SchnorrGadget::verify` is
satisfiable exactly when `e` is canonical and the native verifier accepts the scalars the strings
denote. -/
theorem C27_verify_gadget_iff (cv : Curve p q G) (H : List (ZMod p) → ZMod p) (W : Nat)
    (hW1 : 1 ≤ W) (hW : 2 ^ (W + 1) ≤ p) (hq : 0 < q) (hb : modBits q ≤ modBits p)
    (hbp : modBits q < p) (pk : G) (m : List (ZMod p)) (s e : List Bool)
    (he : e.length = modBits q) :
    verifyGadget W cv H pk m s e ↔
      bitsVal e < q ∧ verify cv H pk m ((bitsVal s : ZMod q), (bitsVal e : ZMod q)) = true := by
  have hp : 0 < p := by omega
  have hlen : 1 ≤ modBits q := Nat.size_pos.2 hq
  have hlp : 2 ^ (modBits q - 1) ≤ p :=
    le_trans (Nat.pow_le_pow_right (by omega) (by omega)) (pow_modBits_pred_le hp)
  have hcl := challenge_length cv H hb pk m s e
  unfold verifyGadget
  simp only
  rw [enforceLt_iff W hW1 hW _ _ (by omega) (by rw [natBits_length]; omega), bitsVal_natBits,
    Nat.mod_eq_of_lt q_lt_pow_modBits, bits_cmp hlen hlp hcl he]
  unfold verify
  simp only [decide_eq_true_eq]
  rw [fromBigint_some, ← challenge_val cv H hp]
  constructor
  · rintro ⟨h1, h2⟩
    rw [h2] at h1
    refine ⟨h1, ?_, ?_⟩ <;> rw [h2]
    exact h1
  · rintro ⟨h1, h2, h3⟩
    exact ⟨h2, bitsVal_inj (by rw [hcl, he]) (natCast_inj_of_lt h2 h1 h3)⟩

/-- C27: `SchnorrGadget::is_valid` outputs the truth value of the native verification (conjoined with
canonicity of `e`), and its constraints are satisfiable exactly when the truncated digest is below
the scalar modulus, so always when the base field is not larger. -/
theorem C27_is_valid_gadget (cv : Curve p q G) (H : List (ZMod p) → ZMod p) (W : Nat)
    (hW1 : 1 ≤ W) (hW : 2 ^ (W + 1) ≤ p) (hq : 0 < q) (hb : modBits q ≤ modBits p)
    (hbp : modBits q < p) (pk : G) (m : List (ZMod p)) (s e : List Bool)
    (he : e.length = modBits q) :
    (∀ out, isValidGadget W cv H pk m s e out →
      (out = true ↔ bitsVal e < q ∧
        verify cv H pk m ((bitsVal s : ZMod q), (bitsVal e : ZMod q)) = true)) ∧
    (p ≤ q → ∃ out, isValidGadget W cv H pk m s e out) := by
  have hp : 0 < p := by omega
  have hNZ : NeZero p := ⟨by omega⟩
  constructor
  · rintro out ⟨h1, rfl⟩
    rw [← C27_verify_gadget_iff cv H W hW1 hW hq hb hbp pk m s e he]
    unfold verifyGadget
    simp only [Bool.and_eq_true, decide_eq_true_eq]
    tauto
  · intro hpq
    refine ⟨_, ?_, rfl⟩
    rw [enforceLt_iff W hW1 hW _ _ (by rw [challenge_length cv H hb]; omega)
      (by rw [natBits_length]; omega), bitsVal_natBits, Nat.mod_eq_of_lt q_lt_pow_modBits,
      challenge_val cv H hp]
    exact lt_of_le_of_lt (Nat.mod_le _ _) (lt_of_lt_of_le (ZMod.val_lt _) hpq)

/-- C27: on allocated native signatures (always canonical) the output is the native result. -/
theorem C27_allocated_signatures (cv : Curve p q G) (H : List (ZMod p) → ZMod p) (W : Nat)
    (hW1 : 1 ≤ W) (hW : 2 ^ (W + 1) ≤ p) (hq : 0 < q) (hb : modBits q ≤ modBits p)
    (hbp : modBits q < p) (pk : G) (m : List (ZMod p)) (sig : ZMod q × ZMod q) :
    (verifyGadget W cv H pk m (allocSig sig).1 (allocSig sig).2 ↔ verify cv H pk m sig = true) ∧
    ∀ out, isValidGadget W cv H pk m (allocSig sig).1 (allocSig sig).2 out →
      out = verify cv H pk m sig := by
  have hNZ : NeZero q := ⟨by omega⟩
  have hv : ∀ x : ZMod q, bitsVal (natBits (modBits q) x.val) = x.val := by
    intro x
    rw [bitsVal_natBits, Nat.mod_eq_of_lt (lt_two_pow_modBits hq x)]
  have hl : (allocSig sig).2.length = modBits q := natBits_length _ _
  have hs : ((bitsVal (allocSig sig).1 : ZMod q), (bitsVal (allocSig sig).2 : ZMod q)) = sig := by
    simp only [allocSig, hv, ZMod.natCast_zmod_val]
  have he : bitsVal (allocSig sig).2 < q := by
    simp only [allocSig, hv]; exact ZMod.val_lt _
  constructor
  · rw [C27_verify_gadget_iff cv H W hW1 hW hq hb hbp pk m _ _ hl, hs]
    simp [he]
  · intro out h
    have := (C27_is_valid_gadget cv H W hW1 hW hq hb hbp pk m _ _ hl).1 out h
    rw [hs] at this
    simp only [he, true_and] at this
    exact Bool.eq_iff_iff.2 this

example : (1 : Nat) ≤ 1 ∧ 2 ^ (1 + 1) ≤ 5 ∧ modBits 7 ≤ modBits 5 ∧ modBits 7 < 5 ∧ 5 ≤ 7 ∧
    verify toyCurve2 (toyH 5) (keyGen toyCurve2 4).2 [1, 2] (5, 1) = true := by decide

/-! ## C30 -/

/-- C30: exactly which signatures are accepted under the identity key: `s` is free and `e` is the
challenge of `s • G`; no secret enters. -/
theorem C30_zero_key_exact (cv : Curve p q G) (H : List (ZMod p) → ZMod p)
    (m : List (ZMod p)) (s e : ZMod q) :
    verify cv H (0 : G) m (s, e) = true ↔
      fromBigint q ((H ([((cv.xy (s • cv.gen)).getD (0, 0)).1,
        ((cv.xy (s • cv.gen)).getD (0, 0)).2] ++ m)).val % 2 ^ modBits q) = some e := by
  unfold verify
  simp only [smul_zero, add_zero, decide_eq_true_eq]

/-- C30, forgery: if the base field is not larger than the scalar field, for every message
and every scalar `s` there is a signature `(s, e)` accepted under the identity key; no secret is
involved. -/
theorem C30_zero_key_forgery (cv : Curve p q G) (hp : 0 < p) (hpq : p ≤ q)
    (H : List (ZMod p) → ZMod p) (m : List (ZMod p)) (s : ZMod q) :
    ∃ e, verify cv H (0 : G) m (s, e) = true := by
  have hNZ : NeZero p := ⟨by omega⟩
  refine ⟨_, (C30_zero_key_exact cv H m s _).2 (fromBigint_some.2 ⟨?_, rfl⟩)⟩
  exact lt_of_le_of_lt (Nat.mod_le _ _) (lt_of_lt_of_le (ZMod.val_lt _) hpq)

example : verify toyCurve2 (toyH 5) 0 [1, 2] (6, 3) = true := by decide

end

end PF.Props
