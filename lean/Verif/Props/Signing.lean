import Verif.Spec.Signing
import Verif.Props.Schnorr
import Verif.Props.SignatureBinding

/-!
# C118: signing, nonce by nonce
-/
set_option linter.unusedSectionVars false
namespace PF.Props
open PF PF.Circuit PF.Schnorr PF.Spec
variable {p q : Nat} {G : Type} [AddCommGroup G] [Module (ZMod q) G]

theorem sign_head [Fact q.Prime] (cv : Curve p q G) (H : List (ZMod p) → ZMod p) (sk : ZMod q)
    (m : List (ZMod p)) (k : ZMod q) (ks : List (ZMod q)) :
    (k = 0 ∧ sign cv H sk m (k :: ks) = .panic) ∨
    (k ≠ 0 ∧ Drops cv H m k ∧ sign cv H sk m (k :: ks) = sign cv H sk m ks) ∨
    (∃ e, k ≠ 0 ∧ Uses cv H m k e ∧ sign cv H sk m (k :: ks) = .ok (some (k - sk * e, e))) := by
  by_cases hk : k = 0
  · left
    subst hk
    refine ⟨rfl, ?_⟩
    simp only [sign, zero_smul]
    rw [(cv.xy_none 0).2 rfl]; rfl
  · right
    have hne : k • cv.gen ≠ 0 := by
      intro h; exact hk (gen_smul_inj cv (by rw [h, zero_smul]))
    rcases hxy : cv.xy (k • cv.gen) with _ | ⟨x, y⟩
    · exact absurd ((cv.xy_none _).1 hxy) hne
    · by_cases hlt : (H ([x, y] ++ m)).val % 2 ^ (Nat.size q + 1) < q
      · right
        refine ⟨_, hk, ⟨x, y, hxy, hlt, rfl⟩, ?_⟩
        have hlt' : (H ([x, y] ++ m)).val % 2 ^ (modBits q + 1) < q := hlt
        simp only [sign, hxy, Outcome.unwrap_some, Outcome.bind_ok]
        rw [fromBigint_some.2 ⟨hlt', rfl⟩]
        rfl
      · left
        refine ⟨hk, ⟨x, y, hxy, Nat.le_of_not_lt hlt⟩, ?_⟩
        have hn : fromBigint q ((H ([x, y] ++ m)).val % 2 ^ (modBits q + 1)) = none := by
          unfold fromBigint
          split
          · next h => exact absurd h hlt
          · rfl
        simp only [sign, hxy, Outcome.unwrap_some, Outcome.bind_ok]
        rw [hn]

theorem uses_unique {cv : Curve p q G} {H : List (ZMod p) → ZMod p} {m : List (ZMod p)} {k e e' : ZMod q}
    (h : Uses cv H m k e) (h' : Uses cv H m k e') : e = e' := by
  obtain ⟨x, y, h1, _, h3⟩ := h
  obtain ⟨x', y', g1, _, g3⟩ := h'
  rw [h1] at g1
  cases g1
  rw [h3, g3]

theorem uses_drops {cv : Curve p q G} {H : List (ZMod p) → ZMod p} {m : List (ZMod p)} {k e : ZMod q}
    (h : Uses cv H m k e) (h' : Drops cv H m k) : False := by
  obtain ⟨x, y, h1, h2, _⟩ := h
  obtain ⟨x', y', g1, g2⟩ := h'
  rw [h1] at g1
  cases g1
  omega

theorem drops_ne {cv : Curve p q G} {H : List (ZMod p) → ZMod p} {m : List (ZMod p)} {k : ZMod q}
    (h : Drops cv H m k) : k ≠ 0 := by
  rintro rfl
  obtain ⟨x, y, h1, _⟩ := h
  rw [zero_smul, (cv.xy_none 0).2 rfl] at h1
  cases h1

theorem uses_ne {cv : Curve p q G} {H : List (ZMod p) → ZMod p} {m : List (ZMod p)} {k e : ZMod q}
    (h : Uses cv H m k e) : k ≠ 0 := by
  rintro rfl
  obtain ⟨x, y, h1, _⟩ := h
  rw [zero_smul, (cv.xy_none 0).2 rfl] at h1
  cases h1

/-- C118: `sign` returns `(s, e)` exactly if, after dropped nonces, a sampled nonce `k` is used with challenge
`e`, and `s = k - sk·e`; it goes on sampling exactly if all nonces were dropped; it panics exactly if it
samples zero after dropped nonces only. Which nonce is used does not depend on the secret key. -/
theorem C118_exact [Fact q.Prime] (cv : Curve p q G) (H : List (ZMod p) → ZMod p) (sk : ZMod q)
    (m : List (ZMod p)) (ks : List (ZMod q)) :
    (∀ s e, sign cv H sk m ks = .ok (some (s, e)) ↔
      ∃ pre k post, ks = pre ++ k :: post ∧ (∀ x ∈ pre, Drops cv H m x) ∧ Uses cv H m k e ∧ s = k - sk * e) ∧
    (sign cv H sk m ks = .ok none ↔ ∀ k ∈ ks, Drops cv H m k) ∧
    (sign cv H sk m ks = .panic ↔ ∃ pre post, ks = pre ++ 0 :: post ∧ ∀ x ∈ pre, Drops cv H m x) := by
  induction ks with
  | nil => simp [sign]
  | cons k ks ih =>
    obtain ⟨ih1, ih2, ih3⟩ := ih
    rcases sign_head cv H sk m k ks with ⟨hk, hs⟩ | ⟨hk, hd, hs⟩ | ⟨e, hk, hu, hs⟩
    · rw [hs]
      subst hk
      refine ⟨fun s e => ⟨fun h => (by cases h), ?_⟩, ⟨fun h => (by cases h), fun h => ?_⟩,
        ⟨fun _ => ⟨[], ks, rfl, by simp⟩, fun _ => rfl⟩⟩
      · rintro ⟨pre, k', post, e1, e2, e3, -⟩
        rcases pre with _ | ⟨a, pre⟩
        · simp only [List.nil_append, List.cons.injEq] at e1
          exact absurd e1.1.symm (uses_ne e3)
        · simp only [List.cons_append, List.cons.injEq] at e1
          exact absurd e1.1.symm (drops_ne (e2 a (by simp)))
      · exact absurd rfl (drops_ne (h 0 (by simp)))
    · rw [hs]
      refine ⟨fun s e => ?_, ?_, ?_⟩
      · rw [ih1]
        constructor
        · rintro ⟨pre, k', post, e1, e2, e3⟩
          exact ⟨k :: pre, k', post, by rw [e1]; rfl, List.forall_mem_cons.2 ⟨hd, e2⟩, e3⟩
        · rintro ⟨pre, k', post, e1, e2, e3, e4⟩
          rcases pre with _ | ⟨a, pre⟩
          · simp only [List.nil_append, List.cons.injEq] at e1
            rw [← e1.1] at e3
            exact (uses_drops e3 hd).elim
          · simp only [List.cons_append, List.cons.injEq] at e1
            exact ⟨pre, k', post, e1.2, (List.forall_mem_cons.1 e2).2, e3, e4⟩
      · rw [ih2]; simp [hd]
      · rw [ih3]
        constructor
        · rintro ⟨pre, post, e1, e2⟩
          exact ⟨k :: pre, post, by rw [e1]; rfl, List.forall_mem_cons.2 ⟨hd, e2⟩⟩
        · rintro ⟨pre, post, e1, e2⟩
          rcases pre with _ | ⟨a, pre⟩
          · simp only [List.nil_append, List.cons.injEq] at e1
            exact absurd e1.1 hk
          · simp only [List.cons_append, List.cons.injEq] at e1
            exact ⟨pre, post, e1.2, (List.forall_mem_cons.1 e2).2⟩
    · rw [hs]
      refine ⟨fun s e' => ?_, ⟨fun h => (by simp at h), fun h => ?_⟩, ⟨fun h => (by cases h), ?_⟩⟩
      · constructor
        · intro h
          simp only [Outcome.ok.injEq, Option.some.injEq, Prod.mk.injEq] at h
          exact ⟨[], k, ks, rfl, by simp, by rw [← h.2]; exact hu, by rw [← h.1, ← h.2]⟩
        · rintro ⟨pre, k', post, e1, e2, e3, e4⟩
          rcases pre with _ | ⟨a, pre⟩
          · simp only [List.nil_append, List.cons.injEq] at e1
            rw [← e1.1] at e3 e4
            rw [e4, uses_unique hu e3]
          · simp only [List.cons_append, List.cons.injEq] at e1
            have := e2 a (by simp)
            rw [← e1.1] at this
            exact (uses_drops hu this).elim
      · exact (uses_drops hu (h k (by simp))).elim
      · rintro ⟨pre, post, e1, e2⟩
        rcases pre with _ | ⟨a, pre⟩
        · simp only [List.nil_append, List.cons.injEq] at e1
          exact absurd e1.1 hk
        · simp only [List.cons_append, List.cons.injEq] at e1
          have := e2 a (by simp)
          rw [← e1.1] at this
          exact (uses_drops hu this).elim

/-- The nonces 1 and 3 are dropped and 4 is used; 2 behind it is not looked at. All three answers occur. -/
example : sign toyCurve (toyH 101) 4 [1, 2] [1, 3, 4, 2] = .ok (some (6, 3)) ∧
    sign toyCurve (toyH 101) 4 [1, 2] [1, 3] = .ok none ∧
    sign toyCurve (toyH 101) 4 [1, 2] [1, 3, 0, 4] = .panic := by decide

/-- C118: whether a signature is returned, and its challenge, do not depend on the secret key. -/
theorem C118_key_independent [Fact q.Prime] (cv : Curve p q G) (H : List (ZMod p) → ZMod p) (sk sk' : ZMod q)
    (m : List (ZMod p)) (ks : List (ZMod q)) (s e : ZMod q) (h : sign cv H sk m ks = .ok (some (s, e))) :
    sign cv H sk' m ks = .ok (some (s + sk * e - sk' * e, e)) := by
  rw [(C118_exact cv H sk m ks).1] at h
  rw [(C118_exact cv H sk' m ks).1]
  obtain ⟨pre, k, post, h1, h2, h3, rfl⟩ := h
  exact ⟨pre, k, post, h1, h2, h3, by ring⟩

example : sign toyCurve (toyH 101) 4 [2, 3] [1, 3] = .ok (some (6, 1)) ∧
    sign toyCurve (toyH 101) 3 [2, 3] [1, 3] = .ok (some (6 + 4 * 1 - 3 * 1, 1)) := by decide

/-- C118: if one nonce is used for two messages under one key, the two signatures reveal the secret key, unless
the two messages have the same challenge, which for different messages is a collision of the cut hash on
two explicit inputs. -/
theorem C118_nonce_reuse [Fact q.Prime] (cv : Curve p q G) (H : List (ZMod p) → ZMod p) (sk k : ZMod q)
    (m m' : List (ZMod p)) (s e s' e' : ZMod q) (h : sign cv H sk m [k] = .ok (some (s, e)))
    (h' : sign cv H sk m' [k] = .ok (some (s', e'))) :
    (e ≠ e' → sk = (s - s') / (e' - e)) ∧
    (e = e' → s = s' ∧ (m = m' ∨ ∃ x y, cv.xy (k • cv.gen) = some (x, y) ∧
      CutCollision q H ([x, y] ++ m) ([x, y] ++ m'))) := by
  have one : ∀ m s e, sign cv H sk m [k] = .ok (some (s, e)) → Uses cv H m k e ∧ s = k - sk * e := by
    intro m s e h
    obtain ⟨pre, k', post, h1, -, h3, h4⟩ := ((C118_exact cv H sk m [k]).1 s e).1 h
    rcases pre with _ | ⟨a, pre⟩
    · simp only [List.nil_append, List.cons.injEq] at h1
      rw [← h1.1] at h3 h4
      exact ⟨h3, h4⟩
    · have := congrArg List.length h1
      simp at this
  obtain ⟨u1, rfl⟩ := one m s e h
  obtain ⟨u2, rfl⟩ := one m' s' e' h'
  constructor
  · intro hne
    have hd : e' - e ≠ 0 := sub_ne_zero.2 (fun h => hne h.symm)
    rw [eq_div_iff hd]
    ring
  · rintro rfl
    refine ⟨rfl, ?_⟩
    by_cases hm : m = m'
    · exact Or.inl hm
    · right
      obtain ⟨x, y, h1, h2, h3⟩ := u1
      obtain ⟨x', y', g1, g2, g3⟩ := u2
      rw [h1] at g1
      cases g1
      refine ⟨x, y, h1, fun hh => hm (List.append_cancel_left hh), ?_⟩
      rw [h3] at g3
      have := congrArg ZMod.val g3
      rw [ZMod.val_natCast_of_lt h2, ZMod.val_natCast_of_lt g2] at this
      have hd : 2 ^ modBits q ∣ 2 ^ (Nat.size q + 1) := pow_dvd_pow 2 (by unfold modBits; omega)
      rw [← Nat.mod_mod_of_dvd _ hd, this, Nat.mod_mod_of_dvd _ hd]

/-- Two messages signed with the nonce 2 under the key 4. -/
example : sign toyCurve (toyH 101) 4 [1, 2] [2] = .ok (some (1, 2)) ∧
    sign toyCurve (toyH 101) 4 [1, 3] [2] = .ok (some (4, 3)) ∧
    (4 : ZMod 7) = (1 - 4) / (3 - 2) := by
  refine ⟨by decide, by decide, ?_⟩
  exact (C118_nonce_reuse toyCurve (toyH 101) 4 2 [1, 2] [1, 3] 1 2 4 3 (by decide) (by decide)).1 (by decide)

/-- C118: who knows the nonce of a signature with non-zero challenge knows the secret key; two keys that sign
with the same nonce know each other. -/
theorem C118_nonce_known [Fact q.Prime] (cv : Curve p q G) (H : List (ZMod p) → ZMod p) (sk sk' k : ZMod q)
    (m m' : List (ZMod p)) (s e s' e' : ZMod q) (h : sign cv H sk m [k] = .ok (some (s, e)))
    (h' : sign cv H sk' m' [k] = .ok (some (s', e'))) :
    (e ≠ 0 → sk = (k - s) / e) ∧ (e' ≠ 0 → sk' = (s + sk * e - s') / e') := by
  have one : ∀ sk m s e, sign cv H sk m [k] = .ok (some (s, e)) → s = k - sk * e := by
    intro sk m s e h
    obtain ⟨pre, k', post, h1, -, h3, h4⟩ := ((C118_exact cv H sk m [k]).1 s e).1 h
    rcases pre with _ | ⟨a, pre⟩
    · simp only [List.nil_append, List.cons.injEq] at h1
      rw [← h1.1] at h4
      exact h4
    · have := congrArg List.length h1
      simp at this
  obtain rfl := one sk m s e h
  obtain rfl := one sk' m' s' e' h'
  constructor
  · intro he
    rw [eq_div_iff he]; ring
  · intro he
    rw [eq_div_iff he]; ring

example : sign toyCurve (toyH 101) 4 [1, 2] [2] = .ok (some (1, 2)) ∧
    sign toyCurve (toyH 101) 3 [2, 3] [2] = .ok (some (5, 6)) ∧ (2 : ZMod 7) ≠ 0 ∧ (6 : ZMod 7) ≠ 0 := by decide

/-- C118: a signature says nothing about the secret key beyond the public key: for every challenge the
commitments and responses that signing with the secret key produces over all nonces are exactly those that
can be written down from the public key alone, each from exactly one nonce. -/
theorem C118_simulated (cv : Curve p q G) (sk e : ZMod q) :
    (∀ (R : G) (s : ZMod q), (∃ k : ZMod q, R = k • cv.gen ∧ s = k - sk * e) ↔
      R = s • cv.gen + e • (keyGen cv sk).2) ∧
    (∀ s : ZMod q, ∃! k : ZMod q, s = k - sk * e) := by
  refine ⟨fun R s => ⟨?_, fun h => ⟨s + sk * e, ?_, by ring⟩⟩, fun s => ⟨s + sk * e, by ring, fun k hk => ?_⟩⟩
  · rintro ⟨k, rfl, rfl⟩
    simp only [keyGen]
    rw [sub_smul, mul_comm sk e, mul_smul, sub_add_cancel]
  · rw [h, add_smul, mul_comm sk e, mul_smul]; rfl
  · rw [hk]; ring

example : ∃ k : ZMod 7, (1 : ZMod 7) • toyCurve.gen + (2 : ZMod 7) • (keyGen toyCurve 4).2 = k • toyCurve.gen ∧
    (1 : ZMod 7) = k - 4 * 2 := ((C118_simulated toyCurve 4 2).1 _ _).2 rfl

/-- C118: no key, message or response is safe by itself: any `(s, e)` is accepted for any key and message under
some hash function, so unforgeability rests on the hash alone. -/
theorem C118_rests_on_hash [Fact q.Prime] (cv : Curve p q G) (pk : G) (m : List (ZMod p)) (s e : ZMod q)
    (he : e.val < p) : verify cv (fun _ => (e.val : ZMod p)) pk m (s, e) = true := by
  have hq : 0 < q := (Fact.out : q.Prime).pos
  have hne : NeZero q := ⟨by omega⟩
  have hlt : e.val < 2 ^ modBits q := lt_trans (ZMod.val_lt e) (Nat.lt_size_self q)
  unfold verify
  simp only [decide_eq_true_eq]
  rw [ZMod.val_natCast_of_lt he, Nat.mod_eq_of_lt hlt, fromBigint_some]
  exact ⟨ZMod.val_lt e, ZMod.natCast_zmod_val e⟩

example : verify toyCurve (fun _ => (((3 : ZMod 7).val : Nat) : ZMod 101)) 5 [1, 2] (6, 3) = true :=
  C118_rests_on_hash toyCurve 5 [1, 2] 6 3 (by decide)

end PF.Props
