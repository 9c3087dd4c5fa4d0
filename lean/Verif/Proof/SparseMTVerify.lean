import Verif.Proof.SparseMT

/-! The native verifiers: exact characterisation and soundness. -/

namespace PF.MT
open PF.Spec
variable {L D : Type}

/-- The member of a pair selected by the parity of `j`. -/
def pick (j : Nat) (l r : D) : D := if j % 2 = 0 then l else r

/-- Root reached by a path of pairs, following the bits of `j`; `none` if a digest is not where the
bits say. -/
def chainRoot [DecidableEq D] (h2 : D → D → D) : List (D × D) → D → Nat → Option D
  | [], prev, _ => some prev
  | (l, r) :: rest, prev, j =>
    if pick j l r = prev then chainRoot h2 rest (h2 l r) (j / 2) else none

theorem hidx_sub_one_half (n j : Nat) : (hidx (n + 1) j - 1) / 2 = hidx n (j / 2) := by
  have := Nat.two_pow_pos n
  simp only [hidx, pow_succ]; omega

theorem hidx_mod_two (n j : Nat) : hidx (n + 1) j % 2 = 1 ↔ j % 2 = 0 := by
  have := Nat.two_pow_pos n
  simp only [hidx, pow_succ]; omega

theorem subU64_hidx {ε : Type} (b : Build) (n j : Nat) :
    (subU64 b (hidx (n + 1) j) 1 : Outcome ε Nat) = .ok (hidx (n + 1) j - 1) := by
  have := hidx_succ_pos n j
  simp only [subU64]; rw [if_pos (by omega)]

section
variable [DecidableEq D]

theorem verifyIndexLoop_eq {ε : Type} (b : Build) (h2 : D → D → D) (path : List (D × D)) (prev : D)
    (j fp off : Nat) :
    (verifyIndexLoop b h2 path prev (hidx path.length j) fp off : Outcome ε _) =
      .ok ((chainRoot h2 path prev j).map (fun r => (r, fp + off * (j % 2 ^ path.length)))) := by
  induction path generalizing prev j fp off with
  | nil => simp [verifyIndexLoop, chainRoot, Nat.mod_one]
  | cons pr rest ih =>
    obtain ⟨l, r⟩ := pr
    simp only [verifyIndexLoop, List.length_cons, hidx_mod_two, subU64_hidx, Outcome.bind_ok,
      hidx_sub_one_half, chainRoot, pick]
    have hm : j % 2 ^ (rest.length + 1) = j % 2 + 2 * (j / 2 % 2 ^ rest.length) := by
      rw [pow_succ', Nat.mod_mul]
    by_cases hj : j % 2 = 0
    · simp only [hj, if_true]
      by_cases hp : prev = l
      · rw [if_neg (by simpa using hp), if_pos hp.symm, ih]
        simp only [hm, hj]; congr 2; funext r; congr 1; ring
      · rw [if_pos hp, if_neg (fun e => hp e.symm)]; rfl
    · simp only [hj, if_false]
      have hj1 : j % 2 = 1 := by omega
      by_cases hp : prev = r
      · rw [if_neg (by simpa using hp), if_pos hp.symm, ih]
        simp only [hm, hj1]; congr 2; funext r; congr 1; ring
      · rw [if_pos hp, if_neg (fun e => hp e.symm)]; rfl

theorem verifyIndexLoop_ge {ε : Type} (b : Build) (h2 : D → D → D) (path : List (D × D)) (prev : D)
    (i fp off : Nat) (r : D) (f : Nat)
    (h : (verifyIndexLoop b h2 path prev i fp off : Outcome ε _) = .ok (some (r, f))) : fp ≤ f := by
  induction path generalizing prev i fp off with
  | nil => simp [verifyIndexLoop] at h; omega
  | cons pr rest ih =>
    obtain ⟨l, r'⟩ := pr
    simp only [verifyIndexLoop] at h
    rcases hs : (subU64 b i 1 : Outcome ε Nat) with x | x | _
    all_goals rw [hs] at h
    all_goals simp only [Outcome.bind_ok, Outcome.bind_err, Outcome.bind_panic] at h
    all_goals split_ifs at h <;> first
      | (exact absurd h (by simp))
      | (exact ih _ _ _ _ h)
      | (have := ih _ _ _ _ h; omega)

/-- Exact behaviour of `verify_with_index` when the index arithmetic does not overflow. -/
theorem verifyWithIndex_eq {ε : Type} (b : Build) (cfg : Config L D) (path : List (D × D)) (root : D)
    (leaf : L) (i : Nat) (hi : 2 ^ (cfg.height - 1) - 1 + i < U64) :
    (verifyWithIndex b cfg path root leaf i : Outcome ε Bool) =
      .ok (decide (path.length = cfg.height - 1 ∧ path ≠ [] ∧ i < 2 ^ (cfg.height - 1) ∧
        chainRoot cfg.h2 path (cfg.leafHash leaf) i = some root)) := by
  unfold verifyWithIndex
  by_cases hl : path.length = cfg.height - 1
  swap
  · simp [hl]
  have ht : (addU64 b (2 ^ (cfg.height - 1) - 1) i : Outcome ε Nat) =
      .ok (hidx path.length i) := by simp [addU64, hi, hidx, hl]
  simp only [hl, ne_eq, not_true, if_false, ht, Outcome.bind_ok, true_and]
  cases path with
  | nil => simp
  | cons pr rest =>
    obtain ⟨l, r⟩ := pr
    simp only [List.length_cons] at hl
    rw [← hl]
    simp only [hidx_mod_two]
    have hloop := verifyIndexLoop_eq (ε := ε) b cfg.h2 ((l, r) :: rest) (cfg.leafHash leaf) i
      (2 ^ (rest.length + 1) - 1) 1
    simp only [List.length_cons] at hloop
    rw [hloop]
    simp only [reduceCtorEq, not_false_eq_true, true_and]
    by_cases hc : pick i l r = cfg.leafHash leaf
    swap
    · have hn : chainRoot cfg.h2 ((l, r) :: rest) (cfg.leafHash leaf) i = none := by
        simp [chainRoot, hc]
      simp only [hn]
      unfold pick at hc
      by_cases hj : i % 2 = 0
      · simp only [hj, if_true] at hc
        simp [hj, Ne.symm hc]
      · simp only [hj, if_false] at hc
        simp [hj, Ne.symm hc]
    · have h1 : ¬ (i % 2 = 0 ∧ ¬ cfg.leafHash leaf = l) := by
        rintro ⟨a, b⟩; simp only [pick, a, if_true] at hc; exact b hc.symm
      have h2 : ¬ (¬ i % 2 = 0 ∧ ¬ cfg.leafHash leaf = r) := by
        rintro ⟨a, b⟩; simp only [pick, a, if_false] at hc; exact b hc.symm
      simp only [h1, h2, if_false]
      cases hcr : chainRoot cfg.h2 ((l, r) :: rest) (cfg.leafHash leaf) i with
      | none => simp
      | some r' =>
        simp only [Option.map_some, Outcome.bind_ok, Option.some.injEq]
        by_cases hr : root = r'
        · subst hr
          simp only [not_true, if_false]
          have hpos := Nat.two_pow_pos (rest.length + 1)
          have : (2 ^ (rest.length + 1) - 1 + 1 * (i % 2 ^ (rest.length + 1)) = hidx (rest.length + 1) i) ↔
              i < 2 ^ (rest.length + 1) := by
            rw [hidx, Nat.one_mul]
            constructor
            · intro e
              have : i % 2 ^ (rest.length + 1) = i := by omega
              rw [← this]; exact Nat.mod_lt _ hpos
            · intro h; rw [Nat.mod_eq_of_lt h]
          by_cases hlt : i < 2 ^ (rest.length + 1)
          · rw [if_neg (not_not.2 (this.2 hlt))]; simp [hlt]
          · rw [if_pos (fun e => hlt (this.1 e))]; simp [hlt]
        · simp [hr, Ne.symm hr]

/-- A wrapped (release) or panicking (debug) index computation never verifies. -/
theorem verifyWithIndex_overflow {ε : Type} (b : Build) (cfg : Config L D) (path : List (D × D))
    (root : D) (leaf : L) (i : Nat) (hi : U64 ≤ 2 ^ (cfg.height - 1) - 1 + i) (hlt : i < U64) :
    (verifyWithIndex b cfg path root leaf i : Outcome ε Bool) ≠ .ok true := by
  unfold verifyWithIndex
  by_cases hl : path.length = cfg.height - 1
  swap
  · simp [hl]
  simp only [hl, ne_eq, not_true, if_false]
  cases b with
  | debug => simp [addU64, Nat.not_lt.2 hi]
  | release =>
    simp only [addU64, Nat.not_lt.2 hi, if_false, Outcome.bind_ok]
    cases path with
    | nil => simp
    | cons pr rest =>
      obtain ⟨l, r⟩ := pr
      dsimp only
      split_ifs <;> try simp
      all_goals
        rcases hv : (verifyIndexLoop Build.release cfg.h2 ((l, r) :: rest) (cfg.leafHash leaf)
          ((2 ^ (cfg.height - 1) - 1 + i) % U64) (2 ^ (cfg.height - 1) - 1) 1 : Outcome ε _) with x | x | _
        · cases x with
          | none => simp
          | some x =>
            obtain ⟨r', f⟩ := x
            have hge := verifyIndexLoop_ge _ _ _ _ _ _ _ _ _ hv
            simp only [Outcome.bind_ok]
            have hw : (2 ^ (cfg.height - 1) - 1 + i) % U64 < 2 ^ (cfg.height - 1) - 1 := by
              have : (2 ^ (cfg.height - 1) - 1 + i) % U64 ≤ 2 ^ (cfg.height - 1) - 1 + i - U64 := by
                rw [Nat.mod_eq_sub_mod hi]; exact Nat.mod_le _ _
              omega
            have hne : f ≠ (2 ^ (cfg.height - 1) - 1 + i) % U64 := by omega
            split_ifs <;> simp
        · simp
        · simp

theorem chainRoot_pathFrom (h2 : D → D → D) (f : Nat → D) (n ℓ j : Nat) :
    chainRoot h2 (pathFrom h2 f ℓ n j) (nodeAt h2 f ℓ j) j = some (nodeAt h2 f (ℓ + n) (j / 2 ^ n)) := by
  induction n generalizing ℓ j with
  | zero => simp [pathFrom, chainRoot]
  | succ n ih =>
    simp only [pathFrom, chainRoot]
    rw [if_pos, ← nodeAt_succ_half h2 f ℓ j, ih, Nat.div_div_eq_div_mul, ← pow_succ']
    · congr 2; omega
    · unfold pick; split <;> (congr 1; omega)

theorem chainRoot_sound (h2 : D → D → D) (f : Nat → D) (path : List (D × D)) (prev : D) (ℓ j : Nat)
    (e : chainRoot h2 path prev j = some (nodeAt h2 f (ℓ + path.length) (j / 2 ^ path.length))) :
    (prev = nodeAt h2 f ℓ j ∧ path = pathFrom h2 f ℓ path.length j) ∨
      PathCollision h2 path (pathFrom h2 f ℓ path.length j) := by
  induction path generalizing prev ℓ j with
  | nil => left; simpa [chainRoot, pathFrom] using e
  | cons pr rest ih =>
    obtain ⟨l, r⟩ := pr
    simp only [chainRoot] at e
    split_ifs at e with hc
    simp only [List.length_cons, pathFrom]
    have e' : chainRoot h2 rest (h2 l r) (j / 2) =
        some (nodeAt h2 f (ℓ + 1 + rest.length) (j / 2 / 2 ^ rest.length)) := by
      rw [e, List.length_cons, Nat.div_div_eq_div_mul, ← pow_succ']
      congr 2; omega
    rcases ih _ _ _ e' with ⟨h1, h3⟩ | h3
    · rw [nodeAt_succ_half] at h1
      by_cases hp : (l, r) = (nodeAt h2 f ℓ (2 * (j / 2)), nodeAt h2 f ℓ (2 * (j / 2) + 1))
      · left
        refine ⟨?_, by rw [hp, ← h3]⟩
        simp only [Prod.mk.injEq] at hp
        rw [← hc]
        unfold pick
        split
        · rw [hp.1]; congr 1; omega
        · rw [hp.2]; congr 1; omega
      · right; exact PathCollision.head hp h1
    · exact Or.inr h3.cons

theorem verifyLoop_sound (h2 : D → D → D) (f : Nat → D) (path : List (D × D)) (prev : D) (ℓ J : Nat)
    (e : verifyLoop h2 path prev = some (nodeAt h2 f (ℓ + path.length) J)) :
    ∃ j, j / 2 ^ path.length = J ∧
      (prev = nodeAt h2 f ℓ j ∨ PathCollision h2 path (pathFrom h2 f ℓ path.length j)) := by
  induction path generalizing prev ℓ with
  | nil => exact ⟨J, by simp, Or.inl (by simpa [verifyLoop] using e)⟩
  | cons pr rest ih =>
    obtain ⟨l, r⟩ := pr
    simp only [verifyLoop] at e
    split_ifs at e with hc
    have e' : verifyLoop h2 rest (h2 l r) = some (nodeAt h2 f (ℓ + 1 + rest.length) J) := by
      rw [e, List.length_cons]; congr 2; omega
    obtain ⟨j', hj', h⟩ := ih _ _ e'
    have hdiv : ∀ j, j / 2 = j' → j / 2 ^ (rest.length + 1) = J := by
      intro j hj; rw [pow_succ', ← Nat.div_div_eq_div_mul, hj, hj']
    simp only [List.length_cons, pathFrom]
    rcases h with h | h
    · rw [show nodeAt h2 f (ℓ + 1) j' = h2 (nodeAt h2 f ℓ (2 * j')) (nodeAt h2 f ℓ (2 * j' + 1)) from rfl] at h
      by_cases hp : (l, r) = (nodeAt h2 f ℓ (2 * j'), nodeAt h2 f ℓ (2 * j' + 1))
      · simp only [Prod.mk.injEq] at hp
        by_cases hl : prev = l
        · exact ⟨2 * j', hdiv _ (by omega), Or.inl (by rw [hl, hp.1])⟩
        · have hr : prev = r := by
            by_contra hr; exact hc ⟨hl, hr⟩
          exact ⟨2 * j' + 1, hdiv _ (by omega), Or.inl (by rw [hr, hp.2])⟩
      · refine ⟨2 * j', hdiv _ (by omega), Or.inr ?_⟩
        have : 2 * j' / 2 = j' := by omega
        rw [this]
        exact PathCollision.head hp h
    · refine ⟨2 * j', hdiv _ (by omega), Or.inr ?_⟩
      have : 2 * j' / 2 = j' := by omega
      rw [this]
      exact h.cons

theorem verifyLoop_of_chainRoot (h2 : D → D → D) (path : List (D × D)) (prev : D) (j : Nat) (r : D)
    (h : chainRoot h2 path prev j = some r) : verifyLoop h2 path prev = some r := by
  induction path generalizing prev j with
  | nil => simpa [chainRoot, verifyLoop] using h
  | cons pr rest ih =>
    obtain ⟨l, r'⟩ := pr
    simp only [chainRoot] at h
    split_ifs at h with hc
    simp only [verifyLoop]
    rw [if_neg]
    · exact ih _ _ h
    · rintro ⟨a, b⟩
      unfold pick at hc
      split at hc
      · exact a hc.symm
      · exact b hc.symm

theorem verify_eq (cfg : Config L D) (path : List (D × D)) (root : D) (leaf : L) :
    verify cfg path root leaf =
      decide (path.length = cfg.height - 1 ∧ path ≠ [] ∧
        verifyLoop cfg.h2 path (cfg.leafHash leaf) = some root) := by
  unfold verify
  by_cases hl : path.length = cfg.height - 1
  swap
  · simp [hl]
  simp only [hl, ne_eq, not_true, if_false, true_and]
  cases path with
  | nil => simp
  | cons pr rest =>
    obtain ⟨l, r⟩ := pr
    simp only [reduceCtorEq, not_false_eq_true, true_and]
    by_cases hc : ¬ cfg.leafHash leaf = l ∧ ¬ cfg.leafHash leaf = r
    · simp [hc, verifyLoop]
    · simp only [hc, if_false]
      cases hv : verifyLoop cfg.h2 ((l, r) :: rest) (cfg.leafHash leaf) with
      | none => simp
      | some p =>
        by_cases hr : root = p
        · simp [hr]
        · simp [hr, Ne.symm hr]

end

theorem updateLoop_eq {ε : Type} (b : Build) (h2 : D → D → D) (sibs : List D) (o n : D) (j : Nat) :
    (updateLoop b h2 sibs o n (hidx sibs.length j) : Outcome ε _) =
      .ok (climb h2 sibs o j, climb h2 sibs n j, j / 2 ^ sibs.length) := by
  induction sibs generalizing o n j with
  | nil => simp [updateLoop, climb, hidx]
  | cons s rest ih =>
    simp only [updateLoop, List.length_cons, hidx_mod_two, subU64_hidx, Outcome.bind_ok,
      hidx_sub_one_half, climb]
    have : j / 2 ^ (rest.length + 1) = j / 2 / 2 ^ rest.length := by
      rw [pow_succ', Nat.div_div_eq_div_mul]
    split
    · rw [ih, this]
    · rw [ih, this]

section
variable [DecidableEq D]

theorem verifyUpdate_eq {ε : Type} (b : Build) (cfg : Config L D) (sibs : List D) (r r' : D)
    (ol nl : L) (i : Nat) (hi : 2 ^ (cfg.height - 1) - 1 + i < U64) :
    (verifyUpdate b cfg sibs r r' ol nl i : Outcome ε Bool) =
      .ok (decide (sibs.length = cfg.height - 1 ∧ i < 2 ^ (cfg.height - 1) ∧
        climb cfg.h2 sibs (cfg.leafHash ol) i = r ∧ climb cfg.h2 sibs (cfg.leafHash nl) i = r')) := by
  unfold verifyUpdate
  by_cases hl : sibs.length = cfg.height - 1
  swap
  · simp [hl]
  have ht : (addU64 b (2 ^ (cfg.height - 1) - 1) i : Outcome ε Nat) =
      .ok (hidx sibs.length i) := by simp [addU64, hi, hidx, hl]
  simp only [hl, ne_eq, not_true, if_false, ht, Outcome.bind_ok, true_and]
  rw [← hl, updateLoop_eq]
  simp only [Outcome.bind_ok]
  rw [hl]
  have hz : i / 2 ^ (cfg.height - 1) = 0 ↔ i < 2 ^ (cfg.height - 1) := by
    rw [Nat.div_eq_zero_iff_lt (by positivity)]
  congr 1
  by_cases h1 : i < 2 ^ (cfg.height - 1)
  · simp [h1, hz.2 h1, eq_comm]
  · simp [h1]

end

theorem wrap_half (m : Nat) (h : m + 1 ≤ 63) (i : Nat) (hi : i = 2 ^ (64 - m) - 1) :
    (i - 1) / 2 = 2 ^ (64 - (m + 1)) - 1 := by
  have : 2 ^ (64 - m) = 2 * 2 ^ (64 - (m + 1)) := by rw [← pow_succ']; congr 1; omega
  have := Nat.two_pow_pos (64 - (m + 1))
  omega

/-- After wrapping below zero the index never comes back to zero within 63 levels. -/
theorem updateLoop_wrapped {ε : Type} (h2 : D → D → D) (sibs : List D) (o n : D) (m i : Nat)
    (hm : 1 ≤ m) (hlen : m + sibs.length ≤ 63) (hi : i = 2 ^ (64 - m) - 1) :
    ∃ o' n', (updateLoop .release h2 sibs o n i : Outcome ε _) =
      .ok (o', n', 2 ^ (64 - (m + sibs.length)) - 1) := by
  induction sibs generalizing o n m i with
  | nil => exact ⟨o, n, by simp [updateLoop, hi]⟩
  | cons s rest ih =>
    simp only [List.length_cons] at hlen
    have hp : 2 ^ 1 ≤ 2 ^ (64 - m) := Nat.pow_le_pow_right (by omega) (by omega)
    have hs : (subU64 .release i 1 : Outcome ε Nat) = .ok (i - 1) := by
      simp only [subU64]; rw [if_pos (by omega)]
    simp only [updateLoop, hs, Outcome.bind_ok]
    rw [wrap_half m (by omega) i hi]
    obtain ⟨o', n', h⟩ := ih (if i % 2 = 1 then (h2 o s, h2 n s) else (h2 s o, h2 s n)).1
      (if i % 2 = 1 then (h2 o s, h2 n s) else (h2 s o, h2 s n)).2 (m + 1) _ (by omega) (by omega) rfl
    refine ⟨o', n', ?_⟩
    rw [List.length_cons, show m + (rest.length + 1) = m + 1 + rest.length by omega]
    exact h

theorem updateLoop_small {ε : Type} (h2 : D → D → D) (sibs : List D) (o n : D) (w : Nat)
    (hlen : sibs.length ≤ 62) (hw : w < 2 ^ sibs.length - 1) :
    ∃ o' n' f, (updateLoop .release h2 sibs o n w : Outcome ε _) = .ok (o', n', f) ∧ f ≠ 0 := by
  induction sibs generalizing o n w with
  | nil => simp at hw
  | cons s rest ih =>
    simp only [List.length_cons] at hlen hw
    simp only [updateLoop]
    by_cases h0 : w = 0
    · subst h0
      have hs : (subU64 .release 0 1 : Outcome ε Nat) = .ok (2 ^ 64 - 1) := by
        simp [subU64, U64]
      simp only [hs, Outcome.bind_ok]
      obtain ⟨o', n', h⟩ := updateLoop_wrapped (ε := ε) h2 rest
        (if 0 % 2 = 1 then (h2 o s, h2 n s) else (h2 s o, h2 s n)).1
        (if 0 % 2 = 1 then (h2 o s, h2 n s) else (h2 s o, h2 s n)).2 1 ((2 ^ 64 - 1) / 2)
        (by omega) (by omega) (by norm_num)
      refine ⟨o', n', _, h, ?_⟩
      have : 2 ^ 1 ≤ 2 ^ (64 - (1 + rest.length)) := Nat.pow_le_pow_right (by omega) (by omega)
      omega
    · have hs : (subU64 .release w 1 : Outcome ε Nat) = .ok (w - 1) := by
        simp only [subU64]; rw [if_pos (by omega)]
      simp only [hs, Outcome.bind_ok]
      have hlt : (w - 1) / 2 < 2 ^ rest.length - 1 := by
        rw [pow_succ] at hw; omega
      exact ih _ _ _ (by omega) hlt

section
variable [DecidableEq D]

theorem verifyUpdate_overflow {ε : Type} (b : Build) (cfg : Config L D) (sibs : List D) (r r' : D)
    (ol nl : L) (i : Nat) (hH : cfg.height ≤ 63) (hi : U64 ≤ 2 ^ (cfg.height - 1) - 1 + i)
    (hlt : i < U64) :
    (verifyUpdate b cfg sibs r r' ol nl i : Outcome ε Bool) ≠ .ok true := by
  unfold verifyUpdate
  by_cases hl : sibs.length = cfg.height - 1
  swap
  · simp [hl]
  simp only [hl, ne_eq, not_true, if_false]
  cases b with
  | debug => simp [addU64, Nat.not_lt.2 hi]
  | release =>
    simp only [addU64, Nat.not_lt.2 hi, if_false, Outcome.bind_ok]
    have hw : (2 ^ (cfg.height - 1) - 1 + i) % U64 < 2 ^ sibs.length - 1 := by
      have : (2 ^ (cfg.height - 1) - 1 + i) % U64 ≤ 2 ^ (cfg.height - 1) - 1 + i - U64 := by
        rw [Nat.mod_eq_sub_mod hi]; exact Nat.mod_le _ _
      rw [hl]; omega
    obtain ⟨o', n', f, h, hf⟩ := updateLoop_small (ε := ε) cfg.h2 sibs (cfg.leafHash ol)
      (cfg.leafHash nl) _ (by omega) hw
    simp [h, hf]

end

/-! ## climbing -/

theorem climb_sibsFrom (h2 : D → D → D) (f : Nat → D) (n ℓ j : Nat) :
    climb h2 (sibsFrom h2 f ℓ n j) (nodeAt h2 f ℓ j) j = nodeAt h2 f (ℓ + n) (j / 2 ^ n) := by
  induction n generalizing ℓ j with
  | zero => simp [sibsFrom, climb]
  | succ n ih =>
    simp only [sibsFrom, climb_cons]
    rw [node_pair, ih, Nat.div_div_eq_div_mul, ← pow_succ']
    congr 1; omega

/-- If climbing pairs from `h` follow the true path, the siblings are the true siblings. -/
theorem sibs_of_climbPairs (h2 : D → D → D) (f : Nat → D) (sibs : List D) (h : D) (ℓ j : Nat)
    (e : climbPairs h2 sibs h j = pathFrom h2 f ℓ sibs.length j) :
    sibs = sibsFrom h2 f ℓ sibs.length j := by
  induction sibs generalizing h ℓ j with
  | nil => rfl
  | cons s rest ih =>
    rw [climbPairs_cons] at e
    simp only [List.length_cons, pathFrom, List.cons.injEq] at e
    simp only [List.length_cons, sibsFrom]
    rw [← ih _ _ _ e.2]
    congr 1
    unfold sibPos
    by_cases hj : j % 2 = 0
    · simp only [hj, if_true, Prod.mk.injEq] at e ⊢
      rw [e.1.2]; congr 1; omega
    · simp only [hj, if_false, Prod.mk.injEq] at e ⊢
      rw [e.1.1]; congr 1; omega

theorem climb_sibsFrom_write (h2 : D → D → D) (lh : L → D) (c : Nat → L) (i : Nat) (v : L) (n ℓ : Nat) :
    climb h2 (sibsFrom h2 (fun k => lh (c k)) ℓ n (i / 2 ^ ℓ))
      (nodeAt h2 (fun k => lh (write c i v k)) ℓ (i / 2 ^ ℓ)) (i / 2 ^ ℓ) =
      nodeAt h2 (fun k => lh (write c i v k)) (ℓ + n) (i / 2 ^ (ℓ + n)) := by
  induction n generalizing ℓ with
  | zero => simp [sibsFrom, climb]
  | succ n ih =>
    simp only [sibsFrom, climb_cons]
    have hs : nodeAt h2 (fun k => lh (c k)) ℓ (sibPos (i / 2 ^ ℓ)) =
        nodeAt h2 (fun k => lh (write c i v k)) ℓ (sibPos (i / 2 ^ ℓ)) := by
      symm; apply nodeAt_write_other
      unfold sibPos; split <;> omega
    have hdiv : i / 2 ^ ℓ / 2 = i / 2 ^ (ℓ + 1) := by
      rw [Nat.div_div_eq_div_mul, ← pow_succ]
    rw [hs, node_pair, hdiv, ih (ℓ + 1)]
    congr 1
    · omega
    · congr 2; omega

/-- Soundness core of the update verifier. -/
theorem climb_update (h2 : D → D → D) (lh : L → D) (N : Nat) (c : Nat → L) (sibs : List D) (i : Nat)
    (ol nl : L) (hl : sibs.length = N) (hi : i < 2 ^ N)
    (e : climb h2 sibs (lh ol) i = nodeAt h2 (fun k => lh (c k)) N 0) :
    (lh ol = lh (c i) ∧
      climb h2 sibs (lh nl) i = nodeAt h2 (fun k => lh (write c i nl k)) N 0) ∨
    PathCollision h2 (climbPairs h2 sibs (lh ol) i) (pathFrom h2 (fun k => lh (c k)) 0 N i) := by
  subst hl
  have hz : i / 2 ^ sibs.length = 0 := Nat.div_eq_of_lt hi
  have := climb_sound h2 (fun k => lh (c k)) sibs (lh ol) 0 i (by rw [hz, Nat.zero_add]; exact e)
  rcases this with ⟨h1, h3⟩ | h3
  · left
    refine ⟨h1, ?_⟩
    have hs := sibs_of_climbPairs _ _ _ _ _ _ h3
    have hw := climb_sibsFrom_write h2 lh c i nl sibs.length 0
    simp only [pow_zero, Nat.div_one, Nat.zero_add, hz] at hw
    rw [← hs] at hw
    rw [← hw]
    simp [nodeAt, write]
  · exact Or.inr h3

end PF.MT
