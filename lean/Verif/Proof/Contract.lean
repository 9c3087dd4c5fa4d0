import Verif.Spec.Contract
import Verif.Proof.Accumulator

/-!
# Lemmas about hash maps and the contract
-/

set_option linter.unusedSectionVars false

namespace PF

namespace HMap
variable {K V : Type} [DecidableEq K]

theorem get_filter_ne (m : HMap K V) (k k' : K) (h : k' ≠ k) :
    get (m.filter (fun e => e.1 ≠ k)) k' = get m k' := by
  induction m with
  | nil => rfl
  | cons e t ih =>
    obtain ⟨k₀, v₀⟩ := e
    by_cases h0 : k₀ = k
    · subst h0; simp only [ne_eq, decide_not] at ih ⊢; simp [get, h, ih]
    · simp only [ne_eq, decide_not] at ih ⊢; simp [get, h0, ih]

theorem get_insert (m : HMap K V) (k k' : K) (v : V) :
    get (insert m k v) k' = if k' = k then some v else get m k' := by
  unfold insert
  by_cases h : k' = k
  · simp [get, h]
  · simp only [get, h, if_false]; exact get_filter_ne m k k' h

end HMap

namespace Contract
variable {G : Type} [DecidableEq G]

theorem sum_set (l : List Nat) (i x y : Nat) (h : l[i]? = some y) :
    (l.set i x).sum + y = l.sum + x := by
  induction l generalizing i with
  | nil => simp at h
  | cons a t ih =>
    cases i with
    | zero => simp at h; subst h; simp; omega
    | succ i => simp at h; have := ih i h; simp; omega

theorem run_append (b : Build) (s : State G) (cs cs' : List (Call G)) :
    run b s (cs ++ cs') = (run b s cs >>= fun s => run b s cs') := by
  induction cs generalizing s with
  | nil => rfl
  | cons c cs ih =>
    simp only [List.cons_append, run]
    cases step b s c with
    | ok a => simp [ih]
    | err e => rfl
    | panic => rfl

/-- What a successful deposit does. -/
theorem deposit_ok {b : Build} {s s' : State G} {i a : Nat} (h : deposit b s i a = .ok s') :
    ∃ r0 l0 pk l0' d, 0 < i ∧ s.accounts[i]? = some r0 ∧ s.accounts[0]? = some l0 ∧
      s.pks[i]? = some pk ∧ a ≤ r0 ∧ addU64 (ε := Unit) b l0 a = .ok l0' ∧
      entryAdd b (s.deposits.get pk) a = .ok d ∧
      s' = { s with accounts := (s.accounts.set i (r0 - a)).set 0 l0'
                    deposits := s.deposits.insert pk d } := by
  unfold deposit at h
  split at h
  · simp at h
  · rcases hr : s.accounts[i]? with _ | r0 <;> rw [hr] at h <;> simp at h
    rcases hi : i with _ | i'
    · subst hi; simp at h
    rcases hl : (s.accounts.take i)[0]? with _ | l0 <;> rw [hl] at h <;> simp at h
    unfold transfer at h
    split at h
    · rcases ho : addU64 (ε := Unit) b l0 a with l0' | e | _ <;> rw [ho] at h <;> simp at h
      rcases hp : s.pks[i]? with _ | pk <;> rw [hp] at h <;> simp at h
      rcases hd : entryAdd b (s.deposits.get pk) a with d | e | _ <;> rw [hd] at h <;> simp at h
      refine ⟨r0, l0, pk, l0', d, by omega, by first | rfl | exact hr | (rw [← hi]; exact hr), ?_, by first | rfl | (rw [← hi]; exact hp), by assumption, ho, hd, ?_⟩
      · rw [List.getElem?_take] at hl
        split at hl
        · exact hl
        · simp at hl
      · rw [← h, ← hi]
    · simp at h

/-- The wrap-free regime: overflow checks on, or the total funds fit in `u64`. -/
def NoWrap (b : Build) (total : Nat) : Prop := b = .debug ∨ total < U64

theorem addU64_noWrap {b : Build} {x y z total : Nat} (hb : NoWrap b total) (ht : x + y ≤ total)
    (h : addU64 (ε := Unit) b x y = .ok z) : z = x + y := by
  unfold addU64 at h
  split at h
  · simpa using h.symm
  · rcases hb with rfl | hb
    · simp at h
    · omega

/-- Invariant tying the state to the history of calls. -/
structure Books (contractPk : G) (cs : List (Call G)) (s : State G) : Prop where
  pks : s.pks = contractPk :: joinedKeys cs
  len : s.accounts.length = s.pks.length
  nonces : s.nonces = List.replicate s.pks.length 0
  range : ∀ d ∈ depositCalls cs, 0 < d.1 ∧ d.1 < s.pks.length
  bal : ∀ i, 0 < i → ∀ v, s.accounts[i]? = some v →
    (0 :: joinedBalances cs)[i]? = some (v + depositedBy cs i)
  bal0 : s.accounts[0]? = some (totalDeposited cs)
  dep : ∀ pk, s.deposits.get pk =
    if ∃ d ∈ depositCalls cs, s.pks[d.1]? = some pk then some (depositedUnder s.pks cs pk) else none
  total : s.accounts.sum = (joinedBalances cs).sum
  idx : ∀ pk, s.pkIndices.get pk = none ∧ pk ∉ s.pks ∨
    ∃ i, s.pkIndices.get pk = some i ∧ s.pks[i]? = some pk ∧
      ∀ j, i < j → s.pks[j]? ≠ some pk

theorem joinedKeys_append (cs cs' : List (Call G)) :
    joinedKeys (cs ++ cs') = joinedKeys cs ++ joinedKeys cs' := by simp [joinedKeys]
theorem joinedBalances_append (cs cs' : List (Call G)) :
    joinedBalances (cs ++ cs') = joinedBalances cs ++ joinedBalances cs' := by simp [joinedBalances]
theorem depositCalls_append (cs cs' : List (Call G)) :
    depositCalls (cs ++ cs') = depositCalls cs ++ depositCalls cs' := by simp [depositCalls]

theorem joined_length (cs : List (Call G)) :
    (joinedKeys cs).length = (joinedBalances cs).length := by
  induction cs with
  | nil => rfl
  | cons c cs ih =>
    cases c <;> simp [joinedKeys, joinedBalances] at ih ⊢ <;> exact ih

theorem books_new (contractPk : G) : Books contractPk [] (new contractPk) := by
  refine ⟨rfl, rfl, rfl, by simp [depositCalls], ?_, rfl, ?_, rfl, ?_⟩
  · intro i hi v hv
    cases i with
    | zero => omega
    | succ i => simp [new, join] at hv
  · intro pk; simp [depositCalls, new, join, HMap.get]
  · intro pk
    by_cases h : pk = contractPk
    · right
      refine ⟨0, by simp [new, join, HMap.get_insert, h], by simp [new, join, h], ?_⟩
      intro j hj
      cases j with
      | zero => omega
      | succ j => simp [new, join]
    · left; simp [new, join, HMap.get_insert, HMap.get, h]

theorem depositedUnder_congr (keys keys' : List G) (cs : List (Call G)) (pk : G)
    (h : ∀ d ∈ depositCalls cs, keys[d.1]? = keys'[d.1]?) :
    depositedUnder keys cs pk = depositedUnder keys' cs pk := by
  unfold depositedUnder
  rw [List.filter_congr (fun d hd => by rw [h d hd])]

theorem books_join {contractPk : G} {cs : List (Call G)} {s : State G} (h : Books contractPk cs s)
    (bal : Nat) (pk : G) : Books contractPk (cs ++ [.join bal pk]) (join s bal pk).1 := by
  have hk : joinedKeys ([.join bal pk] : List (Call G)) = [pk] := rfl
  have hb : joinedBalances ([.join bal pk] : List (Call G)) = [bal] := rfl
  have hd : depositCalls ([.join bal pk] : List (Call G)) = [] := rfl
  have hd' : depositCalls (cs ++ [.join bal pk]) = depositCalls cs := by
    rw [depositCalls_append, hd, List.append_nil]
  have hlen : s.pks.length = (joinedKeys cs).length + 1 := by rw [h.pks]; simp
  have hpre : ∀ d ∈ depositCalls cs, s.pks[d.1]? = (s.pks ++ [pk])[d.1]? := by
    intro d hd; rw [List.getElem?_append_left (h.range d hd).2]
  have hn0 : depositedBy cs s.pks.length = 0 := by
    unfold depositedBy
    rw [List.filter_eq_nil_iff.2]
    · rfl
    · intro d hd; have := (h.range d hd).2; simp; omega
  refine ⟨?_, ?_, ?_, ?_, ?_, ?_, ?_, ?_, ?_⟩
  · simp [join, joinedKeys_append, hk, h.pks]
  · simp [join, h.len]
  · simp [join, h.nonces, List.replicate_succ']
  · intro d hdm; rw [hd'] at hdm
    have := h.range d hdm
    simp [join]; omega
  · intro i hi v hv
    have hby : depositedBy (cs ++ [.join bal pk]) i = depositedBy cs i := by
      unfold depositedBy; rw [hd']
    rw [hby, joinedBalances_append, hb]
    simp only [join] at hv
    rcases Nat.lt_or_ge i s.accounts.length with hlt | hge
    · rw [List.getElem?_append_left hlt] at hv
      have := h.bal i hi v hv
      rw [← List.cons_append, List.getElem?_append_left, this]
      rw [h.len] at hlt; simp [← joined_length]; omega
    · have hii : i = s.accounts.length := by
        by_contra hne
        rw [List.getElem?_eq_none (by simp; omega)] at hv
        simp at hv
      subst hii
      rw [List.getElem?_append_right (le_refl _)] at hv
      simp at hv; subst hv
      have hl2 : s.accounts.length = (0 :: joinedBalances cs).length := by
        rw [h.len, hlen, joined_length]; simp
      rw [← List.cons_append, hl2, List.getElem?_append_right (le_refl _)]
      rw [← hl2, h.len, hn0]; simp
  · have : totalDeposited (cs ++ [.join bal pk]) = totalDeposited cs := by
      unfold totalDeposited; rw [hd']
    rw [this]
    simp only [join]
    rw [List.getElem?_append_left]
    · exact h.bal0
    · rw [h.len, hlen]; omega
  · intro k
    have := h.dep k
    simp only [join]
    rw [this, hd']
    have e1 : depositedUnder (s.pks ++ [pk]) (cs ++ [.join bal pk]) k = depositedUnder s.pks cs k := by
      have : depositedUnder (s.pks ++ [pk]) (cs ++ [.join bal pk]) k
          = depositedUnder (s.pks ++ [pk]) cs k := by unfold depositedUnder; rw [hd']
      rw [this]
      exact (depositedUnder_congr _ _ _ _ hpre).symm
    rw [e1]
    have e2 : (∃ d ∈ depositCalls cs, s.pks[d.1]? = some k) ↔
        (∃ d ∈ depositCalls cs, (s.pks ++ [pk])[d.1]? = some k) := by
      constructor
      · rintro ⟨d, hd, he⟩; exact ⟨d, hd, by rw [← hpre d hd]; exact he⟩
      · rintro ⟨d, hd, he⟩; exact ⟨d, hd, by rw [hpre d hd]; exact he⟩
    exact if_congr e2 rfl rfl
  · simp [join, joinedBalances_append, hb, h.total]
  · intro k
    simp only [join]
    by_cases hkk : k = pk
    · subst hkk
      right
      refine ⟨s.pks.length, by simp [HMap.get_insert], by simp, ?_⟩
      intro j hj; rw [List.getElem?_eq_none (by simp; omega)]; simp
    · rcases h.idx k with ⟨h1, h2⟩ | ⟨i, h1, h2, h3⟩
      · left; refine ⟨by simp [HMap.get_insert, hkk, h1], by simp [h2, hkk]⟩
      · right
        have hi : i < s.pks.length := (List.getElem?_eq_some_iff.1 h2).1
        refine ⟨i, by simp [HMap.get_insert, hkk, h1], by
          rw [List.getElem?_append_left hi]; exact h2, ?_⟩
        intro j hj
        rcases Nat.lt_or_ge j s.pks.length with hl | hl
        · rw [List.getElem?_append_left hl]; exact h3 j hj
        · rw [List.getElem?_append_right hl]
          cases hjj : j - s.pks.length with
          | zero => simpa using Ne.symm hkk
          | succ n => simp

theorem getElem?_le_sum {l : List Nat} {i v : Nat} (h : l[i]? = some v) : v ≤ l.sum := by
  induction l generalizing i with
  | nil => simp at h
  | cons a t ih =>
    cases i with
    | zero => simp at h; subst h; simp
    | succ i => simp at h; have := ih h; simp; omega

theorem sum_filter_le (l : List (Nat × Nat)) (f : Nat × Nat → Bool) :
    ((l.filter f).map (·.2)).sum ≤ (l.map (·.2)).sum := by
  induction l with
  | nil => simp
  | cons a t ih =>
    by_cases h : f a
    · simp [h]; exact ih
    · simp [h]; omega

theorem books_deposit {contractPk : G} {cs : List (Call G)} {s s' : State G}
    (h : Books contractPk cs s) {b : Build} (hb : NoWrap b (joinedBalances cs).sum) {i a : Nat}
    (hs : deposit b s i a = .ok s') : Books contractPk (cs ++ [.deposit i a]) s' := by
  obtain ⟨r0, l0, pk, l0', d, hi, hr, hl, hpk, har, hadd, hd, rfl⟩ := deposit_ok hs
  have hk : joinedKeys ([.deposit i a] : List (Call G)) = [] := rfl
  have hbl : joinedBalances ([.deposit i a] : List (Call G)) = [] := rfl
  have hdc : depositCalls ([.deposit i a] : List (Call G)) = [(i, a)] := rfl
  have hdc' : depositCalls (cs ++ [.deposit i a]) = depositCalls cs ++ [(i, a)] := by
    rw [depositCalls_append, hdc]
  have hset : (s.accounts.set i (r0 - a))[0]? = some l0 := by
    rw [List.getElem?_set_ne (by omega)]; exact hl
  have hs1 := sum_set s.accounts i (r0 - a) r0 hr
  have hs2 := sum_set (s.accounts.set i (r0 - a)) 0 l0' l0 hset
  have hl0 : l0 + a ≤ (joinedBalances cs).sum := by
    rw [← h.total]
    have := getElem?_le_sum hset
    omega
  have hl0' : l0' = l0 + a := addU64_noWrap hb hl0 hadd
  have htd : totalDeposited cs = l0 := by have := h.bal0; rw [hl] at this; simpa using this.symm
  have hilen : i < s.pks.length := (List.getElem?_eq_some_iff.1 hpk).1
  refine ⟨?_, ?_, ?_, ?_, ?_, ?_, ?_, ?_, ?_⟩
  · simp [joinedKeys_append, hk, h.pks]
  · simp [h.len]
  · simp [h.nonces]
  · intro x hx
    rw [hdc', List.mem_append] at hx
    rcases hx with hx | hx
    · exact h.range x hx
    · simp at hx; subst hx; exact ⟨hi, hilen⟩
  · intro j hj v hv
    simp only at hv
    rw [List.getElem?_set_ne (by omega)] at hv
    rw [joinedBalances_append, hbl, List.append_nil]
    have hby : depositedBy (cs ++ [.deposit i a]) j = depositedBy cs j + if i = j then a else 0 := by
      unfold depositedBy; rw [hdc', List.filter_append]
      by_cases hij : i = j <;> simp [hij]
    rw [hby]
    by_cases hij : i = j
    · subst hij
      have hlt := (List.getElem?_eq_some_iff.1 hr).1
      rw [List.getElem?_set_self hlt] at hv
      simp at hv; subst hv
      have := h.bal i hi r0 hr
      rw [this]; simp; omega
    · rw [List.getElem?_set_ne hij] at hv
      simpa [hij] using h.bal j hj v hv
  · have : totalDeposited (cs ++ [.deposit i a]) = totalDeposited cs + a := by
      unfold totalDeposited; rw [hdc']; simp
    rw [this, htd, hl0']
    simp only
    rw [List.getElem?_set_self]
    have := (List.getElem?_eq_some_iff.1 hset).1
    exact this
  · intro k
    simp only [HMap.get_insert]
    have hdu : depositedUnder s.pks (cs ++ [.deposit i a]) k
        = depositedUnder s.pks cs k + if k = pk then a else 0 := by
      unfold depositedUnder; rw [hdc', List.filter_append]
      by_cases hkp : k = pk
      · simp [hkp, hpk]
      · have : ¬ pk = k := fun h => hkp h.symm
        simp [hkp, hpk, this]
    by_cases hkp : k = pk
    · subst hkp
      have hex : ∃ x ∈ depositCalls (cs ++ [.deposit i a]), s.pks[x.1]? = some k :=
        ⟨(i, a), by rw [hdc']; simp, hpk⟩
      rw [if_pos rfl, if_pos hex, hdu, if_pos rfl]
      have hd' := h.dep k
      by_cases hex' : ∃ x ∈ depositCalls cs, s.pks[x.1]? = some k
      · rw [if_pos hex'] at hd'
        rw [hd'] at hd
        simp only [entryAdd] at hd
        have hle : depositedUnder s.pks cs k ≤ totalDeposited cs := sum_filter_le _ _
        rw [addU64_noWrap hb (by omega) hd]
      · rw [if_neg hex'] at hd'
        rw [hd'] at hd
        simp only [entryAdd, Outcome.ok.injEq] at hd
        have : depositedUnder s.pks cs k = 0 := by
          unfold depositedUnder
          rw [List.filter_eq_nil_iff.2]
          · rfl
          · intro x hx hc; exact hex' ⟨x, hx, by simpa using hc⟩
        rw [this, ← hd]; simp
    · rw [if_neg hkp, hdu, if_neg hkp, h.dep k, hdc']
      have e : (∃ x ∈ depositCalls cs ++ [(i, a)], s.pks[x.1]? = some k) ↔
          (∃ x ∈ depositCalls cs, s.pks[x.1]? = some k) := by
        constructor
        · rintro ⟨x, hx, he⟩
          rw [List.mem_append] at hx
          rcases hx with hx | hx
          · exact ⟨x, hx, he⟩
          · simp at hx; subst hx; rw [hpk] at he
            exact absurd (Option.some.inj he).symm hkp
        · rintro ⟨x, hx, he⟩; exact ⟨x, by simp [hx], he⟩
      simp only [e, Nat.add_zero]
  · simp only [joinedBalances_append, hbl, List.append_nil]
    rw [← h.total]; omega
  · exact h.idx

theorem NoWrap.mono {b : Build} {x y : Nat} (h : NoWrap b y) (hxy : x ≤ y) : NoWrap b x := by
  rcases h with h | h
  · exact Or.inl h
  · exact Or.inr (by omega)

theorem books_run {contractPk : G} {b : Build} (cs cs' : List (Call G)) {s s' : State G}
    (h : Books contractPk cs s) (hb : NoWrap b (joinedBalances (cs ++ cs')).sum)
    (hs : run b s cs' = .ok s') : Books contractPk (cs ++ cs') s' := by
  induction cs' generalizing cs s with
  | nil => simp [run] at hs; subst hs; simpa using h
  | cons c cs' ih =>
    simp only [run] at hs
    rcases hc : step b s c with s1 | e | _ <;> rw [hc] at hs <;> simp at hs
    have hb1 : (joinedBalances cs).sum ≤ (joinedBalances (cs ++ c :: cs')).sum := by
      rw [joinedBalances_append]; simp
    have h1 : Books contractPk (cs ++ [c]) s1 := by
      cases c with
      | join bal pk => simp [step] at hc; subst hc; exact books_join h bal pk
      | deposit i a => exact books_deposit h (hb.mono hb1) hc
    have := ih (cs ++ [c]) h1 (by simpa using hb) hs
    simpa using this

/-- Registry facts hold in every build, wrapping or not. -/
structure Registry (contractPk : G) (cs : List (Call G)) (s : State G) : Prop where
  pks : s.pks = contractPk :: joinedKeys cs
  len : s.accounts.length = s.pks.length
  nonces : s.nonces = List.replicate s.pks.length 0
  idx : ∀ pk, s.pkIndices.get pk = none ∧ pk ∉ s.pks ∨
    ∃ i, s.pkIndices.get pk = some i ∧ s.pks[i]? = some pk ∧ ∀ j, i < j → s.pks[j]? ≠ some pk

theorem registry_join {contractPk : G} {cs : List (Call G)} {s : State G}
    (h : Registry contractPk cs s) (bal : Nat) (pk : G) :
    Registry contractPk (cs ++ [.join bal pk]) (join s bal pk).1 := by
  have hk : joinedKeys ([.join bal pk] : List (Call G)) = [pk] := rfl
  refine ⟨?_, ?_, ?_, ?_⟩
  · simp [join, joinedKeys_append, hk, h.pks]
  · simp [join, h.len]
  · simp [join, h.nonces, List.replicate_succ']
  · intro k
    simp only [join]
    by_cases hkk : k = pk
    · subst hkk
      right
      refine ⟨s.pks.length, by simp [HMap.get_insert], by simp, ?_⟩
      intro j hj; rw [List.getElem?_eq_none (by simp; omega)]; simp
    · rcases h.idx k with ⟨h1, h2⟩ | ⟨i, h1, h2, h3⟩
      · left; refine ⟨by simp [HMap.get_insert, hkk, h1], by simp [h2, hkk]⟩
      · right
        have hi : i < s.pks.length := (List.getElem?_eq_some_iff.1 h2).1
        refine ⟨i, by simp [HMap.get_insert, hkk, h1], by
          rw [List.getElem?_append_left hi]; exact h2, ?_⟩
        intro j hj
        rcases Nat.lt_or_ge j s.pks.length with hl | hl
        · rw [List.getElem?_append_left hl]; exact h3 j hj
        · rw [List.getElem?_append_right hl]
          cases hjj : j - s.pks.length with
          | zero => simpa using Ne.symm hkk
          | succ n => simp

theorem registry_run {contractPk : G} {b : Build} (cs cs' : List (Call G)) {s s' : State G}
    (h : Registry contractPk cs s) (hs : run b s cs' = .ok s') :
    Registry contractPk (cs ++ cs') s' := by
  induction cs' generalizing cs s with
  | nil => simp [run] at hs; subst hs; simpa using h
  | cons c cs' ih =>
    simp only [run] at hs
    rcases hc : step b s c with s1 | e | _ <;> rw [hc] at hs <;> simp at hs
    have h1 : Registry contractPk (cs ++ [c]) s1 := by
      cases c with
      | join bal pk => simp [step] at hc; subst hc; exact registry_join h bal pk
      | deposit i a =>
        obtain ⟨_, _, _, _, _, _, _, _, _, _, _, _, rfl⟩ := deposit_ok hc
        have hk : joinedKeys ([.deposit i a] : List (Call G)) = [] := rfl
        exact ⟨by simp [joinedKeys_append, hk, h.pks], by simp [h.len], h.nonces, h.idx⟩
    have := ih (cs ++ [c]) h1 hs
    simpa using this

theorem registry_new (contractPk : G) : Registry contractPk [] (new contractPk) :=
  ⟨rfl, rfl, rfl, (books_new contractPk).idx⟩

end Contract
end PF
