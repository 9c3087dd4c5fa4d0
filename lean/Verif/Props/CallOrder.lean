import Verif.Props.Contract
import Verif.Spec.CallOrder

/-!
# Property C128: which sequences of L1 calls go through, and that the order of deposits is irrelevant
-/
set_option linter.unusedSectionVars false

namespace PF.Props
open PF PF.Circuit PF.Contract PF.Spec
variable {G : Type} [DecidableEq G]

theorem joinsFirst_snoc (cs : List (Call G)) (c : Call G) :
    JoinsFirst (cs ++ [c]) ↔
      JoinsFirst cs ∧ ∀ i a, c = .deposit i a → 0 < i ∧ i ≤ (joinedBalances cs).length := by
  constructor
  · intro h
    refine ⟨fun pre i a hp => h pre i a (hp.trans (List.prefix_append ..)), ?_⟩
    rintro i a rfl
    exact h cs i a (List.prefix_refl _)
  · rintro ⟨h1, h2⟩ pre i a hp
    rcases List.prefix_concat_iff.1 hp with e | e
    · obtain ⟨rfl, e'⟩ := List.append_inj' e rfl
      exact h2 i a (by simpa using e'.symm)
    · exact h1 pre i a e

theorem joinsFirst_bound {cs : List (Call G)} (h : JoinsFirst cs) {d : Nat × Nat} (hd : d ∈ depositCalls cs) :
    d.1 ≤ (joinedBalances cs).length := by
  induction cs using List.reverseRecOn with
  | nil => simp [depositCalls] at hd
  | append_singleton cs c ih =>
    obtain ⟨h1, h2⟩ := (joinsFirst_snoc cs c).1 h
    rw [joinedBalances_append, List.length_append]
    rw [depositCalls_append, List.mem_append] at hd
    rcases hd with hd | hd
    · exact le_trans (ih h1 hd) (by omega)
    · cases c with
      | join bal pk => simp [depositCalls] at hd
      | deposit i a =>
        simp [depositCalls] at hd
        subst hd
        exact le_trans (h2 i a rfl).2 (by omega)

theorem depositedBy_append (cs cs' : List (Call G)) (i : Nat) :
    depositedBy (cs ++ cs') i = depositedBy cs i + depositedBy cs' i := by
  simp [depositedBy, depositCalls_append]

/-- **C128**: from a fresh contract, with total funds below 2^64, a sequence of joins and deposits goes through exactly if every
deposit comes from an account that has joined before (and is not the contract's), and no account deposits more, in all, than it
joined with. Otherwise it panics. -/
theorem C128_accepted_iff (b : Build) (contractPk : G) (cs : List (Call G)) (hb : (joinedBalances cs).sum < 2 ^ 64) :
    ((∃ s, run b (new contractPk) cs = .ok s) ↔ JoinsFirst cs ∧ Covered cs) ∧
    (run b (new contractPk) cs = .panic ↔ ¬ (JoinsFirst cs ∧ Covered cs)) := by
  suffices hmain : ((∃ s, run b (new contractPk) cs = .ok s) ∨ run b (new contractPk) cs = .panic) ∧
      ((∃ s, run b (new contractPk) cs = .ok s) ↔ JoinsFirst cs ∧ Covered cs) by
    refine ⟨hmain.2, ?_⟩
    rw [← hmain.2]
    constructor
    · rintro h ⟨s, hs⟩
      rw [h] at hs
      cases hs
    · intro h
      exact hmain.1.resolve_left h
  induction cs using List.reverseRecOn with
  | nil =>
    refine ⟨Or.inl ⟨_, rfl⟩, fun _ => ⟨?_, ?_⟩, fun _ => ⟨_, rfl⟩⟩
    · intro pre i a hp
      have := hp.length_le
      simp at this
    · intro i bal hi hv
      simp [depositedBy, depositCalls]
  | append_singleton cs c ih =>
    have hb' : (joinedBalances cs).sum < 2 ^ 64 := by
      rw [joinedBalances_append, List.sum_append] at hb
      omega
    obtain ⟨ih0, ih⟩ := ih hb'
    have hrun := run_append b (new contractPk) cs [c]
    rcases ih0 with ⟨s, hs⟩ | hs
    swap
    · rw [hs] at hrun
      have hno : ¬ (JoinsFirst cs ∧ Covered cs) := by
        rw [← ih, hs]
        rintro ⟨s, h⟩
        cases h
      have hp : run b (new contractPk) (cs ++ [c]) = .panic := hrun
      refine ⟨Or.inr hp, ?_⟩
      rw [hp]
      constructor
      · rintro ⟨s, h⟩
        cases h
      · rintro ⟨h1, h2⟩
        refine absurd ⟨((joinsFirst_snoc cs c).1 h1).1, ?_⟩ hno
        intro i bal hi hv
        have := h2 i bal hi (by
          rw [joinedBalances_append, ← List.cons_append, List.getElem?_append_left (List.getElem?_eq_some_iff.1 hv).1]
          exact hv)
        rw [depositedBy_append] at this
        omega
    · rw [hs, Outcome.bind_ok] at hrun
      obtain ⟨hj, hc⟩ := ih.1 ⟨s, hs⟩
      cases c with
      | join bal pk =>
        have hok : run b (new contractPk) (cs ++ [.join bal pk]) = .ok (join s bal pk).1 := hrun
        refine ⟨Or.inl ⟨_, hok⟩, fun _ => ⟨(joinsFirst_snoc cs _).2 ⟨hj, by simp⟩, ?_⟩, fun _ => ⟨_, hok⟩⟩
        intro i v hi hv
        rw [depositedBy_append]
        have e0 : depositedBy [Call.join bal pk] i = 0 := by simp [depositedBy, depositCalls]
        rw [e0, Nat.add_zero]
        rcases Nat.lt_or_ge i (0 :: joinedBalances cs).length with hl | hl
        · rw [joinedBalances_append, ← List.cons_append, List.getElem?_append_left hl] at hv
          exact hc i v hi hv
        · have : depositedBy cs i = 0 := by
            unfold depositedBy
            rw [List.filter_eq_nil_iff.2]
            · rfl
            · intro d hd he
              have h1 := joinsFirst_bound hj hd
              have h2 : d.1 = i := by simpa using he
              rw [List.length_cons] at hl
              omega
          omega
      | deposit i a =>
        have hd := C35_deposit_panics_iff b contractPk cs s hb' hs i a
        obtain ⟨hx0, hx, -, -⟩ := C35_deposits_exact b contractPk cs s (Or.inr hb') hs
        obtain ⟨r1, r2, -⟩ := C36_registry b contractPk cs s hs
        have hlen : s.pks.length = (joinedBalances cs).length + 1 := by
          rw [r1, List.length_cons, joined_length]
        have hrun' : run b (new contractPk) (cs ++ [.deposit i a]) = deposit b s i a := by
          rw [hrun]
          show (deposit b s i a >>= fun s => Outcome.ok s) = _
          cases deposit b s i a <;> rfl
        have hb2 : joinedBalances (cs ++ [.deposit i a]) = joinedBalances cs := by
          rw [joinedBalances_append]
          simp [joinedBalances]
        have e1 : ∀ j, depositedBy [(Call.deposit i a : Call G)] j = if i = j then a else 0 := by
          intro j
          by_cases e : i = j <;> simp [depositedBy, depositCalls, e]
        rw [hrun']
        have hiff : (JoinsFirst (cs ++ [.deposit i a]) ∧ Covered (cs ++ [.deposit i a])) ↔
            ¬ (i = 0 ∨ s.pks.length ≤ i ∨ ∃ v, s.accounts[i]? = some v ∧ v < a) := by
          rw [joinsFirst_snoc]
          constructor
          · rintro ⟨⟨-, h1⟩, h2⟩
            obtain ⟨g1, g2⟩ := h1 i a rfl
            rintro (e | e | ⟨v, hv, hlt⟩)
            · omega
            · omega
            · have h3 := h2 i _ g1 (by rw [hb2]; exact hx i v g1 hv)
              rw [depositedBy_append, e1, if_pos rfl] at h3
              omega
          · intro h
            refine ⟨⟨hj, ?_⟩, ?_⟩
            · rintro i' a' e
              cases e
              constructor
              · by_contra hc0
                exact h (Or.inl (by omega))
              · by_contra hc0
                exact h (Or.inr (Or.inl (by omega)))
            · intro j v hj0 hv
              rw [hb2] at hv
              rw [depositedBy_append, e1]
              by_cases e : i = j
              · subst e
                rw [if_pos rfl]
                have hl : i < s.accounts.length := by
                  rw [r2, hlen]
                  have := (List.getElem?_eq_some_iff.1 hv).1
                  rwa [List.length_cons] at this
                obtain ⟨w, hw⟩ : ∃ w, s.accounts[i]? = some w := ⟨_, List.getElem?_eq_getElem hl⟩
                have h3 := hx i w hj0 hw
                rw [hv] at h3
                cases h3
                by_contra hc0
                exact h (Or.inr (Or.inr ⟨w, hw, by omega⟩))
              · rw [if_neg e]
                exact hc j v hj0 hv
        rw [hiff, ← hd.1]
        refine ⟨?_, ?_⟩
        · by_cases e : deposit b s i a = .panic
          · exact Or.inr e
          · exact Or.inl (hd.2 e)
        · constructor
          · rintro ⟨s', h⟩ e
            rw [e] at h
            cases h
          · exact hd.2

/-- Concrete: the deposits of two accounts in two orders, one of them with the second account joining in between. -/
def ordered1 : List (Call Nat) := [.join 100 11, .join 70 12, .deposit 1 30, .deposit 2 70, .deposit 1 20]
def ordered2 : List (Call Nat) := [.join 100 11, .deposit 1 20, .join 70 12, .deposit 1 30, .deposit 2 70]

theorem ordered_joinsFirst : JoinsFirst ordered1 ∧ JoinsFirst ordered2 := by
  constructor
  · rw [ordered1, show ([.join 100 11, .join 70 12, .deposit 1 30, .deposit 2 70, .deposit 1 20] : List (Call Nat)) =
      ((((([] ++ [.join 100 11]) ++ [.join 70 12]) ++ [.deposit 1 30]) ++ [.deposit 2 70]) ++ [.deposit 1 20]) from rfl]
    simp only [joinsFirst_snoc]
    refine ⟨⟨⟨⟨⟨?_, by simp⟩, by simp⟩, ?_⟩, ?_⟩, ?_⟩
    · intro pre i a h
      simpa using h.length_le
    all_goals
      intro i a h
      cases h
      decide
  · rw [ordered2, show ([.join 100 11, .deposit 1 20, .join 70 12, .deposit 1 30, .deposit 2 70] : List (Call Nat)) =
      ((((([] ++ [.join 100 11]) ++ [.deposit 1 20]) ++ [.join 70 12]) ++ [.deposit 1 30]) ++ [.deposit 2 70]) from rfl]
    simp only [joinsFirst_snoc]
    refine ⟨⟨⟨⟨⟨?_, by simp⟩, ?_⟩, by simp⟩, ?_⟩, ?_⟩
    · intro pre i a h
      simpa using h.length_le
    all_goals
      intro i a h
      cases h
      decide

/-- Accepted: `ordered1`; refused: a sixth deposit of account 1 beyond its 100. -/
example : (∃ s, run .debug (new 10) ordered1 = .ok s) ∧ run .debug (new 10) (ordered1 ++ [.deposit 1 51]) = .panic ∧
    ¬ Covered (ordered1 ++ [.deposit 1 51]) := by
  have hb : (joinedBalances (ordered1 ++ [.deposit 1 51])).sum < 2 ^ 64 := by decide
  have hp : run .debug (new 10) (ordered1 ++ [.deposit 1 51]) = .panic := by decide
  refine ⟨(C128_accepted_iff .debug 10 ordered1 (by decide)).1.2 ⟨ordered_joinsFirst.1, ?_⟩, hp, fun hc => ?_⟩
  · intro i bal hi hv
    match i, hi, hv with
    | 1, _, hv => cases hv; decide
    | 2, _, hv => cases hv; decide
  · refine (C128_accepted_iff .debug 10 _ hb).2.1 hp ⟨(joinsFirst_snoc _ _).2 ⟨ordered_joinsFirst.1, ?_⟩, hc⟩
    intro i a h
    cases h
    decide

/-- **C128**: the order of deposits does not matter, nor how they are interleaved with later registrations. Two
sequences with the same registrations in the same order and the same deposits in any order, in both of which accounts join
before they deposit, are both accepted or both refused, and end in the same contract. -/
theorem C128_order_irrelevant (b : Build) (contractPk : G) (cs cs' : List (Call G)) (hb : (joinedBalances cs).sum < 2 ^ 64)
    (hk : joinedKeys cs = joinedKeys cs') (hbal : joinedBalances cs = joinedBalances cs')
    (hd : (depositCalls cs).Perm (depositCalls cs')) (hj : JoinsFirst cs) (hj' : JoinsFirst cs') :
    (run b (new contractPk) cs = .panic ∧ run b (new contractPk) cs' = .panic) ∨
    ∃ s s', run b (new contractPk) cs = .ok s ∧ run b (new contractPk) cs' = .ok s' ∧ SameContract s s' := by
  have hby : ∀ i, depositedBy cs i = depositedBy cs' i := fun i => ((hd.filter _).map _).sum_eq
  have hcov : Covered cs ↔ Covered cs' := by
    unfold Covered
    rw [hbal]
    exact forall_congr' fun i => by rw [hby i]
  have hb' : (joinedBalances cs').sum < 2 ^ 64 := hbal ▸ hb
  have A := C128_accepted_iff b contractPk cs hb
  have A' := C128_accepted_iff b contractPk cs' hb'
  by_cases hc : Covered cs
  · obtain ⟨s, hs⟩ := A.1.2 ⟨hj, hc⟩
    obtain ⟨s', hs'⟩ := A'.1.2 ⟨hj', hcov.1 hc⟩
    refine Or.inr ⟨s, s', hs, hs', ?_⟩
    obtain ⟨x0, x1, x2, x3⟩ := C35_deposits_exact b contractPk cs s (Or.inr hb) hs
    obtain ⟨y0, y1, y2, y3⟩ := C35_deposits_exact b contractPk cs' s' (Or.inr hb') hs'
    obtain ⟨r1, r2, r3, -, r4, r5⟩ := C36_registry b contractPk cs s hs
    obtain ⟨q1, q2, q3, -, q4, q5⟩ := C36_registry b contractPk cs' s' hs'
    have hp : s.pks = s'.pks := by rw [r1, q1, hk]
    refine ⟨hp, ?_, ?_, by rw [r3, q3, hp], ?_⟩
    · intro pk
      cases e : s.pkIndices.get pk with
      | none =>
        have := (r4 pk).1 e
        rw [hp] at this
        exact ((q4 pk).2 this).symm
      | some i =>
        cases e' : s'.pkIndices.get pk with
        | none =>
          have := (q4 pk).1 e'
          rw [← hp] at this
          rw [(r4 pk).2 this] at e
          cases e
        | some j =>
          obtain ⟨g1, g2⟩ := r5 pk i e
          obtain ⟨g3, g4⟩ := q5 pk j e'
          rw [← hp] at g3 g4
          rcases Nat.lt_trichotomy i j with h | h | h
          · exact absurd g3 (g2 j h)
          · rw [h]
          · exact absurd g1 (g4 i h)
    · have hl : s.accounts.length = s'.accounts.length := by rw [r2, q2, hp]
      refine List.ext_getElem? fun i => ?_
      rcases Nat.eq_zero_or_pos i with rfl | hi
      · rw [x0, y0]
        exact congrArg some ((hd.map _).sum_eq)
      · by_cases hlt : i < s.accounts.length
        · have h1 := x1 i _ hi (List.getElem?_eq_getElem hlt)
          have h2 := y1 i _ hi (List.getElem?_eq_getElem (hl ▸ hlt))
          rw [hbal, h2, ← hby i] at h1
          rw [List.getElem?_eq_getElem hlt, List.getElem?_eq_getElem (hl ▸ hlt)]
          have := Option.some.inj h1
          congr 1
          omega
        · rw [List.getElem?_eq_none (by omega), List.getElem?_eq_none (by omega)]
    · intro pk
      have hu : depositedUnder s.pks cs pk = depositedUnder s'.pks cs' pk := by
        rw [hp]
        exact ((hd.filter _).map _).sum_eq
      have h1 := x2 pk
      have h2 := y2 pk
      have h3 : (s.deposits.get pk).isSome ↔ (s'.deposits.get pk).isSome := by
        rw [x3, y3, hp]
        exact ⟨fun ⟨d, m, e⟩ => ⟨d, hd.mem_iff.1 m, e⟩, fun ⟨d, m, e⟩ => ⟨d, hd.mem_iff.2 m, e⟩⟩
      cases e : s.deposits.get pk <;> cases e' : s'.deposits.get pk <;> simp_all
  · have hc' := fun h => hc (hcov.2 h)
    exact Or.inl ⟨A.2.2 fun h => hc h.2, A'.2.2 fun h => hc' h.2⟩

example : ∃ s s', run .release (new 10) ordered1 = .ok s ∧ run .release (new 10) ordered2 = .ok s' ∧ SameContract s s' ∧
    s.accounts = [120, 50, 0] := by
  rcases C128_order_irrelevant .release 10 ordered1 ordered2 (by decide) (by decide) (by decide) (by decide)
    ordered_joinsFirst.1 ordered_joinsFirst.2 with ⟨h, -⟩ | ⟨s, s', h, h', hs⟩
  · exact absurd h (by decide)
  · refine ⟨s, s', h, h', hs, ?_⟩
    have h2 : ∃ s, run .release (new 10) ordered1 = .ok s ∧ s.accounts = [120, 50, 0] := ⟨_, rfl, rfl⟩
    obtain ⟨s2, e, e2⟩ := h2
    rw [h] at e
    cases e
    exact e2

/-- **C128**, what the order does decide: a deposit before the registration panics, and the numbers of the accounts are those
of the order of registration. -/
theorem C128_registration_order (b : Build) (k k1 k2 : G) (h : k1 ≠ k2) :
    run b (new k) [.deposit 1 5, .join 5 k1] = .panic ∧
    (∃ s, run b (new k) [.join 5 k1, .deposit 1 5] = .ok s) ∧
    ∃ s s', run b (new k) [.join 5 k1, .join 5 k2] = .ok s ∧ run b (new k) [.join 5 k2, .join 5 k1] = .ok s' ∧
      s.pks[1]? = some k1 ∧ s'.pks[1]? = some k2 ∧ ¬ SameContract s s' := by
  refine ⟨rfl, ?_, _, _, rfl, rfl, rfl, rfl, fun hs => ?_⟩
  swap
  · have e := congrArg (fun l => l[1]?) hs.1
    exact h (Option.some.inj e)
  refine (C128_accepted_iff b k _ (by simp [joinedBalances])).1.2 ⟨?_, ?_⟩
  · rw [show ([.join 5 k1, .deposit 1 5] : List (Call G)) = ([] ++ [.join 5 k1]) ++ [.deposit 1 5] from rfl]
    simp only [joinsFirst_snoc]
    refine ⟨⟨?_, by simp⟩, ?_⟩
    · intro pre i a h
      simpa using h.length_le
    · intro i a h
      cases h
      exact ⟨by decide, by simp [joinedBalances]⟩
  · intro i bal hi hv
    match i, hi, hv with
    | 1, _, hv =>
      simp [joinedBalances] at hv
      subst hv
      simp [depositedBy, depositCalls]
    | n + 2, _, hv => simp [joinedBalances] at hv

example : run .debug (new 10) [.deposit 1 5, .join 5 11] = .panic := (C128_registration_order .debug 10 11 12 (by decide)).1

/-- **C128**: what the contract derives from a block is then the same too. -/
theorem C128_same_public_inputs {p q : Nat} [AddCommGroup G] [Module (ZMod q) G] (cv : Curve p q G) (sha : Sha) (s s' : State G)
    (h : SameContract s s') (bl : Block (ZMod p)) : derivePublicInputs cv sha s bl = derivePublicInputs cv sha s' bl := by
  unfold derivePublicInputs
  rw [h.1]

example (s' : State (ZMod 7)) (h : SameContract toyContract s') :=
  C128_same_public_inputs toyCurve toySha toyContract s' h toyBlock

example : SameContract toyContract toyContract := ⟨rfl, fun _ => rfl, rfl, rfl, fun _ => rfl⟩

end PF.Props
