import Verif.Props.Registry
import Verif.Props.CasesInstances

/-!
# Concrete cases for C124
-/
set_option linter.unusedSectionVars false

namespace PF.CasesEpoch
open PF PF.Spec PF.MT PF.AggC PF.Circuit PF.Contract PF.Agg PF.Props
open PF.Cases (F K k0 a b ha hb hab h0 ha0 hb0)

theorem reached2 : Reach .debug bnCurve P.hs s2 :=
  (C39_history_iff_reach .debug bnCurve P.hs s2).2
    ⟨_, _, History.signatures P.contract sigs start_history reached1.2.2 answered⟩

theorem regs2 (pk : K) (h : some pk ∈ s2.signers ∨ pk ∈ s2.deposits.map (·.1) ∨ pk ∈ s2.withdrawals.map (·.1)) :
    pk = k0 ∨ pk = a ∨ pk = b := by
  have hall : ∀ pk, (some pk ∈ s2.signers ∨ pk ∈ s2.deposits.map (·.1) ∨ pk ∈ s2.withdrawals.map (·.1)) →
      Registered st pk := by
    by_contra hc
    have hp := produced
    rw [(C48_produce_block .debug bnCurve P.hs s2 reached2 st).2 hc] at hp; simp at hp
  have hr := hall pk h
  obtain ⟨_, _, _, _, hn, _⟩ := C36_registry .debug P.contract _ st registered
  have hm : pk ∈ st.pks := by
    by_contra hm
    unfold Registered at hr
    rw [(hn pk).2 hm] at hr; cases hr
  rw [facts.2.2.2.2.1] at hm
  simpa [P] using hm

theorem deposits2 : s2.deposits = [(a, 5)] := by
  have hall : ∀ pk, (some pk ∈ s2.signers ∨ pk ∈ s2.deposits.map (·.1) ∨ pk ∈ s2.withdrawals.map (·.1)) →
      Registered st pk := by
    by_contra hc
    have hp := produced
    rw [(C48_produce_block .debug bnCurve P.hs s2 reached2 st).2 hc] at hp; simp at hp
  obtain ⟨ur, sr, -, -, e⟩ := (C48_produce_block .debug bnCurve P.hs s2 reached2 st).1 hall
  have hd : block.deposits = [(1, 5)] := facts.2.2.2.2.2.2.1
  have hb := produced
  rw [e, Outcome.ok.injEq] at hb
  rw [← hb] at hd
  dsimp only at hd
  rcases hl : s2.deposits with _ | ⟨⟨k, v⟩, _ | ⟨x, t⟩⟩
  · rw [hl] at hd; simp at hd
  · rw [hl] at hd hall
    simp only [List.map_cons, List.map_nil, List.cons.injEq, Prod.mk.injEq, and_true] at hd
    have hr := hall k (Or.inr (Or.inl (by simp)))
    obtain ⟨_, _, _, _, _, hi⟩ := C36_registry .debug P.contract _ st registered
    unfold Registered at hr
    unfold regIndex at hd
    cases hg : st.pkIndices.get k with
    | none => rw [hg] at hr; cases hr
    | some i =>
      have h1 := (hi k i hg).1
      have hlt := (List.getElem?_eq_some_iff.1 h1).1
      have hf := few
      rw [hg, Option.getD_some, Nat.mod_eq_of_lt (by omega)] at hd
      rw [hd.1, facts.2.2.2.2.1] at h1
      have : a = k := by simpa using h1
      rw [← this, hd.2]
  · rw [hl] at hd; simp at hd

/-- The registry of the same users in the other order. -/
theorem other_registry : ∃ st', Contract.run .debug (Contract.new k0) [.join 0 b, .join 7 a, .join 0 a] = .ok st' ∧
    st'.pks = [k0, b, a, a] ∧ ∀ pk, pk = k0 ∨ pk = a ∨ pk = b → Registered st' pk ∧ (pk = a → regIndex st' pk = 3) := by
  refine ⟨_, rfl, rfl, ?_⟩
  rintro pk (rfl | rfl | rfl) <;>
    simp [Registered, regIndex, join, Contract.new, HMap.get_insert, ha, hb, hab, ha.symm, hb.symm, hab.symm]

/-- Case for `C124_registry_does_not_matter` and `C124_production_is_stable`: the epoch's block in two registries. The
account numbers written for the deposit are 1 and 3, the public inputs are the same; and they stay the same when the
first registry grows (`C124_derivation_is_stable`). -/
example : ∃ (st' : Contract.State K) (block' : Block (ZMod F)) (z : List (ZMod F)),
    Contract.run .debug (Contract.new k0) [.join 0 b, .join 7 a, .join 0 a] = .ok st' ∧
    produceBlock st' s2 = .ok block' ∧ block.deposits = [(1, 5)] ∧ block'.deposits = [(3, 5)] ∧
    derivePublicInputs bnCurve toySha st block = .ok z ∧ derivePublicInputs bnCurve toySha st' block' = .ok z ∧
    derivePublicInputs bnCurve toySha (join st 9 a).1 block = .ok z ∧
    ∃ block'', produceBlock (join st 9 a).1 s2 = .ok block'' := by
  obtain ⟨st', h1, h2, h3⟩ := other_registry
  obtain ⟨ur, sr, -, -, e⟩ := (C48_produce_block .debug bnCurve P.hs s2 reached2 st').1
    fun pk hk => (h3 pk (regs2 pk hk)).1
  obtain ⟨z, z1, z2⟩ := C124_registry_does_not_matter .debug .debug .debug bnCurve P.hs toySha s2 reached2 _ _ _ _ st st'
    registered h1 few (by rw [h2]; show 4 ≤ 4294967296; omega) block _ produced e
  refine ⟨st', _, z, h1, e, facts.2.2.2.2.2.2.1, ?_, z1, z2,
    C124_derivation_is_stable .debug bnCurve toySha st _ [.join 9 a] block z z1 rfl,
    C124_production_is_stable .debug .debug bnCurve P.hs s2 reached2 st _ [.join 9 a] block produced rfl⟩
  dsimp only
  rw [deposits2]
  simp only [List.map_cons, List.map_nil]
  rw [(h3 a (Or.inr (Or.inl rfl))).2 rfl]

/-- Case for `C124_last_account_is_the_contract` and `C124_account_numbers_wrap`: if `a` joins after 2^32 - 1 other
accounts, the same epoch has a block, and the deposit for `a` in it is read as one for the contract. -/
example : ∃ (c : Contract.State K) (blk : Block (ZMod F)),
    Contract.run .debug (Contract.new k0) (List.replicate (2 ^ 32 - 1) (.join 0 b)) = .ok c ∧
    produceBlock (join c 0 a).1 s2 = .ok blk ∧ s2.deposits = [(a, 5)] ∧ blk.deposits[0]? = some (0, 5) ∧
    entryOf (join c 0 a).1.pks (0, 5) = some (k0, 5) := by
  obtain ⟨c, hc, hpk, -, hw⟩ := C124_last_account_is_the_contract .debug .debug bnCurve P.hs s2 reached2 k0 b a 0
  have hN : (2 ^ 32 - 1 : Nat) ≠ 0 := by norm_num
  have hm : ∀ pk, pk = k0 ∨ pk = a ∨ pk = b → Registered (join c 0 a).1 pk := by
    generalize (2 ^ 32 - 1 : Nat) = N at hc hpk hN
    intro pk h
    obtain ⟨_, _, _, _, hn, _⟩ := C36_registry .debug k0 _ c hc
    have hin : pk = a ∨ pk ∈ c.pks := by
      rw [hpk]
      rcases h with rfl | rfl | rfl
      · exact Or.inr List.mem_cons_self
      · exact Or.inl rfl
      · exact Or.inr (List.mem_cons_of_mem _ (List.mem_replicate.2 ⟨hN, rfl⟩))
    unfold Registered
    simp only [join, HMap.get_insert]
    split_ifs with hka
    · rfl
    · rcases hin with h | h
      · exact absurd h hka
      · cases hg : c.pkIndices.get pk with
        | none => exact absurd h ((hn pk).1 hg)
        | some i => rfl
  obtain ⟨ur, sr, -, -, e⟩ := (C48_produce_block .debug bnCurve P.hs s2 reached2 (join c 0 a).1).1
    fun pk hk => hm pk (regs2 pk hk)
  exact ⟨c, _, hc, e, deposits2, hw _ 0 5 e (by rw [deposits2]; rfl)⟩

end PF.CasesEpoch
