import Verif.Proof.SparseMTBuild
import Verif.Spec.Store

/-! `validate` on arbitrary stores. -/
set_option linter.unusedSectionVars false
namespace PF.MT
open PF.Spec
variable {L D : Type} [DecidableEq D]

/-- Node `j` of depth `d`, level `ℓ + 1`, is stored with the hash of its children. -/
def GoodNode (cfg : Config L D) (t : STree D) (d ℓ j : Nat) : Prop :=
  t.tree.get (hidx d j) = some (cfg.h2 ((t.tree.get (hidx (d + 1) (2 * j))).getD (emp cfg ℓ))
    ((t.tree.get (hidx (d + 1) (2 * j + 1))).getD (emp cfg ℓ)))

theorem validateLevel_dec {ε : Type} {cfg : Config L D} {t : STree D}
    (he : t.emptyHashes = genEmptyHashes cfg cfg.height) (d ℓ : Nat) (hd : d + (ℓ + 1) = cfg.height - 1)
    (mids : List Nat) (hm : ∀ x ∈ mids, ∃ j, x = hidx d j) :
    ∃ b, (validateLevel cfg t ℓ mids : Outcome ε Bool) = .ok b ∧
      (b = true ↔ ∀ j, hidx d j ∈ mids → GoodNode cfg t d ℓ j) := by
  induction mids with
  | nil => exact ⟨true, rfl, by simp⟩
  | cons x rest ih =>
    obtain ⟨j, rfl⟩ := hm x (by simp)
    obtain ⟨b, hb, hi⟩ := ih (fun x hx => hm x (by simp [hx]))
    have hcase : ∀ k, hidx d k ∈ hidx d j :: rest ↔ k = j ∨ hidx d k ∈ rest := by
      intro k
      simp only [List.mem_cons, hidx]
      constructor
      · rintro (h | h)
        · exact .inl (by omega)
        · exact .inr h
      · rintro (h | h)
        · exact .inl (by omega)
        · exact .inr h
    simp only [validateLevel, he, nodeHash_eq cfg _ ℓ _ (show ℓ ≤ cfg.height by omega),
      Outcome.bind_ok, leftChild_hidx, rightChild_hidx]
    cases hx : t.tree.get (hidx d j) with
    | none =>
      refine ⟨false, rfl, ?_⟩
      simp only [Bool.false_eq_true, false_iff]
      intro hh
      have := hh j ((hcase j).2 (.inl rfl))
      rw [GoodNode, hx] at this
      cases this
    | some x =>
      simp only []
      by_cases hne : x = cfg.h2 ((t.tree.get (hidx (d + 1) (2 * j))).getD (emp cfg ℓ))
          ((t.tree.get (hidx (d + 1) (2 * j + 1))).getD (emp cfg ℓ))
      · rw [if_neg (by simpa using hne)]
        refine ⟨b, hb, hi.trans ⟨fun hh k hk => ?_, fun hh k hk => hh k ((hcase k).2 (.inr hk))⟩⟩
        rcases (hcase k).1 hk with rfl | hk
        · rw [GoodNode, hx, hne]
        · exact hh k hk
      · rw [if_pos (by simpa using hne)]
        refine ⟨false, rfl, ?_⟩
        simp only [Bool.false_eq_true, false_iff]
        intro hh
        have := hh j ((hcase j).2 (.inl rfl))
        rw [GoodNode, hx] at this
        exact hne (Option.some.inj this)

theorem validateLoop_dec {ε : Type} {cfg : Config L D} {t : STree D}
    (he : t.emptyHashes = genEmptyHashes cfg cfg.height) (n ℓ : Nat) (K mids : List Nat)
    (hn : ℓ + n = cfg.height)
    (hK : ∀ i ∈ K, i < 2 ^ (cfg.height - 1))
    (hm : ∀ x, x ∈ mids ↔ ∃ i ∈ K, ∃ d, d + (ℓ + 1) = cfg.height - 1 ∧ x = hidx d (i / 2 ^ (ℓ + 1))) :
    ∃ b, (validateLoop cfg t n ℓ mids : Outcome ε Bool) = .ok b ∧
      (b = true ↔ ∀ k d i, ℓ ≤ k → d + (k + 1) = cfg.height - 1 → i ∈ K →
        GoodNode cfg t d k (i / 2 ^ (k + 1))) := by
  induction n generalizing ℓ mids with
  | zero => exact ⟨true, rfl, by simp; intro k d _ h1 h2; omega⟩
  | succ n ih =>
    obtain ⟨b', hb', hi'⟩ := ih (ℓ + 1) (upNodes mids) (by omega) (upNodes_mids hK hm)
    by_cases hlt : ℓ + 1 ≤ cfg.height - 1
    · obtain ⟨d, hd⟩ : ∃ d, d + (ℓ + 1) = cfg.height - 1 := ⟨cfg.height - 1 - (ℓ + 1), by omega⟩
      obtain ⟨b, hb, hi⟩ := validateLevel_dec (ε := ε) he d ℓ hd mids (fun x hx => by
        obtain ⟨i, _, d', hd', rfl⟩ := (hm x).1 hx
        have : d' = d := by omega
        subst this; exact ⟨_, rfl⟩)
      have hlev : b = true ↔ ∀ i ∈ K, GoodNode cfg t d ℓ (i / 2 ^ (ℓ + 1)) := by
        rw [hi]
        constructor
        · intro hh i hiK
          exact hh _ ((hm _).2 ⟨i, hiK, d, hd, rfl⟩)
        · intro hh j hj
          obtain ⟨i, hiK, d', hd', e⟩ := (hm _).1 hj
          have : d' = d := by omega
          subst this
          have : j = i / 2 ^ (ℓ + 1) := by simp only [hidx] at e; omega
          rw [this]; exact hh i hiK
      simp only [validateLoop, hb, Outcome.bind_ok]
      cases b with
      | false =>
        refine ⟨false, by simp, ?_⟩
        simp only [Bool.false_eq_true, false_iff]
        intro hh
        exact absurd (hlev.2 fun i hi => hh ℓ d i le_rfl hd hi) (by simp)
      | true =>
        refine ⟨b', by simpa using hb', hi'.trans ⟨fun hh k d' i hk hd' hiK => ?_, fun hh k d' i hk =>
          hh k d' i (by omega)⟩⟩
        rcases Nat.eq_or_lt_of_le hk with rfl | hk
        · have : d' = d := by omega
          subst this; exact hlev.1 rfl i hiK
        · exact hh k d' i hk hd' hiK
    · have hm0 : mids = [] := by
        rcases mids with _ | ⟨x, r⟩
        · rfl
        · obtain ⟨i, hi, d', hd', _⟩ := (hm x).1 (by simp)
          omega
      subst hm0
      simp only [validateLoop, validateLevel, Outcome.bind_ok, if_true]
      exact ⟨b', hb', hi'.trans ⟨fun hh k d i hk hd => by omega, fun hh k d i hk => hh k d i (by omega)⟩⟩

theorem goodNode_iff {cfg : Config L D} {t : STree D} {d ℓ j : Nat} (hd : d + (ℓ + 1) = cfg.height - 1) :
    GoodNode cfg t d ℓ j ↔ t.tree.get (heapIndex cfg.height (ℓ + 1) j) =
      some (cfg.h2 (shown cfg.leafHash cfg.h2 cfg.dflt cfg.height t.tree ℓ (2 * j))
        (shown cfg.leafHash cfg.h2 cfg.dflt cfg.height t.tree ℓ (2 * j + 1))) := by
  have e1 : cfg.height - 1 - (ℓ + 1) = d := by omega
  have e2 : cfg.height - 1 - ℓ = d + 1 := by omega
  simp only [GoodNode, shown, heapIndex, e1, e2, hidx, emp]

theorem validate_dec {cfg : Config L D} {t : STree D} (hH : 2 ≤ cfg.height)
    (he : t.emptyHashes = genEmptyHashes cfg cfg.height)
    (hr : ∀ k ∈ t.tree.keys, k < 2 ^ cfg.height - 1) :
    ∃ b, validate cfg t = .ok b ∧ (b = true ↔
      AncestorsConsistent cfg.leafHash cfg.h2 cfg.dflt cfg.height t.tree) := by
  obtain ⟨d, hd⟩ : ∃ d, cfg.height - 1 = d + 1 := ⟨cfg.height - 2, by omega⟩
  have hpow := Nat.two_pow_pos (cfg.height - 1)
  have hpow2 := Nat.two_pow_pos d
  have hpe : 2 ^ cfg.height = 2 ^ (cfg.height - 1) * 2 := by
    rw [← pow_succ]; congr 1; omega
  obtain ⟨b, hb, hi⟩ := validateLoop_dec (ε := Unit) (cfg := cfg) (t := t) he cfg.height 0
    ((List.range (2 ^ (cfg.height - 1))).filter
      (fun i => (t.tree.get (hidx (cfg.height - 1) i)).isSome))
    (bsetOf ((t.tree.keys.filter
      (fun k => decide (2 ^ (cfg.height - 1) - 1 ≤ k) && !isRoot k)).filterMap parent))
    (by omega) (by intro i hi; simp at hi; exact hi.1) (by
      intro x
      rw [mem_bsetOf]
      simp only [List.mem_filterMap, List.mem_filter, Bool.and_eq_true, decide_eq_true_eq,
        Bool.not_eq_true', isRoot, beq_eq_false_iff_ne, List.mem_range, Nat.zero_add, pow_one]
      constructor
      · rintro ⟨k, ⟨hk, hge, h0⟩, hp⟩
        have hlt := hr k hk
        have hk' : k = hidx (d + 1) (k - (2 ^ (cfg.height - 1) - 1)) := by
          rw [← hd, hidx]; omega
        rw [hk', parent_hidx] at hp
        refine ⟨k - (2 ^ (cfg.height - 1) - 1), ⟨?_, ?_⟩, d, by omega, by simpa using hp.symm⟩
        · omega
        · rw [hd]; rw [hd] at hk'; rw [← hk']
          obtain ⟨v, hv⟩ := (BMap.mem_keys_iff _ _).1 hk
          simp [hv]
      · rintro ⟨i, ⟨hi, hs⟩, d', hd', rfl⟩
        have : d' = d := by omega
        subst this
        refine ⟨hidx (cfg.height - 1) i, ⟨?_, ?_, ?_⟩, by rw [hd]; exact parent_hidx d' i⟩
        · rw [BMap.mem_keys_iff]; exact Option.isSome_iff_exists.1 hs
        · simp [hidx]
        · rw [hd]; have := hidx_succ_pos d' i; omega)
  refine ⟨b, hb, hi.trans ⟨fun hh i ℓ hst hℓ => ?_, fun hh k d' i _ hd' hiK => ?_⟩⟩
  · have hd' : (cfg.height - 1 - (ℓ + 1)) + (ℓ + 1) = cfg.height - 1 := by omega
    refine (goodNode_iff hd').1 (hh ℓ _ i (Nat.zero_le _) hd' ?_)
    simp only [List.mem_filter, List.mem_range]
    exact hst
  · rw [goodNode_iff hd']
    simp only [List.mem_filter, List.mem_range] at hiK
    exact hh i k hiK (by omega)

/-- A store that is consistent and without stray nodes shows the tree of its leaves. -/
theorem shown_eq_nodeAt {leafHash : L → D} {h2 : D → D → D} {dflt : L} {height : Nat} {m : BMap D}
    (hc : AncestorsConsistent leafHash h2 dflt height m) (hs : NoStrayNodes height m) (ℓ : Nat)
    (hℓ : ℓ ≤ height - 1) (j : Nat) (hj : j < 2 ^ (height - 1 - ℓ)) :
    shown leafHash h2 dflt height m ℓ j =
      nodeAt h2 (shown leafHash h2 dflt height m 0) ℓ j := by
  induction ℓ generalizing j with
  | zero => rfl
  | succ ℓ ih =>
    have e : height - 1 - ℓ = (height - 1 - (ℓ + 1)) + 1 := by omega
    have h0 : 2 * j < 2 ^ (height - 1 - ℓ) := by rw [e, pow_succ]; omega
    have h1 : 2 * j + 1 < 2 ^ (height - 1 - ℓ) := by rw [e, pow_succ]; omega
    rw [nodeAt, ← ih (by omega) _ h0, ← ih (by omega) _ h1]
    by_cases hex : ∃ i, LeafStored height m i ∧ i / 2 ^ (ℓ + 1) = j
    · obtain ⟨i, hi, rfl⟩ := hex
      rw [shown, hc i ℓ hi hℓ]; rfl
    · have hno : ∀ j', j' / 2 = j → j' < 2 ^ (height - 1 - ℓ) →
          m.get (heapIndex height ℓ j') = none := by
        intro j' hj' hlt
        by_contra hne
        have hsome : (m.get (heapIndex height ℓ j')).isSome := by
          cases h : m.get (heapIndex height ℓ j') with
          | none => exact absurd h hne
          | some _ => rfl
        cases ℓ with
        | zero => exact hex ⟨j', ⟨hlt, hsome⟩, by simpa using hj'⟩
        | succ ℓ =>
          obtain ⟨i, hi, e⟩ := hs ℓ j' (by omega) hlt hsome
          refine hex ⟨i, hi, ?_⟩
          rw [pow_succ, ← Nat.div_div_eq_div_mul, e, hj']
      have hself : m.get (heapIndex height (ℓ + 1) j) = none := by
        by_contra hne
        have hsome : (m.get (heapIndex height (ℓ + 1) j)).isSome := by
          cases h : m.get (heapIndex height (ℓ + 1) j) with
          | none => exact absurd h hne
          | some _ => rfl
        exact hex (hs ℓ j hℓ hj hsome)
      simp only [shown, hself, hno (2 * j) (by omega) h0, hno (2 * j + 1) (by omega) h1,
        Option.getD_none, nodeAt]
      exact emp_succ ⟨leafHash, h2, dflt, height⟩ ℓ

end PF.MT
