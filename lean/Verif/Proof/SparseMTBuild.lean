import Verif.Proof.SparseMTVerify
import Mathlib.Data.List.Nodup
import Mathlib.Data.List.Range

/-! `generate_membership_proof`, `new` and `validate`. -/

namespace PF.MT
open PF.Spec
variable {L D : Type}

/-! ## membership proofs -/

theorem memLoop_eq {cfg : Config L D} {t : STree D} {c : Nat → L} (h : Rep cfg t c) {ε : Type}
    (n ℓ j : Nat) (hn : n + ℓ = cfg.height - 1) (hj : j < 2 ^ n) :
    (memLoop t.tree (t.emptyHashes.drop ℓ) (hidx n j) : Outcome ε _) =
      .ok (pathFrom cfg.h2 (lf cfg c) ℓ n j) := by
  induction n generalizing ℓ j with
  | zero =>
    have : j = 0 := by simpa using hj
    subst this
    rw [memLoop.eq_def]; simp [isRoot, hidx, pathFrom]
  | succ n ih =>
    have hp := hidx_succ_pos n j
    rw [memLoop.eq_def]
    have hroot : isRoot (hidx (n + 1) j) = false := by simp [isRoot]; omega
    have hd : t.emptyHashes.drop ℓ = emp cfg ℓ :: t.emptyHashes.drop (ℓ + 1) := by
      rw [h.es]; exact genEmptyHashes_drop cfg _ ℓ (by omega)
    rw [hd]
    simp only [hroot, Bool.false_eq_true, if_false, sibling_hidx, parent_hidx, Outcome.unwrap_some,
      Outcome.bind_ok]
    rw [ih (ℓ + 1) (j / 2) (by omega) (half_lt hj)]
    simp only [Outcome.bind_ok, pathFrom, isLeftChild_hidx, decide_eq_true_eq]
    rw [h.node (n + 1) ℓ _ hn (sibPos_lt hj), h.node (n + 1) ℓ _ hn hj]
    congr 2
    unfold sibPos
    split
    · congr 2 <;> omega
    · congr 2 <;> omega

theorem genMembershipProof_eq {cfg : Config L D} {t : STree D} {c : Nat → L} (h : Rep cfg t c)
    (i : Nat) (hi : i < 2 ^ (cfg.height - 1)) :
    genMembershipProof cfg t i = .ok (pathFrom cfg.h2 (lf cfg c) 0 (cfg.height - 1) i) := by
  have := memLoop_eq h (ε := Unit) (cfg.height - 1) 0 i (by simp) hi
  simp only [List.drop_zero] at this
  simp [genMembershipProof, convertIndex_eq, this, pathFrom_length]

/-! ## bulk construction -/

/-- Some key lies under node `j` of level `ℓ`. -/
def Under (K : List Nat) (ℓ j : Nat) : Prop := ∃ i ∈ K, i / 2 ^ ℓ = j

theorem nodeAt_not_under {cfg : Config L D} {c : Nat → L} {K : List Nat}
    (hc : ∀ i, i ∉ K → c i = cfg.dflt) (ℓ j : Nat) (h : ¬ Under K ℓ j) :
    nodeAt cfg.h2 (lf cfg c) ℓ j = emp cfg ℓ := by
  rw [emp, nodeAt_const cfg.h2 _ ℓ 0 j]
  apply nodeAt_congr
  intro i h1 h2
  simp only [lf]
  rw [hc]
  intro hi
  apply h
  refine ⟨i, hi, ?_⟩
  rw [Nat.div_eq_iff (by positivity)]
  rw [Nat.add_mul, Nat.one_mul] at h2
  omega

theorem nodeHash_eq {ε : Type} (cfg : Config L D) (t : BMap D) (level i : Nat)
    (h : level ≤ cfg.height) :
    (nodeHash (genEmptyHashes cfg cfg.height) t level i : Outcome ε D) =
      .ok ((t.get i).getD (emp cfg level)) := by
  simp [nodeHash, genEmptyHashes_get cfg cfg.height level h]

/-- One level of `new`. -/
theorem newLevel_eq {ε : Type} {cfg : Config L D} {c : Nat → L} (d ℓ : Nat)
    (hd : d + (ℓ + 1) = cfg.height - 1) (mids : List Nat) (t : BMap D)
    (hm : ∀ x ∈ mids, ∃ j, j < 2 ^ d ∧ x = hidx d j)
    (hB : ∀ j, j < 2 ^ (d + 1) →
      (t.get (hidx (d + 1) j)).getD (emp cfg ℓ) = nodeAt cfg.h2 (lf cfg c) ℓ j) :
    ∃ t', (newLevel cfg (genEmptyHashes cfg cfg.height) ℓ mids t : Outcome ε _) = .ok t' ∧
      (∀ j, j < 2 ^ d → hidx d j ∈ mids →
        t'.get (hidx d j) = some (nodeAt cfg.h2 (lf cfg c) (ℓ + 1) j)) ∧
      (∀ x, x ∉ mids → t'.get x = t.get x) ∧
      (∀ k, k ∈ t'.keys ↔ k ∈ t.keys ∨ k ∈ mids) := by
  induction mids generalizing t with
  | nil => exact ⟨t, rfl, by simp, by simp, by simp⟩
  | cons x rest ih =>
    obtain ⟨j, hj, rfl⟩ := hm x (by simp)
    have hj2 : 2 * j < 2 ^ (d + 1) := by rw [pow_succ]; omega
    have hj3 : 2 * j + 1 < 2 ^ (d + 1) := by rw [pow_succ]; omega
    have hB' : ∀ j', j' < 2 ^ (d + 1) →
        ((t.insert (hidx d j) (nodeAt cfg.h2 (lf cfg c) (ℓ + 1) j)).get (hidx (d + 1) j')).getD
          (emp cfg ℓ) = nodeAt cfg.h2 (lf cfg c) ℓ j' := by
      intro j' hj'
      rw [BMap.get_insert, if_neg, hB j' hj']
      intro e; have := hidx_inj hj' hj e; omega
    obtain ⟨t', h1, h2, h3, h4⟩ := ih (t.insert (hidx d j) (nodeAt cfg.h2 (lf cfg c) (ℓ + 1) j))
      (fun x hx => hm x (by simp [hx])) hB'
    refine ⟨t', ?_, ?_, ?_, ?_⟩
    · simp only [newLevel, nodeHash_eq cfg _ ℓ _ (show ℓ ≤ cfg.height by omega), Outcome.bind_ok,
        leftChild_hidx, rightChild_hidx]
      rw [hB _ hj2, hB _ hj3]
      exact h1
    · intro j' hj' hx
      by_cases hr : hidx d j' ∈ rest
      · exact h2 j' hj' hr
      · rw [h3 _ hr]
        have : hidx d j' = hidx d j := by simpa [hr] using hx
        have := hidx_inj hj' hj this
        rw [this.2]; simp
    · intro x hx
      simp only [List.mem_cons, not_or] at hx
      rw [h3 x hx.2, BMap.get_insert, if_neg hx.1]
    · intro k
      rw [h4, BMap.mem_keys_insert]
      simp only [List.mem_cons]
      constructor
      · rintro ((h | h) | h) <;> simp [h]
      · rintro (h | h | h) <;> simp [h]

/-- State before iteration `ℓ` of `new`. -/
structure NewInv (cfg : Config L D) (c : Nat → L) (K : List Nat) (ℓ : Nat) (mids : List Nat)
    (t : BMap D) : Prop where
  mids_mem : ∀ x, x ∈ mids ↔ ∃ i ∈ K, ∃ d, d + (ℓ + 1) = cfg.height - 1 ∧ x = hidx d (i / 2 ^ (ℓ + 1))
  node : ∀ d ℓ' j, d + ℓ' = cfg.height - 1 → j < 2 ^ d → ℓ' ≤ ℓ → Under K ℓ' j →
    t.get (hidx d j) = some (nodeAt cfg.h2 (lf cfg c) ℓ' j)
  none : ∀ d ℓ' j, d + ℓ' = cfg.height - 1 → j < 2 ^ d → ¬ (ℓ' ≤ ℓ ∧ Under K ℓ' j) →
    t.get (hidx d j) = none
  keys : ∀ k ∈ t.keys, k < 2 ^ (cfg.height - 1 + 1) - 1

theorem mem_upNodes (mids : List Nat) (x : Nat) :
    x ∈ upNodes mids ↔ ∃ y ∈ mids, parent y = some x := by
  simp [upNodes, mem_bsetOf]

theorem parent_hidx_eq (d j x : Nat) (h : parent (hidx d j) = some x) (hj : j < 2 ^ d) :
    ∃ d', d = d' + 1 ∧ x = hidx d' (j / 2) := by
  cases d with
  | zero =>
    have : j = 0 := by simpa using hj
    subst this; simp [parent, hidx] at h
  | succ d => exact ⟨d, rfl, by rw [parent_hidx] at h; simpa using h.symm⟩

theorem upNodes_mids {N ℓ : Nat} {K mids : List Nat} (hK : ∀ i ∈ K, i < 2 ^ N)
    (hm : ∀ x, x ∈ mids ↔ ∃ i ∈ K, ∃ d, d + (ℓ + 1) = N ∧ x = hidx d (i / 2 ^ (ℓ + 1))) :
    ∀ x, x ∈ upNodes mids ↔ ∃ i ∈ K, ∃ d, d + (ℓ + 1 + 1) = N ∧ x = hidx d (i / 2 ^ (ℓ + 1 + 1)) := by
  intro x
  have hdiv : ∀ i, i / 2 ^ (ℓ + 1) / 2 = i / 2 ^ (ℓ + 1 + 1) := by
    intro i; rw [Nat.div_div_eq_div_mul, ← pow_succ]
  rw [mem_upNodes]
  constructor
  · rintro ⟨y, hy, hp⟩
    obtain ⟨i, hi, d, hd, rfl⟩ := (hm y).1 hy
    obtain ⟨d', rfl, rfl⟩ := parent_hidx_eq _ _ _ hp (div_pow_lt hd (hK i hi))
    exact ⟨i, hi, d', by omega, by rw [hdiv]⟩
  · rintro ⟨i, hi, d, hd, rfl⟩
    refine ⟨hidx (d + 1) (i / 2 ^ (ℓ + 1)), (hm _).2 ⟨i, hi, d + 1, by omega, rfl⟩, ?_⟩
    rw [parent_hidx, hdiv]

theorem newLoop_eq {ε : Type} {cfg : Config L D} {c : Nat → L} {K : List Nat}
    (hc : ∀ i, i ∉ K → c i = cfg.dflt) (hK : ∀ i ∈ K, i < 2 ^ (cfg.height - 1))
    (n ℓ : Nat) (mids : List Nat) (t : BMap D) (h : NewInv cfg c K ℓ mids t)
    (hn : n + ℓ = cfg.height) :
    ∃ t', (newLoop cfg (genEmptyHashes cfg cfg.height) n ℓ mids t : Outcome ε _) = .ok t' ∧
      NewInv cfg c K cfg.height (upNodes []) t' := by
  induction n generalizing ℓ mids t with
  | zero =>
    refine ⟨t, rfl, ?_, ?_, ?_, h.keys⟩
    · intro x; rw [mem_upNodes]; simp; intro _ _ _ h1; omega
    · intro d ℓ' j h1 h2 h3 h4; exact h.node d ℓ' j h1 h2 (by omega) h4
    · intro d ℓ' j h1 h2 h3; refine h.none d ℓ' j h1 h2 ?_
      rintro ⟨h4, h5⟩; exact h3 ⟨by omega, h5⟩
  | succ n ih =>
    simp only [newLoop]
    by_cases hlt : ℓ + 1 ≤ cfg.height - 1
    · obtain ⟨d, hd⟩ : ∃ d, d + (ℓ + 1) = cfg.height - 1 := ⟨cfg.height - 1 - (ℓ + 1), by omega⟩
      have hmids : ∀ x ∈ mids, ∃ j, j < 2 ^ d ∧ x = hidx d j := by
        intro x hx
        obtain ⟨i, hi, d', hd', rfl⟩ := (h.mids_mem x).1 hx
        have : d' = d := by omega
        subst this
        exact ⟨_, div_pow_lt hd' (hK i hi), rfl⟩
      obtain ⟨t', h1, h2, h3, h4⟩ := newLevel_eq (ε := ε) (c := c) d ℓ hd mids t hmids (by
        intro j hj
        by_cases hu : Under K ℓ j
        · rw [h.node (d + 1) ℓ j (by omega) hj (le_refl _) hu]; rfl
        · rw [h.none (d + 1) ℓ j (by omega) hj (by tauto), nodeAt_not_under hc ℓ j hu]; rfl)
      have hmem : ∀ j, j < 2 ^ d → (hidx d j ∈ mids ↔ Under K (ℓ + 1) j) := by
        intro j hj
        rw [h.mids_mem]
        constructor
        · rintro ⟨i, hi, d', hd', e⟩
          have : d' = d := by omega
          subst this
          exact ⟨i, hi, ((hidx_inj hj (div_pow_lt hd' (hK i hi)) e).2).symm⟩
        · rintro ⟨i, hi, rfl⟩; exact ⟨i, hi, d, hd, rfl⟩
      have hinv : NewInv cfg c K (ℓ + 1) (upNodes mids) t' := by
        refine ⟨upNodes_mids hK h.mids_mem, ?_, ?_, ?_⟩
        · intro d' ℓ' j e hj hle hu
          by_cases hll : ℓ' = ℓ + 1
          · subst hll
            have : d' = d := by omega
            subst this
            exact h2 j hj ((hmem j hj).2 hu)
          · rw [h3, h.node d' ℓ' j e hj (by omega) hu]
            intro hx
            obtain ⟨j', hj', e'⟩ := hmids _ hx
            have := hidx_inj hj hj' e'; omega
        · intro d' ℓ' j e hj hne
          rw [h3, h.none d' ℓ' j e hj (by rintro ⟨a, b⟩; exact hne ⟨by omega, b⟩)]
          intro hx
          obtain ⟨j', hj', e'⟩ := hmids _ hx
          obtain ⟨rfl, rfl⟩ := hidx_inj hj hj' e'
          exact hne ⟨by omega, by
            have : ℓ' = ℓ + 1 := by omega
            subst this; exact (hmem j hj).1 hx⟩
        · intro k hk
          rcases (h4 k).1 hk with hk | hk
          · exact h.keys k hk
          · obtain ⟨j, hj, rfl⟩ := hmids k hk
            calc hidx d j < 2 ^ (d + 1) - 1 := hidx_lt d j hj
              _ ≤ _ := Nat.sub_le_sub_right (Nat.pow_le_pow_right (by omega) (by omega)) 1
      rw [h1]
      exact ih (ℓ + 1) (upNodes mids) t' hinv (by omega)
    · have hm : mids = [] := by
        rcases mids with _ | ⟨x, r⟩
        · rfl
        · obtain ⟨i, hi, d', hd', _⟩ := (h.mids_mem x).1 (by simp)
          omega
      subst hm
      simp only [newLevel, Outcome.bind_ok]
      apply ih (ℓ + 1) (upNodes []) t ?_ (by omega)
      refine ⟨?_, ?_, ?_, h.keys⟩
      · intro x; rw [mem_upNodes]; simp; intro _ _ _ h1; omega
      · intro d ℓ' j h1 h2 h3 h4; exact h.node d ℓ' j h1 h2 (by omega) h4
      · intro d ℓ' j h1 h2 h3; refine h.none d ℓ' j h1 h2 ?_
        rintro ⟨h4, h5⟩; exact h3 ⟨by omega, h5⟩

theorem leafParents_eq {ε : Type} (d : Nat) (K s : List Nat) :
    ∃ s', (leafParents (2 ^ (d + 1) - 1) K s : Outcome ε _) = .ok s' ∧
      ∀ x, x ∈ s' ↔ x ∈ s ∨ ∃ i ∈ K, x = hidx d (i / 2) := by
  induction K generalizing s with
  | nil => exact ⟨s, rfl, by simp⟩
  | cons i rest ih =>
    have hp : parent (2 ^ (d + 1) - 1 + i) = some (hidx d (i / 2)) := parent_hidx d i
    obtain ⟨s', h1, h2⟩ := ih (bsetInsert (hidx d (i / 2)) s)
    refine ⟨s', by simp [leafParents, hp, h1], ?_⟩
    intro x
    rw [h2, mem_bsetInsert]
    simp only [List.mem_cons, exists_eq_or_imp]
    tauto

theorem insertLeaves_get (cfg : Config L D) (leaves : BMap L) (t : BMap D)
    (hnd : leaves.keys.Nodup) (j : Nat) :
    (insertLeaves cfg leaves t).get (hidx (cfg.height - 1) j) =
      match leaves.get j with
      | some v => some (cfg.leafHash v)
      | none => t.get (hidx (cfg.height - 1) j) := by
  induction leaves generalizing t with
  | nil => rfl
  | cons e rest ih =>
    obtain ⟨k, v⟩ := e
    simp only [BMap.keys, List.map_cons, List.nodup_cons] at hnd
    have := ih (t.insert (2 ^ (cfg.height - 1) - 1 + k) (cfg.leafHash v)) hnd.2
    simp only [insertLeaves, List.foldl_cons] at this ⊢
    rw [this]
    simp only [BMap.get]
    by_cases hjk : j = k
    · subst hjk
      have : BMap.get rest j = none := by
        rw [BMap.get_eq_none_iff]; exact hnd.1
      rw [this]; simp [hidx]
    · simp only [hjk, if_false]
      cases BMap.get rest j with
      | some w => rfl
      | none =>
        simp only [BMap.get_insert]
        rw [if_neg]
        simp only [hidx]; omega

theorem insertLeaves_keys (cfg : Config L D) (leaves : BMap L) (t : BMap D) (k : Nat) :
    k ∈ (insertLeaves cfg leaves t).keys ↔
      k ∈ t.keys ∨ ∃ i ∈ leaves.keys, k = hidx (cfg.height - 1) i := by
  induction leaves generalizing t with
  | nil => simp [insertLeaves, BMap.keys]
  | cons e rest ih =>
    obtain ⟨k', v⟩ := e
    have := ih (t.insert (2 ^ (cfg.height - 1) - 1 + k') (cfg.leafHash v))
    simp only [insertLeaves, List.foldl_cons] at this ⊢
    rw [this, BMap.mem_keys_insert]
    simp only [BMap.keys, List.map_cons, List.mem_cons, exists_eq_or_imp, hidx]
    tauto

theorem length_le_of_nodup_lt (l : List Nat) (n : Nat) (h : l.Nodup) (hb : ∀ x ∈ l, x < n) :
    l.length ≤ n := by
  have h1 : l ⊆ List.range n := fun x hx => List.mem_range.2 (hb x hx)
  have := (List.subperm_of_subset h h1).length_le
  simpa using this

theorem new_assert (n N : Nat) (h : n ≤ 2 ^ N) : treeHeight (2 * 2 ^ Nat.clog 2 n - 1) ≤ N + 1 := by
  unfold treeHeight
  have h1 : Nat.clog 2 n ≤ N := Nat.clog_le_of_le_pow h
  apply Nat.clog_le_of_le_pow
  calc 2 * 2 ^ Nat.clog 2 n - 1 ≤ 2 * 2 ^ Nat.clog 2 n := Nat.sub_le _ _
    _ = 2 ^ (Nat.clog 2 n + 1) := by rw [pow_succ']
    _ ≤ 2 ^ (N + 1) := Nat.pow_le_pow_right (by omega) (by omega)

/-- Result of `new` on any in-range map, with the exact set of stored nodes. -/
theorem new_spec_nodes (cfg : Config L D) (leaves : BMap L) (hH : 2 ≤ cfg.height)
    (hnd : leaves.keys.Nodup) (hr : ∀ i ∈ leaves.keys, i < 2 ^ (cfg.height - 1)) :
    (leaves = [] → new cfg leaves = .err ()) ∧
    (leaves ≠ [] → ∃ t, new cfg leaves = .ok t ∧
      Rep cfg t (fun i => (leaves.get i).getD cfg.dflt) ∧
      ∀ d ℓ j, d + ℓ = cfg.height - 1 → j < 2 ^ d →
        ((t.tree.get (hidx d j)).isSome ↔ Under leaves.keys ℓ j)) := by
  set c : Nat → L := fun i => (leaves.get i).getD cfg.dflt with hcdef
  have hc : ∀ i, i ∉ leaves.keys → c i = cfg.dflt := by
    intro i hi; simp only [hcdef, (BMap.get_eq_none_iff leaves i).2 hi, Option.getD_none]
  obtain ⟨d, hd⟩ : ∃ d, cfg.height - 1 = d + 1 := ⟨cfg.height - 2, by omega⟩
  have hlen : leaves.length ≤ 2 ^ (cfg.height - 1) := by
    have := length_le_of_nodup_lt leaves.keys _ hnd hr
    simpa [BMap.keys] using this
  have hassert := new_assert leaves.length (cfg.height - 1) hlen
  rw [show cfg.height - 1 + 1 = cfg.height by omega] at hassert
  obtain ⟨mids, hm1, hm2⟩ := leafParents_eq (ε := Unit) d leaves.keys []
  rw [← hd] at hm1
  have hinv : NewInv cfg c leaves.keys 0 mids (insertLeaves cfg leaves []) := by
    refine ⟨?_, ?_, ?_, ?_⟩
    · intro x
      rw [hm2]
      simp only [List.not_mem_nil, false_or]
      constructor
      · rintro ⟨i, hi, rfl⟩; exact ⟨i, hi, d, by omega, by simp⟩
      · rintro ⟨i, hi, d', hd', rfl⟩
        have : d' = d := by omega
        subst this; exact ⟨i, hi, by simp⟩
    · intro d' ℓ' j e hj hle hu
      have : ℓ' = 0 := by omega
      subst this
      have : d' = cfg.height - 1 := by omega
      subst this
      obtain ⟨i, hi, rfl⟩ := hu
      rw [insertLeaves_get cfg leaves [] hnd]
      obtain ⟨v, hv⟩ := (BMap.mem_keys_iff leaves i).1 hi
      simp [hv, nodeAt, lf, hcdef]
    · intro d' ℓ' j e hj hne
      by_cases h0 : ℓ' = 0
      · subst h0
        have : d' = cfg.height - 1 := by omega
        subst this
        have hj' : j ∉ leaves.keys := fun hjk => hne ⟨le_refl _, j, hjk, by simp⟩
        rw [insertLeaves_get cfg leaves [] hnd, (BMap.get_eq_none_iff leaves j).2 hj']; rfl
      · rw [BMap.get_eq_none_iff, insertLeaves_keys]
        rintro (h | ⟨i, hi, e'⟩)
        · simp [BMap.keys] at h
        · have := hidx_inj hj (hr i hi) e'; omega
    · intro k hk
      rw [insertLeaves_keys] at hk
      rcases hk with h | ⟨i, hi, rfl⟩
      · simp [BMap.keys] at h
      · exact hidx_lt _ _ (hr i hi)
  obtain ⟨t', ht1, ht2⟩ := newLoop_eq (ε := Unit) hc hr cfg.height 0 mids _ hinv (by omega)
  have hnew : new cfg leaves = match t'.get 0 with
      | none => .err ()
      | some r => .ok { tree := t', root := some r, emptyHashes := genEmptyHashes cfg cfg.height } := by
    simp only [new, hassert, not_true, if_false, hm1, Outcome.bind_ok, ht1]
    cases t'.get 0 <;> rfl
  constructor
  · intro he
    have h0 : t'.get 0 = none := by
      have := ht2.none 0 (cfg.height - 1) 0 (by omega) (by simp) (by
        rintro ⟨_, i, hi, _⟩; subst he; simp [BMap.keys] at hi)
      simpa [hidx_zero] using this
    rw [hnew, h0]
  · intro he
    obtain ⟨i, hi⟩ : ∃ i, i ∈ leaves.keys := by
      cases hl : leaves with
      | nil => exact absurd hl he
      | cons e r => exact ⟨e.1, by simp [BMap.keys]⟩
    have h0 : t'.get 0 = some (nodeAt cfg.h2 (lf cfg c) (cfg.height - 1) 0) := by
      have := ht2.node 0 (cfg.height - 1) 0 (by omega) (by simp) (by omega)
        ⟨i, hi, Nat.div_eq_of_lt (hr i hi)⟩
      simpa [hidx_zero] using this
    rw [hnew, h0]
    refine ⟨_, rfl, ⟨rfl, rfl, ?_, ht2.keys, ?_⟩, ?_⟩
    rotate_left 2
    · intro d' ℓ j e hj
      constructor
      · intro hs
        by_contra hne
        have := ht2.none d' ℓ j e hj (by tauto)
        simp only [this] at hs
        simp at hs
      · intro hk
        have := ht2.node d' ℓ j e hj (by omega) hk
        simp only [this, Option.isSome_some]
    · intro d' ℓ j e hj
      by_cases hu : Under leaves.keys ℓ j
      · rw [ht2.node d' ℓ j e hj (by omega) hu]; rfl
      · rw [ht2.none d' ℓ j e hj (by tauto), nodeAt_not_under hc ℓ j hu]; rfl
    · intro d' ℓ k e hk hs
      by_cases hu : Under leaves.keys 0 k
      · obtain ⟨i', hi', he'⟩ := hu
        simp at he'; subst he'
        have := ht2.node d' ℓ (i' / 2 ^ ℓ) e (div_pow_lt e (hr i' hi')) (by omega) ⟨i', hi', rfl⟩
        simp only [this, Option.isSome_some]
      · have := ht2.none (cfg.height - 1) 0 k (by omega) hk (by tauto)
        simp only [this] at hs
        simp at hs

/-- Result of `new` on any in-range map. -/
theorem new_spec_stored (cfg : Config L D) (leaves : BMap L) (hH : 2 ≤ cfg.height)
    (hnd : leaves.keys.Nodup) (hr : ∀ i ∈ leaves.keys, i < 2 ^ (cfg.height - 1)) :
    (leaves = [] → new cfg leaves = .err ()) ∧
    (leaves ≠ [] → ∃ t, new cfg leaves = .ok t ∧
      Rep cfg t (fun i => (leaves.get i).getD cfg.dflt) ∧
      ∀ j, j < 2 ^ (cfg.height - 1) →
        ((t.tree.get (hidx (cfg.height - 1) j)).isSome ↔ j ∈ leaves.keys)) :=
  ⟨(new_spec_nodes cfg leaves hH hnd hr).1, fun h => by
    obtain ⟨t, h1, h2, h3⟩ := (new_spec_nodes cfg leaves hH hnd hr).2 h
    refine ⟨t, h1, h2, fun j hj => ?_⟩
    rw [h3 (cfg.height - 1) 0 j (by omega) hj]
    simp [Under]⟩

theorem new_spec (cfg : Config L D) (leaves : BMap L) (hH : 2 ≤ cfg.height)
    (hnd : leaves.keys.Nodup) (hr : ∀ i ∈ leaves.keys, i < 2 ^ (cfg.height - 1)) :
    (leaves = [] → new cfg leaves = .err ()) ∧
    (leaves ≠ [] → ∃ t, new cfg leaves = .ok t ∧
      Rep cfg t (fun i => (leaves.get i).getD cfg.dflt)) :=
  ⟨(new_spec_stored cfg leaves hH hnd hr).1, fun h => by
    obtain ⟨t, h1, h2, -⟩ := (new_spec_stored cfg leaves hH hnd hr).2 h
    exact ⟨t, h1, h2⟩⟩

/-! ## which leaves are stored; behaviour outside the range -/

theorem updateAndProve_stored {cfg : Config L D} {t t' : STree D} {c : Nat → L} (h : Rep cfg t c)
    {ε : Type} (hH : 2 ≤ cfg.height) (i : Nat) (v : L) (p : List D) (hi : i < 2 ^ (cfg.height - 1))
    (hu : (updateAndProve cfg t i v : Outcome ε _) = .ok (t', p)) (j : Nat)
    (hj : j < 2 ^ (cfg.height - 1)) :
    (t'.tree.get (hidx (cfg.height - 1) j)) = if j = i then some (cfg.leafHash v)
      else t.tree.get (hidx (cfg.height - 1) j) := by
  obtain ⟨m', h1, h2, h3⟩ := insertLoop_eq (cfg := cfg) (c := c) (i := i) (v := v) (ε := ε)
    (cfg.height - 1) 0 i t.tree hi (by simp)
  have hs := siblingsLoop_eq h (ε := ε) (cfg.height - 1) 0 i (by simp) hi
  have hn0 : nodeAt cfg.h2 (lf cfg (write c i v)) 0 i = cfg.leafHash v := by simp [nodeAt, lf, write]
  rw [hn0] at h1
  simp only [updateAndProve, siblings, convertIndex_eq, hs, Outcome.bind_ok, h1,
    Outcome.ok.injEq, Prod.mk.injEq] at hu
  rw [← hu.1]
  simp only [BMap.get_insert]
  have hN : cfg.height - 1 = (cfg.height - 2) + 1 := by omega
  have hp := hidx_succ_pos (cfg.height - 2) j
  rw [← hN] at hp
  rw [if_neg (by omega), h2 (cfg.height - 1) 0 j (by omega) hj (by omega)]
  simp only [le_refl, true_and, pow_zero, Nat.div_one]
  split
  · rename_i e; subst e; rw [hn0]
  · rfl

theorem siblingsLoop_total {cfg : Config L D} {t : STree D}
    (he : t.emptyHashes = genEmptyHashes cfg cfg.height) {ε : Type} (n ℓ j : Nat)
    (hn : n + ℓ ≤ cfg.height) :
    ∃ s, (siblingsLoop t n ℓ (hidx n j) : Outcome ε _) = .ok s ∧ s.length = n := by
  induction n generalizing ℓ j with
  | zero => exact ⟨[], rfl, rfl⟩
  | succ n ih =>
    obtain ⟨s, h1, h2⟩ := ih (ℓ + 1) (j / 2) (by omega)
    exact ⟨(t.tree.get (hidx (n + 1) (sibPos j))).getD (emp cfg ℓ) :: s, by
      simp only [siblingsLoop, sibling_hidx, parent_hidx, Outcome.unwrap_some, Outcome.bind_ok, he,
        genEmptyHashes_get cfg cfg.height ℓ (by omega), h1], by simp [h2]⟩

theorem insertLoop_total {ε : Type} (h2 : D → D → D) (s : List D) (m : BMap D) (h : D) (j : Nat) :
    ∃ m', (insertLoop h2 s m h (hidx s.length j) : Outcome ε _) = .ok (m', climb h2 s h j) := by
  induction s generalizing m h j with
  | nil => exact ⟨m, rfl⟩
  | cons a rest ih =>
    simp only [insertLoop, List.length_cons, parent_hidx, isLeftChild_hidx, Outcome.unwrap_some,
      Outcome.bind_ok, decide_eq_true_eq, climb_cons]
    exact ih _ _ _

/-- `update_and_prove` never refuses an index. -/
theorem updateAndProve_total {cfg : Config L D} {t : STree D}
    (he : t.emptyHashes = genEmptyHashes cfg cfg.height) {ε : Type} (i : Nat) (v : L) :
    ∃ t' s, (updateAndProve cfg t i v : Outcome ε _) = .ok (t', s) ∧ s.length = cfg.height - 1 ∧
      t'.root = some (climb cfg.h2 s (cfg.leafHash v) i) := by
  obtain ⟨s, h1, h2⟩ := siblingsLoop_total he (ε := ε) (cfg.height - 1) 0 i (by omega)
  obtain ⟨m', h3⟩ := insertLoop_total (ε := ε) cfg.h2 s t.tree (cfg.leafHash v) i
  rw [h2] at h3
  exact ⟨_, s, by simp only [updateAndProve, siblings, convertIndex_eq, h1, Outcome.bind_ok, h3]; rfl, h2, rfl⟩

/-! ## validate -/

theorem validateLevel_true {ε : Type} [DecidableEq D] {cfg : Config L D} {t : STree D} {c : Nat → L}
    (h : Rep cfg t c) (d ℓ : Nat) (hd : d + (ℓ + 1) = cfg.height - 1) (mids : List Nat)
    (hm : ∀ x ∈ mids, ∃ j, j < 2 ^ d ∧ x = hidx d j ∧ (t.tree.get x).isSome) :
    (validateLevel cfg t ℓ mids : Outcome ε Bool) = .ok true := by
  induction mids with
  | nil => rfl
  | cons x rest ih =>
    obtain ⟨j, hj, rfl, hs⟩ := hm x (by simp)
    have hj2 : 2 * j < 2 ^ (d + 1) := by rw [pow_succ]; omega
    have hj3 : 2 * j + 1 < 2 ^ (d + 1) := by rw [pow_succ]; omega
    simp only [validateLevel, h.es, nodeHash_eq cfg _ ℓ _ (show ℓ ≤ cfg.height by omega),
      Outcome.bind_ok, leftChild_hidx, rightChild_hidx]
    rw [h.node (d + 1) ℓ _ (by omega) hj2, h.node (d + 1) ℓ _ (by omega) hj3]
    have hn := h.node d (ℓ + 1) j (by omega) hj
    obtain ⟨x, hx⟩ := Option.isSome_iff_exists.1 hs
    rw [hx] at hn ⊢
    simp only [Option.getD_some] at hn
    simp only [hn]
    rw [if_neg (by simp [nodeAt])]
    exact ih (fun x hx => hm x (by simp [hx]))

theorem validateLoop_true {ε : Type} [DecidableEq D] {cfg : Config L D} {t : STree D} {c : Nat → L}
    (h : Rep cfg t c) (n ℓ : Nat) (K mids : List Nat)
    (hK : ∀ i ∈ K, i < 2 ^ (cfg.height - 1))
    (hst : ∀ i ∈ K, (t.tree.get (hidx (cfg.height - 1) i)).isSome)
    (hm : ∀ x, x ∈ mids ↔ ∃ i ∈ K, ∃ d, d + (ℓ + 1) = cfg.height - 1 ∧ x = hidx d (i / 2 ^ (ℓ + 1))) :
    (validateLoop cfg t n ℓ mids : Outcome ε Bool) = .ok true := by
  induction n generalizing ℓ mids with
  | zero => rfl
  | succ n ih =>
    have hlev : (validateLevel cfg t ℓ mids : Outcome ε Bool) = .ok true := by
      by_cases hlt : ℓ + 1 ≤ cfg.height - 1
      · obtain ⟨d, hd⟩ : ∃ d, d + (ℓ + 1) = cfg.height - 1 := ⟨cfg.height - 1 - (ℓ + 1), by omega⟩
        apply validateLevel_true h d ℓ hd
        intro x hx
        obtain ⟨i, hi, d', hd', rfl⟩ := (hm x).1 hx
        have : d' = d := by omega
        subst this
        exact ⟨_, div_pow_lt hd' (hK i hi), rfl, h.closed d' (ℓ + 1) i hd' (hK i hi) (hst i hi)⟩
      · have hm : mids = [] := by
          rcases mids with _ | ⟨x, r⟩
          · rfl
          · obtain ⟨i, hi, d', hd', _⟩ := (hm x).1 (by simp)
            omega
        subst hm; rfl
    simp only [validateLoop, hlev, Outcome.bind_ok, if_true]
    exact ih (ℓ + 1) (upNodes mids) (upNodes_mids hK hm)

theorem validate_true [DecidableEq D] {cfg : Config L D} {t : STree D} {c : Nat → L}
    (h : Rep cfg t c) (hH : 2 ≤ cfg.height) : validate cfg t = .ok true := by
  obtain ⟨d, hd⟩ : ∃ d, cfg.height - 1 = d + 1 := ⟨cfg.height - 2, by omega⟩
  simp only [validate]
  have hpow := Nat.two_pow_pos (cfg.height - 1)
  have hpow2 := Nat.two_pow_pos d
  apply validateLoop_true h cfg.height 0
    ((List.range (2 ^ (cfg.height - 1))).filter
      (fun i => (t.tree.get (hidx (cfg.height - 1) i)).isSome))
  · intro i hi; simp at hi; exact hi.1
  · intro i hi; simp at hi; exact hi.2
  · intro x
    rw [mem_bsetOf]
    simp only [List.mem_filterMap, List.mem_filter, Bool.and_eq_true, decide_eq_true_eq,
      Bool.not_eq_true', isRoot, beq_eq_false_iff_ne, List.mem_range, Nat.zero_add, pow_one]
    constructor
    · rintro ⟨k, ⟨hk, hge, h0⟩, hp⟩
      have hlt := h.range k hk
      have hk' : k = hidx (d + 1) (k - (2 ^ (cfg.height - 1) - 1)) := by
        rw [← hd, hidx]; omega
      rw [hk', parent_hidx] at hp
      refine ⟨k - (2 ^ (cfg.height - 1) - 1), ⟨?_, ?_⟩, d, by omega, by simpa using hp.symm⟩
      · rw [pow_succ] at hlt; omega
      · rw [hd]; rw [hd] at hk'; rw [← hk']
        obtain ⟨v, hv⟩ := (BMap.mem_keys_iff _ _).1 hk
        simp [hv]
    · rintro ⟨i, ⟨hi, hs⟩, d', hd', rfl⟩
      have : d' = d := by omega
      subst this
      refine ⟨hidx (cfg.height - 1) i, ⟨?_, ?_, ?_⟩, by rw [hd]; exact parent_hidx d' i⟩
      · rw [BMap.mem_keys_iff]; exact Option.isSome_iff_exists.1 hs
      · simp [hidx]
      · rw [hd]; have := hidx_succ_pos d' i; omega

end PF.MT
