import Verif.Props.Width

/-!
# Property C110: `MerkleSparseTree::new` on any map of leaves
-/

set_option linter.unusedSectionVars false

namespace PF.Props
open PF PF.MT PF.Spec

variable {L D : Type}

theorem parent_succ {m x : Nat} (h : parent m = some x) : x + 1 = (m + 1) / 2 ∧ 0 < m := by
  unfold parent at h
  split at h
  · have := Option.some.inj h
    omega
  · cases h

theorem parent_of_pos {m : Nat} (h : 0 < m) : ∃ x, parent m = some x ∧ x + 1 = (m + 1) / 2 := by
  refine ⟨(m - 1) / 2, ?_, by omega⟩
  unfold parent
  rw [if_pos h]

theorem newLevel_total (cfg : Config L D) (es : List D) (level : Nat) (hl : level < es.length)
    (mids : List Nat) (t : BMap D) :
    ∃ t', (newLevel cfg es level mids t : Outcome Unit _) = .ok t' ∧
      ∀ k, k ∈ t'.keys ↔ k ∈ t.keys ∨ k ∈ mids := by
  induction mids generalizing t with
  | nil => exact ⟨t, rfl, by simp⟩
  | cons i rest ih =>
    obtain ⟨e, he⟩ : ∃ e, es[level]? = some e := ⟨es[level], List.getElem?_eq_getElem hl⟩
    obtain ⟨t', h1, h2⟩ := ih (t.insert i (cfg.h2 ((t.get (leftChild i)).getD e) ((t.get (rightChild i)).getD e)))
    refine ⟨t', ?_, ?_⟩
    · simp only [newLevel, nodeHash, he, Outcome.unwrap, bind, Outcome.bind]
      exact h1
    · intro k
      rw [h2, BMap.mem_keys_insert]
      simp only [List.mem_cons]
      tauto

theorem newLoop_total (cfg : Config L D) (es : List D) (n level : Nat) (hl : level + n ≤ es.length)
    (mids : List Nat) (t : BMap D) :
    ∃ t', (newLoop cfg es n level mids t : Outcome Unit _) = .ok t' ∧
      (0 ∈ t'.keys ↔ 0 ∈ t.keys ∨ ∃ m ∈ mids, m + 1 < 2 ^ n) := by
  induction n generalizing level mids t with
  | zero => exact ⟨t, rfl, by simp⟩
  | succ n ih =>
    obtain ⟨t1, h1, h2⟩ := newLevel_total cfg es level (by omega) mids t
    obtain ⟨t', h3, h4⟩ := ih (level + 1) (by omega) (upNodes mids) t1
    refine ⟨t', ?_, ?_⟩
    · simp only [newLoop, h1, bind, Outcome.bind]
      exact h3
    · rw [h4, h2]
      have hp : 2 ^ (n + 1) = 2 * 2 ^ n := by rw [pow_succ']
      have hpos := Nat.two_pow_pos n
      constructor
      · rintro ((h | h) | ⟨m, hm, hlt⟩)
        · exact Or.inl h
        · exact Or.inr ⟨0, h, by omega⟩
        · obtain ⟨y, hy, he⟩ := (mem_upNodes mids m).1 hm
          have := (parent_succ he).1
          exact Or.inr ⟨y, hy, by omega⟩
      · rintro (h | ⟨m, hm, hlt⟩)
        · exact Or.inl (Or.inl h)
        · rcases Nat.eq_zero_or_pos m with rfl | h0
          · exact Or.inl (Or.inr hm)
          · obtain ⟨x, hx, hx'⟩ := parent_of_pos h0
            exact Or.inr ⟨x, (mem_upNodes mids x).2 ⟨m, hm, hx⟩, by omega⟩

theorem new_assert_iff (n h : Nat) (hh : 2 ≤ h) :
    treeHeight (2 * 2 ^ Nat.clog 2 n - 1) ≤ h ↔ n ≤ 2 ^ (h - 1) := by
  constructor
  · intro hle
    by_contra hn
    have hc : h - 1 < Nat.clog 2 n := by
      rw [Nat.lt_clog_iff_pow_lt (by omega)]
      omega
    have : h < treeHeight (2 * 2 ^ Nat.clog 2 n - 1) := by
      unfold treeHeight
      rw [Nat.lt_clog_iff_pow_lt (by omega)]
      have h1 : 2 ^ h ≤ 2 ^ Nat.clog 2 n := Nat.pow_le_pow_right (by omega) (by omega)
      have h2 : 2 ≤ 2 ^ Nat.clog 2 n := by
        calc 2 = 2 ^ 1 := rfl
          _ ≤ _ := Nat.pow_le_pow_right (by omega) (by omega)
      omega
    omega
  · intro hn
    have := new_assert n (h - 1) hn
    rwa [show h - 1 + 1 = h by omega] at this

theorem genEmptyHashes_length' (cfg : Config L D) (n : Nat) : (genEmptyHashes cfg n).length = n + 1 := by
  have key : ∀ (k : Nat) (h : D), (genEmptyHashes.go cfg h k).length = k + 1 := by
    intro k
    induction k with
    | zero => intro h; rfl
    | succ k ih => intro h; simp only [genEmptyHashes.go, List.length_cons, ih]
  exact key _ _

theorem get_isSome_iff (t : BMap D) (k : Nat) : (∃ v, t.get k = some v) ↔ k ∈ t.keys := by
  constructor
  · rintro ⟨v, hv⟩
    by_contra hk
    rw [(BMap.get_eq_none_iff t k).2 hk] at hv
    cases hv
  · intro hk
    cases e : t.get k with
    | none => exact absurd hk ((BMap.get_eq_none_iff t k).1 e)
    | some v => exact ⟨v, rfl⟩

/-- **C110**, exact outcome: for every map of leaves, `new` panics exactly if there are more leaves than
positions; otherwise it succeeds exactly if some index is below three times the number of positions, and
returns an error exactly if there is none. Indices are not checked against the number of positions. -/
theorem C110_outcome (cfg : Config L D) (hH : 2 ≤ cfg.height) (leaves : BMap L) :
    (MT.new cfg leaves = .panic ↔ 2 ^ (cfg.height - 1) < leaves.length) ∧
    ((∃ t, MT.new cfg leaves = .ok t) ↔
      leaves.length ≤ 2 ^ (cfg.height - 1) ∧ ∃ k ∈ leaves.keys, k < 3 * 2 ^ (cfg.height - 1)) ∧
    (MT.new cfg leaves = .err () ↔
      leaves.length ≤ 2 ^ (cfg.height - 1) ∧ ∀ k ∈ leaves.keys, 3 * 2 ^ (cfg.height - 1) ≤ k) := by
  have ha := new_assert_iff leaves.length cfg.height hH
  obtain ⟨d, hd⟩ : ∃ d, cfg.height - 1 = d + 1 := ⟨cfg.height - 2, by omega⟩
  by_cases hl : leaves.length ≤ 2 ^ (cfg.height - 1)
  · obtain ⟨mids, hm1, hm2⟩ := leafParents_eq (ε := Unit) d leaves.keys []
    rw [← hd] at hm1
    obtain ⟨t, ht1, ht2⟩ := newLoop_total cfg (genEmptyHashes cfg cfg.height) cfg.height 0
      (by rw [genEmptyHashes_length']; omega) mids (insertLeaves cfg leaves [])
    have hroot : 0 ∈ t.keys ↔ ∃ k ∈ leaves.keys, k < 3 * 2 ^ (cfg.height - 1) := by
      rw [ht2, insertLeaves_keys]
      have hpw : 2 ^ cfg.height = 2 * 2 ^ (cfg.height - 1) := by
        rw [← pow_succ']; congr 1; omega
      constructor
      · rintro ((h | ⟨i, _, h⟩) | ⟨m, hm, hlt⟩)
        · simp [BMap.keys] at h
        · rw [hd] at h
          exact absurd h.symm (Nat.ne_of_gt (hidx_succ_pos d i))
        · rcases (hm2 m).1 hm with h | ⟨i, hi, rfl⟩
          · cases h
          · refine ⟨i, hi, ?_⟩
            rw [hpw, hd] at hlt
            rw [hd]
            unfold hidx at hlt
            rw [pow_succ] at hlt ⊢
            have := Nat.two_pow_pos d
            omega
      · rintro ⟨i, hi, hlt⟩
        refine Or.inr ⟨hidx d (i / 2), (hm2 _).2 (Or.inr ⟨i, hi, rfl⟩), ?_⟩
        rw [hpw, hd]
        rw [hd] at hlt
        unfold hidx
        rw [pow_succ] at hlt ⊢
        have := Nat.two_pow_pos d
        omega
    have hnew : MT.new cfg leaves = match t.get 0 with
        | none => .err ()
        | some r => .ok { tree := t, root := some r, emptyHashes := genEmptyHashes cfg cfg.height } := by
      unfold MT.new
      simp only [hm1, ht1, bind, Outcome.bind]
      rw [if_neg (by rw [not_not]; exact ha.2 hl)]
      rfl
    rw [hnew]
    have h0 := get_isSome_iff t 0
    cases e : t.get 0 with
    | none =>
      have hno : ¬ ∃ k ∈ leaves.keys, k < 3 * 2 ^ (cfg.height - 1) := by
        rw [← hroot, ← h0, e]; rintro ⟨v, hv⟩; cases hv
      refine ⟨⟨fun h => (by cases h), fun h => (by omega)⟩, ⟨?_, fun h => absurd h.2 hno⟩, ?_⟩
      · rintro ⟨_, h⟩; cases h
      · refine ⟨fun _ => ⟨hl, fun k hk => ?_⟩, fun _ => rfl⟩
        by_contra hlt
        exact hno ⟨k, hk, by omega⟩
    | some r =>
      have hyes := hroot.1 (h0.1 ⟨r, e⟩)
      refine ⟨⟨fun h => (by cases h), fun h => (by omega)⟩, ⟨fun _ => ⟨hl, hyes⟩, fun _ => ⟨_, rfl⟩⟩, ?_⟩
      refine ⟨fun h => (by cases h), fun h => ?_⟩
      obtain ⟨k, hk, hlt⟩ := hyes
      have := h.2 k hk
      omega
  · have hp : MT.new cfg leaves = .panic := by
      unfold MT.new
      dsimp only
      rw [if_pos (fun h => hl (ha.1 h))]
    rw [hp]
    refine ⟨⟨fun _ => (by omega), fun _ => rfl⟩, ⟨?_, fun h => absurd h.1 hl⟩, ⟨fun h => (by cases h), fun h => absurd h.1 hl⟩⟩
    rintro ⟨_, h⟩; cases h

/-! ## one level beyond -/

theorem newLevel_congr (cfg cfg' : Config L D) (h2 : cfg.h2 = cfg'.h2) (es es' : List D) (level : Nat)
    (he : es[level]? = es'[level]?) (mids : List Nat) (t : BMap D) :
    (newLevel cfg es level mids t : Outcome Unit _) = newLevel cfg' es' level mids t := by
  induction mids generalizing t with
  | nil => rfl
  | cons i rest ih =>
    simp only [newLevel, nodeHash, he, h2]
    congr 1
    funext l
    congr 1
    funext r
    exact ih _

theorem newLoop_congr (cfg cfg' : Config L D) (h2 : cfg.h2 = cfg'.h2) (es es' : List D) (n level : Nat)
    (he : ∀ k, k < level + n → es[k]? = es'[k]?) (mids : List Nat) (t : BMap D) :
    (newLoop cfg es n level mids t : Outcome Unit _) = newLoop cfg' es' n level mids t := by
  induction n generalizing level mids t with
  | zero => rfl
  | succ n ih =>
    simp only [newLoop]
    rw [newLevel_congr cfg cfg' h2 es es' level (he _ (by omega))]
    congr 1
    funext t'
    exact ih (level + 1) (fun k hk => he k (by omega)) _ _

theorem upNodes_nil : upNodes [] = [] := rfl

theorem newLoop_nil (cfg : Config L D) (es : List D) (n level : Nat) (t : BMap D) :
    (newLoop cfg es n level [] t : Outcome Unit _) = .ok t := by
  induction n generalizing level with
  | zero => rfl
  | succ n ih =>
    simp only [newLoop, newLevel, upNodes_nil, bind, Outcome.bind]
    exact ih _

/-- Iterations after the root was reached do nothing. -/
theorem newLoop_more (cfg : Config L D) (es : List D) (n level : Nat) (mids : List Nat)
    (hm : ∀ m ∈ mids, m + 1 < 2 ^ n) (t : BMap D) :
    (newLoop cfg es (n + 1) level mids t : Outcome Unit _) = newLoop cfg es n level mids t := by
  induction n generalizing level mids t with
  | zero =>
    have : mids = [] := by
      cases mids with
      | nil => rfl
      | cons a l => have := hm a (by simp); omega
    subst this
    rw [newLoop_nil, newLoop_nil]
  | succ n ih =>
    conv_lhs => rw [newLoop]
    conv_rhs => rw [newLoop]
    congr 1
    funext t'
    refine ih (level + 1) (upNodes mids) ?_ t'
    intro m hm'
    obtain ⟨y, hy, e⟩ := (mem_upNodes mids m).1 hm'
    have h1 := hm y hy
    have h2 := (parent_succ e).1
    rw [pow_succ'] at h1
    omega

/-- The configuration with one level more. -/
def higher (cfg : Config L D) : Config L D := { cfg with height := cfg.height + 1 }

/-- Indices counted from the end of the tree. -/
def beyond (cfg : Config L D) (leaves : BMap L) : BMap L :=
  leaves.map fun e => (e.1 - 2 ^ (cfg.height - 1), e.2)

/-- **C110**, one level beyond: if every index lies between one and three times the number of positions (and
there are at most as many leaves as positions), `new` succeeds and returns the root of a tree *with one level
more*, which holds the leaf of index `k` at position `k` minus the number of positions. -/
theorem C110_one_level_beyond (cfg : Config L D) (hH : 2 ≤ cfg.height) (leaves : BMap L) (hne : leaves ≠ [])
    (hs : leaves.keys.Pairwise (· < ·)) (hlen : leaves.length ≤ 2 ^ (cfg.height - 1))
    (hr : ∀ k ∈ leaves.keys, 2 ^ (cfg.height - 1) ≤ k ∧ k < 3 * 2 ^ (cfg.height - 1)) :
    ∃ t, MT.new cfg leaves = .ok t ∧
      t.root = some (merkleRoot cfg.leafHash cfg.h2 (cfg.height + 1)
        (fun i => (leaves.get (i + 2 ^ (cfg.height - 1))).getD cfg.dflt)) := by
  obtain ⟨d, hd⟩ : ∃ d, cfg.height = d + 2 := ⟨cfg.height - 2, by omega⟩
  have hd1 : cfg.height - 1 = d + 1 := by omega
  have hpos := Nat.two_pow_pos d
  have hp1 : 2 ^ (d + 1) = 2 * 2 ^ d := pow_succ' 2 d
  have hp2 : 2 ^ (d + 2) = 4 * 2 ^ d := by rw [pow_succ', hp1]; omega
  have hkeys : (beyond cfg leaves).keys = leaves.keys.map fun k => k - 2 ^ (cfg.height - 1) := by
    simp [beyond, BMap.keys, List.map_map, Function.comp_def]
  have hnd' : (beyond cfg leaves).keys.Nodup := by
    rw [hkeys]
    refine (List.Pairwise.imp (S := (· ≠ ·)) (fun h => Nat.ne_of_lt h) ?_)
    rw [List.pairwise_map]
    refine List.Pairwise.imp_of_mem ?_ hs
    intro a b ha hb hab
    have h1 := hr a ha
    have h2 := hr b hb
    omega
  have hr' : ∀ i ∈ (beyond cfg leaves).keys, i < 2 ^ ((higher cfg).height - 1) := by
    intro i hi
    rw [hkeys] at hi
    obtain ⟨k, hk, rfl⟩ := List.mem_map.1 hi
    have h1 := (hr k hk).2
    show k - 2 ^ (cfg.height - 1) < 2 ^ (cfg.height + 1 - 1)
    rw [hd1] at h1 ⊢
    rw [show cfg.height + 1 - 1 = d + 2 by omega]
    omega
  have hne' : beyond cfg leaves ≠ [] := by
    intro h
    apply hne
    simpa [beyond] using h
  obtain ⟨t', hn', hrep⟩ := (new_spec (higher cfg) (beyond cfg leaves) (by show 2 ≤ cfg.height + 1; omega)
    hnd' hr').2 hne'
  -- the two computations
  have hins : insertLeaves cfg leaves [] = insertLeaves (higher cfg) (beyond cfg leaves) [] := by
    unfold insertLeaves beyond
    rw [List.foldl_map]
    have key : ∀ (l : BMap L) (t : BMap D), (∀ e ∈ l, 2 ^ (cfg.height - 1) ≤ e.1) →
        l.foldl (fun t e => t.insert (2 ^ (cfg.height - 1) - 1 + e.1) (cfg.leafHash e.2)) t =
        l.foldl (fun t e => t.insert (2 ^ ((higher cfg).height - 1) - 1 + (e.1 - 2 ^ (cfg.height - 1)))
          ((higher cfg).leafHash e.2)) t := by
      intro l
      induction l with
      | nil => intro t _; rfl
      | cons e l ih =>
        intro t h
        have he := h e (by simp)
        simp only [List.foldl_cons]
        have : 2 ^ ((higher cfg).height - 1) - 1 + (e.1 - 2 ^ (cfg.height - 1)) = 2 ^ (cfg.height - 1) - 1 + e.1 := by
          show 2 ^ (cfg.height + 1 - 1) - 1 + _ = _
          rw [hd1] at he ⊢
          rw [show cfg.height + 1 - 1 = d + 2 by omega]
          omega
        rw [this]
        exact ih _ fun x hx => h x (by simp [hx])
    refine key leaves [] fun e he => (hr e.1 ?_).1
    exact List.mem_map.2 ⟨e, he, rfl⟩
  have hmids : (leafParents (2 ^ (cfg.height - 1) - 1) leaves.keys [] : Outcome Unit _) =
      leafParents (2 ^ ((higher cfg).height - 1) - 1) (beyond cfg leaves).keys [] := by
    rw [hkeys]
    have key : ∀ (l : List Nat) (s : List Nat), (∀ k ∈ l, 2 ^ (cfg.height - 1) ≤ k) →
        (leafParents (2 ^ (cfg.height - 1) - 1) l s : Outcome Unit _) =
        leafParents (2 ^ ((higher cfg).height - 1) - 1) (l.map fun k => k - 2 ^ (cfg.height - 1)) s := by
      intro l
      induction l with
      | nil => intro s _; rfl
      | cons k l ih =>
        intro s h
        have he := h k (by simp)
        have : 2 ^ ((higher cfg).height - 1) - 1 + (k - 2 ^ (cfg.height - 1)) = 2 ^ (cfg.height - 1) - 1 + k := by
          show 2 ^ (cfg.height + 1 - 1) - 1 + _ = _
          rw [hd1] at he ⊢
          rw [show cfg.height + 1 - 1 = d + 2 by omega]
          omega
        simp only [List.map_cons, leafParents, this]
        congr 1
        funext p
        exact ih _ fun x hx => h x (by simp [hx])
    exact key leaves.keys [] fun k hk => (hr k hk).1
  obtain ⟨mids, hm1, hm2⟩ := leafParents_eq (ε := Unit) d leaves.keys []
  rw [← hd1] at hm1
  have hm1' := hmids.symm.trans hm1
  have hmb : ∀ m ∈ mids, m + 1 < 2 ^ cfg.height := by
    intro m hm
    rcases (hm2 m).1 hm with h | ⟨i, hi, rfl⟩
    · cases h
    · have := (hr i hi).2
      rw [hd1] at this
      rw [hd]
      unfold hidx
      omega
  have hes : ∀ k, k < 0 + cfg.height →
      (genEmptyHashes cfg cfg.height)[k]? = (genEmptyHashes (higher cfg) (cfg.height + 1))[k]? := by
    intro k hk
    rw [genEmptyHashes_get cfg cfg.height k (by omega), genEmptyHashes_get (higher cfg) (cfg.height + 1) k (by omega)]
    congr 1
  have hloop := newLoop_congr cfg (higher cfg) rfl _ _ cfg.height 0 hes mids (insertLeaves cfg leaves [])
  have hmore := newLoop_more (higher cfg) (genEmptyHashes (higher cfg) (cfg.height + 1)) cfg.height 0 mids hmb
    (insertLeaves cfg leaves [])
  obtain ⟨tr, htr, _⟩ := newLoop_total cfg (genEmptyHashes cfg cfg.height) cfg.height 0
      (by rw [genEmptyHashes_length']; omega) mids (insertLeaves cfg leaves [])
  obtain ⟨t, ht⟩ := (C110_outcome cfg hH leaves).2.1.2 ⟨hlen, by
    cases hl : leaves.keys with
    | nil => simp [BMap.keys] at hl; exact absurd hl hne
    | cons k l => exact ⟨k, by simp, (hr k (by rw [hl]; simp)).2⟩⟩
  refine ⟨t, ht, ?_⟩
  have hroot : t.root = t'.root := by
    have e1 : MT.new cfg leaves = match tr.get 0 with
        | none => .err ()
        | some r => .ok { tree := tr, root := some r, emptyHashes := genEmptyHashes cfg cfg.height } := by
      unfold MT.new
      simp only [hm1, htr, bind, Outcome.bind]
      rw [if_neg (by rw [not_not]; exact (new_assert_iff _ _ hH).2 hlen)]
      rfl
    have e2 : MT.new (higher cfg) (beyond cfg leaves) = match tr.get 0 with
        | none => .err ()
        | some r => .ok { tree := tr, root := some r, emptyHashes := genEmptyHashes (higher cfg) (cfg.height + 1) } := by
      have hl2 : (beyond cfg leaves).length = leaves.length := by simp [beyond]
      have hA : treeHeight (2 * 2 ^ Nat.clog 2 (beyond cfg leaves).length - 1) ≤ (higher cfg).height := by
        rw [hl2]
        have := (new_assert_iff _ _ hH).2 hlen
        exact le_trans this (Nat.le_succ _)
      have hL : (newLoop (higher cfg) (genEmptyHashes (higher cfg) (higher cfg).height) (higher cfg).height 0 mids
          (insertLeaves (higher cfg) (beyond cfg leaves) []) : Outcome Unit _) = .ok tr := by
        rw [← hins]
        exact hmore.trans (hloop.symm.trans htr)
      unfold MT.new
      simp only [hm1', hL, bind, Outcome.bind]
      rw [if_neg (by rw [not_not]; exact hA)]
      rfl
    rw [e1] at ht
    rw [e2] at hn'
    cases e : tr.get 0 with
    | none => rw [e] at ht; cases ht
    | some r =>
      rw [e] at ht hn'
      rw [← Outcome.ok.inj ht, ← Outcome.ok.inj hn']
  rw [hroot, hrep.root]
  have hcont : (fun i => ((beyond cfg leaves).get i).getD (higher cfg).dflt) =
      fun i => (leaves.get (i + 2 ^ (cfg.height - 1))).getD cfg.dflt := by
    funext i
    have key : ∀ l : BMap L, (∀ k ∈ l.keys, 2 ^ (cfg.height - 1) ≤ k) →
        (beyond cfg l).get i = BMap.get l (i + 2 ^ (cfg.height - 1)) := by
      intro l
      induction l with
      | nil => intro _; rfl
      | cons e l ih =>
        intro h
        obtain ⟨k, v⟩ := e
        have hk : 2 ^ (cfg.height - 1) ≤ k := h k (by simp [BMap.keys])
        have hih := ih fun x hx => h x (by simp only [BMap.keys] at hx ⊢; simp [hx])
        show (if i = k - 2 ^ (cfg.height - 1) then some v else (beyond cfg l).get i) =
          if i + 2 ^ (cfg.height - 1) = k then some v else BMap.get l (i + 2 ^ (cfg.height - 1))
        rw [hih]
        by_cases e : i + 2 ^ (cfg.height - 1) = k
        · rw [if_pos e, if_pos (by omega)]
        · rw [if_neg e, if_neg (by omega)]
    rw [key leaves fun k hk => (hr k hk).1]
    rfl
  rw [hcont]
  rfl

/-- **C110**, the tree built is damaged. With the leaves 4 at position 0 and 7 at index 5 (of a tree of four
positions) `new` returns a tree: no membership proof is generated for index 5, the membership proof generated
for position 0 does not verify for the leaf 4 that was put there, and `validate` answers false. -/
theorem C110_out_of_range_corrupts :
    ∃ (t : STree Nat) (r : Nat) (path : List (Nat × Nat)), MT.new toy [(0, 4), (5, 7)] = .ok t ∧
      t.root = some r ∧ genMembershipProof toy t 5 = .err () ∧ genMembershipProof toy t 0 = .ok path ∧
      (verifyWithIndex .debug toy path r 4 0 : Outcome Unit Bool) = .ok false ∧
      validate toy t = .ok false :=
  ⟨_, _, _, rfl, rfl, rfl, rfl, rfl, rfl⟩

/-- Non-vacuity of `C110_one_level_beyond`: the leaf 7 at index 5 of a tree of four positions gives the root of
the tree of eight positions with 7 at position 1. -/
example : ∃ t, MT.new toy [(5, 7)] = .ok t ∧
    t.root = some (merkleRoot toy.leafHash toy.h2 4 (fun i => if i = 1 then 7 else 0)) := by
  obtain ⟨t, h1, h2⟩ := C110_one_level_beyond toy (by decide) [(5, 7)] (by decide) (by decide) (by decide)
    (by decide)
  refine ⟨t, h1, h2.trans ?_⟩
  decide

/-- Non-vacuity of `C110_outcome`: the three outcomes. -/
example : MT.new toy [(0, 1), (1, 1), (2, 1), (3, 1), (4, 1)] = .panic ∧ MT.new toy [(12, 1)] = .err () ∧
    ∃ t, MT.new toy [(11, 1)] = .ok t := by
  refine ⟨(C110_outcome toy (by decide) _).1.2 (by decide), (C110_outcome toy (by decide) _).2.2.2 ⟨by decide, by decide⟩,
    (C110_outcome toy (by decide) _).2.1.2 ⟨by decide, 11, by decide, by decide⟩⟩

/-! ## indices near `2^64` -/

theorem w_insertLeaves_panics (cfg : Config L D) (leaves : BMap L) (t : BMap D)
    (h : ∃ k ∈ leaves.keys, U64 ≤ 2 ^ (cfg.height - 1) - 1 + k) :
    (W.insertLeaves .debug cfg leaves t : Outcome Unit _) = .panic := by
  induction leaves generalizing t with
  | nil => obtain ⟨k, hk, _⟩ := h; simp [BMap.keys] at hk
  | cons e rest ih =>
    by_cases he : 2 ^ (cfg.height - 1) - 1 + e.1 < U64
    · have h' : ∃ k ∈ BMap.keys rest, U64 ≤ 2 ^ (cfg.height - 1) - 1 + k := by
        obtain ⟨k, hk, hk'⟩ := h
        simp only [BMap.keys, List.map_cons, List.mem_cons] at hk
        rcases hk with rfl | hk
        · exact absurd he (Nat.not_lt.2 hk')
        · exact ⟨k, hk, hk'⟩
      unfold W.insertLeaves addU64
      rw [if_pos he]
      exact ih _ h'
    · unfold W.insertLeaves addU64
      rw [if_neg he]
      rfl

theorem w_newLevel_panics (cfg : Config L D) (es : List D) (level : Nat) (hl : level < es.length)
    (mids : List Nat) (t : BMap D) (h : ∃ i ∈ mids, U64 ≤ 2 * i + 2) :
    (W.newLevel .debug cfg es level mids t : Outcome Unit _) = .panic := by
  induction mids generalizing t with
  | nil => obtain ⟨k, hk, _⟩ := h; cases hk
  | cons i rest ih =>
    by_cases he : 2 * i + 2 < U64
    · have h' : ∃ k ∈ rest, U64 ≤ 2 * k + 2 := by
        obtain ⟨k, hk, hk'⟩ := h
        rcases List.mem_cons.1 hk with rfl | hk
        · exact absurd he (Nat.not_lt.2 hk')
        · exact ⟨k, hk, hk'⟩
      obtain ⟨e, hes⟩ : ∃ e, es[level]? = some e := ⟨es[level], List.getElem?_eq_getElem hl⟩
      have hc := w_children (ε := Unit) .debug he
      unfold W.newLevel
      rw [hc.1, hc.2]
      simp only [nodeHash, hes, Outcome.unwrap, bind, Outcome.bind]
      exact ih _ h'
    · have hr : (W.rightChild .debug i : Outcome Unit Nat) = .panic := by
        unfold W.rightChild W.mulU64 addU64
        by_cases h2 : 2 * i < U64
        · rw [if_pos h2]
          simp only [bind, Outcome.bind]
          rw [if_neg he]
        · rw [if_neg h2]
          rfl
      unfold W.newLevel
      rw [hr]
      cases hlc : (W.leftChild .debug i : Outcome Unit Nat) with
      | ok v => rfl
      | panic => rfl
      | err e =>
        exfalso
        revert hlc
        unfold W.leftChild W.mulU64 addU64
        simp only [bind]
        split_ifs <;> simp [Outcome.bind] <;> split_ifs <;> simp

/-- **C110**, debug builds: with an index that overflows `u64` when converted (or whose neighbour does), `new`
panics. For all other maps `C103_width_agrees` reduces `new` to `C110_outcome`. -/
theorem C110_overflow_debug (cfg : Config L D) (hH : 2 ≤ cfg.height) (leaves : BMap L)
    (h : ∃ k ∈ leaves.keys, 2 ^ 64 ≤ k + 2 ^ (cfg.height - 1)) : W.new .debug cfg leaves = .panic := by
  have hp : 1 ≤ 2 ^ (cfg.height - 1) := Nat.one_le_two_pow
  have hU : (2 : Nat) ^ 64 = U64 := rfl
  rw [hU] at h
  unfold W.new
  dsimp only
  by_cases ha : treeHeight (2 * 2 ^ Nat.clog 2 leaves.length - 1) ≤ cfg.height
  swap
  · rw [if_pos ha]
  rw [if_neg (not_not.2 ha)]
  by_cases hov : ∃ k ∈ leaves.keys, U64 ≤ 2 ^ (cfg.height - 1) - 1 + k
  · rw [w_insertLeaves_panics cfg leaves [] hov]; rfl
  · have hle : ∀ k ∈ leaves.keys, 2 ^ (cfg.height - 1) - 1 + k < U64 := by
      intro k hk
      by_contra hc
      exact hov ⟨k, hk, Nat.not_lt.1 hc⟩
    have hins : ∀ (l : BMap L) (t : BMap D), (∀ k ∈ l.keys, 2 ^ (cfg.height - 1) - 1 + k < U64) →
        ∃ t', (W.insertLeaves .debug cfg l t : Outcome Unit _) = .ok t' := by
      intro l
      induction l with
      | nil => intro t _; exact ⟨t, rfl⟩
      | cons e l ih =>
        intro t h
        have he : 2 ^ (cfg.height - 1) - 1 + e.1 < U64 := h e.1 (by simp [BMap.keys])
        unfold W.insertLeaves addU64
        rw [if_pos he]
        exact ih _ fun k hk => h k (by simp only [BMap.keys] at hk ⊢; simp [hk])
    obtain ⟨t1, ht1⟩ := hins leaves [] hle
    have hpar : ∀ (l s : List Nat), (∀ k ∈ l, 2 ^ (cfg.height - 1) - 1 + k < U64) →
        (W.leafParents .debug (2 ^ (cfg.height - 1) - 1) l s : Outcome Unit _) =
          leafParents (2 ^ (cfg.height - 1) - 1) l s := by
      intro l
      induction l with
      | nil => intro s _; rfl
      | cons k l ih =>
        intro s h
        unfold W.leafParents leafParents addU64
        rw [if_pos (h k (by simp))]
        simp only [bind, Outcome.bind]
        cases Outcome.unwrap (ε := Unit) (parent (2 ^ (cfg.height - 1) - 1 + k)) with
        | ok p => exact ih _ fun x hx => h x (by simp [hx])
        | err e => rfl
        | panic => rfl
    obtain ⟨d, hd⟩ : ∃ d, cfg.height - 1 = d + 1 := ⟨cfg.height - 2, by omega⟩
    obtain ⟨mids, hm1, hm2⟩ := leafParents_eq (ε := Unit) d leaves.keys []
    rw [← hd] at hm1
    have hm1' := (hpar leaves.keys [] hle).trans hm1
    obtain ⟨n, hn⟩ : ∃ n, cfg.height = n + 1 := ⟨cfg.height - 1, by omega⟩
    have hbad : ∃ i ∈ mids, U64 ≤ 2 * i + 2 := by
      obtain ⟨k, hk, hk'⟩ := h
      refine ⟨hidx d (k / 2), (hm2 _).2 (Or.inr ⟨k, hk, rfl⟩), ?_⟩
      have h1 := hle k hk
      have he : ∃ v, U64 = 2 * v := ⟨2 ^ 63, rfl⟩
      obtain ⟨v, hv⟩ := he
      unfold hidx
      rw [hd, pow_succ'] at hk' h1
      rw [hv] at hk' h1 ⊢
      have := Nat.two_pow_pos d
      omega
    have hlv := w_newLevel_panics cfg (genEmptyHashes cfg cfg.height) 0 (by rw [genEmptyHashes_length']; omega)
      mids t1 hbad
    have hloop : (W.newLoop .debug cfg (genEmptyHashes cfg cfg.height) cfg.height 0 mids t1 : Outcome Unit _) =
        .panic := by
      conv_lhs => rw [show W.newLoop .debug cfg (genEmptyHashes cfg cfg.height) cfg.height 0 mids t1 =
        W.newLoop .debug cfg (genEmptyHashes cfg cfg.height) (n + 1) 0 mids t1 by rw [← hn]]
      unfold W.newLoop
      rw [hlv]
      rfl
    rw [ht1]
    simp only [bind, Outcome.bind, hm1', hloop]

example : W.new .debug toy [(2 ^ 64 - 4, 5)] = .panic :=
  C110_overflow_debug toy (by decide) _ ⟨2 ^ 64 - 4, by simp [BMap.keys], by decide⟩

/-- **C110**, release builds: an index near `2^64` wraps to an inner node: the digest of the leaf is stored
*as that node* and the call succeeds. -/
theorem C110_wraps_release : ∃ t, W.new .release toy [(2 ^ 64 - 2, 5)] = .ok t ∧
    t.tree.get 1 = some (toy.leafHash 5) ∧ t.root = some (toy.h2 (toy.leafHash 5) (toy.leafHash 0)) :=
  have h : W.new .release toy [(2 ^ 64 - 2, 5)] =
      .ok { tree := [(0, 601), (1, 6)], root := some 601, emptyHashes := [1, 101, 10201, 1030301] } := by
    decide +kernel
  ⟨_, h, by decide, by decide⟩

end PF.Props
