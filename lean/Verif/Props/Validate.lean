import Verif.Proof.Validate
import Verif.Proof.SparseMTRep
import Verif.Props.SparseMT

/-!
# C87: what `validate` decides, and the exact behaviour of `generate_proof` (C11)

The node map of `MerkleSparseTree` is public (`pub tree`, sparsemt/mod.rs:51-57), so `validate` may be
called on any map.
-/
set_option linter.unusedSectionVars false
namespace PF.Props
open PF PF.MT PF.Spec
variable {L D : Type} [DecidableEq D]

/-- C87: on a tree with the empty-subtree digests of its configuration and keys inside the tree,
`validate` always answers, and the answer is `true` exactly when every ancestor of every stored leaf is
stored with the hash of its two children. -/
theorem C87_validate_exact (cfg : Config L D) (hH : 2 ≤ cfg.height) (t : STree D)
    (he : t.emptyHashes = genEmptyHashes cfg cfg.height)
    (hr : ∀ k ∈ t.tree.keys, k < 2 ^ cfg.height - 1) :
    (validate cfg t = .ok true ↔
      AncestorsConsistent cfg.leafHash cfg.h2 cfg.dflt cfg.height t.tree) ∧
    (validate cfg t = .ok false ↔
      ¬ AncestorsConsistent cfg.leafHash cfg.h2 cfg.dflt cfg.height t.tree) := by
  obtain ⟨b, hb, hi⟩ := validate_dec hH he hr
  rw [hb]
  refine ⟨⟨fun h => hi.1 (Outcome.ok.inj h), fun h => by rw [hi.2 h]⟩,
    fun h hc => ?_, fun h => ?_⟩
  · rw [hi.2 hc] at h; cases h
  · cases b with
    | false => rfl
    | true => exact absurd (hi.1 rfl) h

/-- C87: for stores without stray inner nodes (no inner node below which no leaf is stored), `true` means
that the digest shown for the root is that of the perfect tree over the shown leaf digests. The condition
is needed: `C87_stray_node_accepted`. -/
theorem C87_validate_sound (cfg : Config L D) (hH : 2 ≤ cfg.height) (t : STree D)
    (he : t.emptyHashes = genEmptyHashes cfg cfg.height)
    (hr : ∀ k ∈ t.tree.keys, k < 2 ^ cfg.height - 1)
    (hs : NoStrayNodes cfg.height t.tree) (hv : validate cfg t = .ok true)
    (c : Nat → L) (hc : ∀ i, i < 2 ^ (cfg.height - 1) →
      shown cfg.leafHash cfg.h2 cfg.dflt cfg.height t.tree 0 i = cfg.leafHash (c i)) :
    shown cfg.leafHash cfg.h2 cfg.dflt cfg.height t.tree (cfg.height - 1) 0 =
      merkleRoot cfg.leafHash cfg.h2 cfg.height c := by
  have hcons := (C87_validate_exact cfg hH t he hr).1.1 hv
  rw [shown_eq_nodeAt hcons hs (cfg.height - 1) le_rfl 0 (by simp), merkleRoot]
  have key : ∀ ℓ j, ℓ ≤ cfg.height - 1 → j < 2 ^ (cfg.height - 1 - ℓ) →
      nodeAt cfg.h2 (shown cfg.leafHash cfg.h2 cfg.dflt cfg.height t.tree 0) ℓ j =
        nodeAt cfg.h2 (fun i => cfg.leafHash (c i)) ℓ j := by
    intro ℓ
    induction ℓ with
    | zero => intro j _ hj; exact hc j hj
    | succ ℓ ih =>
      intro j hℓ hj
      have e : cfg.height - 1 - ℓ = (cfg.height - 1 - (ℓ + 1)) + 1 := by omega
      rw [nodeAt, nodeAt, ih _ (by omega) (by rw [e, pow_succ]; omega),
        ih _ (by omega) (by rw [e, pow_succ]; omega)]
  exact key _ _ le_rfl (by simp)

/-- A toy store: leaf 0 is written, and the right inner node (heap index 2), below which no leaf is
stored, carries the digest 999 hashed into the root. -/
def strayTree : STree Nat :=
  { tree := [(0, 100 * (100 * 5 + 1) + 999), (1, 100 * 5 + 1), (2, 999), (3, 5)]
    root := some (100 * (100 * 5 + 1) + 999)
    emptyHashes := genEmptyHashes toy toy.height }

/-- C87 counterexample: `validate` accepts a store whose root is not the root of its leaves, because an
inner node above no stored leaf is never recomputed. -/
theorem C87_stray_node_accepted :
    validate toy strayTree = .ok true ∧ (∀ k ∈ strayTree.tree.keys, k < 2 ^ toy.height - 1) ∧
    (∀ i, i < 2 ^ (toy.height - 1) →
      shown toy.leafHash toy.h2 toy.dflt toy.height strayTree.tree 0 i =
        toy.leafHash (if i = 0 then 4 else 0)) ∧
    strayTree.root ≠ some (merkleRoot toy.leafHash toy.h2 toy.height (fun i => if i = 0 then 4 else 0)) := by
  refine ⟨by decide, by decide, by decide, by decide⟩

/-- Two levels of the toy store without the stray node satisfy all the hypotheses of
`C87_validate_sound`. -/
example : validate toy toyTree = .ok true ∧ toyTree.emptyHashes = genEmptyHashes toy toy.height ∧
    (∀ k ∈ toyTree.tree.keys, k < 2 ^ toy.height - 1) ∧ NoStrayNodes toy.height toyTree.tree ∧
    ∀ i, i < 2 ^ (toy.height - 1) →
      shown toy.leafHash toy.h2 toy.dflt toy.height toyTree.tree 0 i =
        toy.leafHash (contents (fun _ => 0) [(2, 7), (0, 4), (2, 9)] i) := by
  refine ⟨by decide, by decide, by decide, ?_, by decide⟩
  intro ℓ j hℓ hj hs
  have h2 : toy.height - 1 = 2 := rfl
  rw [h2] at hℓ hj
  obtain rfl | rfl : ℓ = 0 ∨ ℓ = 1 := by omega
  · have : j < 2 := by simpa using hj
    obtain rfl | rfl : j = 0 ∨ j = 1 := by omega
    · exact ⟨0, by unfold LeafStored; decide, by decide⟩
    · exact ⟨2, by unfold LeafStored; decide, by decide⟩
  · have : j = 0 := by simpa using hj
    subst this
    exact ⟨0, by unfold LeafStored; decide, by decide⟩

theorem heapIndex_inj {H ℓ ℓ' j j' : Nat} (hℓ : ℓ ≤ H - 1) (hℓ' : ℓ' ≤ H - 1)
    (hj : j < 2 ^ (H - 1 - ℓ)) (hj' : j' < 2 ^ (H - 1 - ℓ'))
    (e : heapIndex H ℓ j = heapIndex H ℓ' j') : ℓ = ℓ' ∧ j = j' := by
  have := hidx_inj (d := H - 1 - ℓ) (d' := H - 1 - ℓ') hj hj' e
  omega

/-- C87: in a tree built through the API, overwriting the digest of any ancestor of a written leaf by
another value is always detected. -/
theorem C87_tampered_ancestor (cfg : Config L D) (hH : 2 ≤ cfg.height) (t : STree D) (c : Nat → L)
    (h : Built cfg t c) (i : Nat) (hi : LeafStored cfg.height t.tree i) (ℓ : Nat)
    (hℓ : ℓ + 1 ≤ cfg.height - 1) (x : D)
    (hx : t.tree.get (heapIndex cfg.height (ℓ + 1) (i / 2 ^ (ℓ + 1))) ≠ some x) :
    validate cfg { t with tree := t.tree.insert (heapIndex cfg.height (ℓ + 1) (i / 2 ^ (ℓ + 1))) x } =
      .ok false := by
  have hR := h.rep hH
  have hpe : cfg.height - 1 + 1 = cfg.height := by omega
  have hr0 : ∀ k ∈ t.tree.keys, k < 2 ^ cfg.height - 1 := by
    intro k hk; have := hR.range k hk; rwa [hpe] at this
  have hcons := (C87_validate_exact cfg hH t hR.es hr0).1.1 (C09_validate cfg hH t c h)
  have hlt : ∀ k, k ≤ cfg.height - 1 → i / 2 ^ k < 2 ^ (cfg.height - 1 - k) := fun k hk =>
    div_pow_lt (N := cfg.height - 1) (by omega) hi.1
  have hrange : ∀ k ∈ (t.tree.insert (heapIndex cfg.height (ℓ + 1) (i / 2 ^ (ℓ + 1))) x).keys,
      k < 2 ^ cfg.height - 1 := by
    intro k hk
    rcases (BMap.mem_keys_insert _ _ _ _).1 hk with rfl | hk
    · have h1 := hidx_lt (cfg.height - 1 - (ℓ + 1)) _ (hlt (ℓ + 1) hℓ)
      have h2 : 2 ^ (cfg.height - 1 - (ℓ + 1) + 1) ≤ 2 ^ cfg.height :=
        Nat.pow_le_pow_right (by decide) (by omega)
      have h3 : heapIndex cfg.height (ℓ + 1) (i / 2 ^ (ℓ + 1)) =
        hidx (cfg.height - 1 - (ℓ + 1)) (i / 2 ^ (ℓ + 1)) := rfl
      omega
    · exact hr0 k hk
  refine (C87_validate_exact cfg hH
    { t with tree := t.tree.insert (heapIndex cfg.height (ℓ + 1) (i / 2 ^ (ℓ + 1))) x } hR.es hrange).2.2 ?_
  intro hc
  have hp0 := Nat.two_pow_pos (cfg.height - 1)
  have hother : ∀ k j, k ≤ cfg.height - 1 → j < 2 ^ (cfg.height - 1 - k) → k ≠ ℓ + 1 →
      (t.tree.insert (heapIndex cfg.height (ℓ + 1) (i / 2 ^ (ℓ + 1))) x).get
        (heapIndex cfg.height k j) = t.tree.get (heapIndex cfg.height k j) := by
    intro k j hk hj hne
    rw [BMap.get_insert, if_neg]
    intro e
    exact hne (heapIndex_inj hk hℓ hj (hlt (ℓ + 1) hℓ) e).1
  have hst : LeafStored cfg.height
      (t.tree.insert (heapIndex cfg.height (ℓ + 1) (i / 2 ^ (ℓ + 1))) x) i := by
    refine ⟨hi.1, ?_⟩
    rw [hother 0 i (by omega) hi.1 (by omega)]; exact hi.2
  have e1 := hc i ℓ hst hℓ
  have e2 := hcons i ℓ hi hℓ
  have hl := hlt (ℓ + 1) hℓ
  have e : cfg.height - 1 - ℓ = (cfg.height - 1 - (ℓ + 1)) + 1 := by omega
  simp only [shown] at e1 e2
  have e5 : 2 ^ (cfg.height - 1 - ℓ) = 2 ^ (cfg.height - 1 - (ℓ + 1)) * 2 := by rw [e, pow_succ]
  rw [hother ℓ _ (by omega) (by omega) (by omega),
    hother ℓ _ (by omega) (by omega) (by omega), BMap.get_insert_self, ← e2] at e1
  exact hx e1.symm

/-- C87: in a tree built through the API, overwriting the digest of a written leaf by another value is
detected, unless the old and new pairs of sibling digests collide. -/
theorem C87_tampered_leaf (cfg : Config L D) (hH : 2 ≤ cfg.height) (t : STree D) (c : Nat → L)
    (h : Built cfg t c) (i : Nat) (hi : LeafStored cfg.height t.tree i) (x : D)
    (hx : t.tree.get (heapIndex cfg.height 0 i) ≠ some x) :
    validate cfg { t with tree := t.tree.insert (heapIndex cfg.height 0 i) x } = .ok false ∨
    ∃ y s, t.tree.get (heapIndex cfg.height 0 i) = some y ∧ y ≠ x ∧
      s = shown cfg.leafHash cfg.h2 cfg.dflt cfg.height t.tree 0 (if i % 2 = 0 then i + 1 else i - 1) ∧
      (if i % 2 = 0 then cfg.h2 y s = cfg.h2 x s else cfg.h2 s y = cfg.h2 s x) := by
  have hR := h.rep hH
  have hpe : cfg.height - 1 + 1 = cfg.height := by omega
  have hp0 := Nat.two_pow_pos (cfg.height - 1)
  have hp1 : 2 ^ (cfg.height - 1) = 2 ^ (cfg.height - 2) * 2 := by
    rw [← pow_succ]; congr 1; omega
  have hr0 : ∀ k ∈ t.tree.keys, k < 2 ^ cfg.height - 1 := by
    intro k hk; have := hR.range k hk; rwa [hpe] at this
  have hcons := (C87_validate_exact cfg hH t hR.es hr0).1.1 (C09_validate cfg hH t c h)
  have hrange : ∀ k ∈ (t.tree.insert (heapIndex cfg.height 0 i) x).keys,
      k < 2 ^ cfg.height - 1 := by
    intro k hk
    rcases (BMap.mem_keys_insert _ _ _ _).1 hk with rfl | hk
    · have h1 := hidx_lt (cfg.height - 1) i hi.1
      rw [hpe] at h1
      exact h1
    · exact hr0 k hk
  rcases (C87_validate_exact cfg hH { t with tree := t.tree.insert (heapIndex cfg.height 0 i) x }
      hR.es hrange) with ⟨-, hfalse⟩
  by_cases hc : AncestorsConsistent cfg.leafHash cfg.h2 cfg.dflt cfg.height
      (t.tree.insert (heapIndex cfg.height 0 i) x)
  swap
  · exact .inl (hfalse.2 hc)
  right
  have hst : LeafStored cfg.height (t.tree.insert (heapIndex cfg.height 0 i) x) i :=
    ⟨hi.1, by rw [BMap.get_insert_self]; rfl⟩
  have e1 := hc i 0 hst (by omega)
  have e2 := hcons i 0 hi (by omega)
  have hneq : ∀ k j, k ≤ cfg.height - 1 → j < 2 ^ (cfg.height - 1 - k) → ¬(k = 0 ∧ j = i) →
      (t.tree.insert (heapIndex cfg.height 0 i) x).get (heapIndex cfg.height k j) =
        t.tree.get (heapIndex cfg.height k j) := by
    intro k j hk hj hne
    rw [BMap.get_insert, if_neg]
    intro e
    exact hne (heapIndex_inj hk (Nat.zero_le _) hj hi.1 e)
  have hi1 := hi.1
  have hpar : i / 2 < 2 ^ (cfg.height - 1 - 1) := by
    have : cfg.height - 1 - 1 = cfg.height - 2 := by omega
    rw [this]; omega
  rw [hneq 1 _ (by omega) (by simpa using hpar) (by omega), e2] at e1
  obtain ⟨y, hy⟩ := Option.isSome_iff_exists.1 hi.2
  refine ⟨y, _, hy, fun e => hx (by rw [hy, e]), rfl, ?_⟩
  have e3 := Option.some.inj e1
  simp only [Nat.zero_add, pow_one] at e3
  by_cases h2 : i % 2 = 0
  · rw [if_pos h2, if_pos h2]
    have ea : 2 * (i / 2) = i := by omega
    rw [ea] at e3
    simp only [shown] at e3 ⊢
    rw [BMap.get_insert_self, hneq 0 (i + 1) (by omega) (by simp only [Nat.sub_zero]; omega) (by omega), hy] at e3
    exact e3
  · rw [if_neg h2, if_neg h2]
    have ea : 2 * (i / 2) + 1 = i := by omega
    have eb : 2 * (i / 2) = i - 1 := by omega
    rw [ea, eb] at e3
    simp only [shown] at e3 ⊢
    rw [BMap.get_insert_self, hneq 0 (i - 1) (by omega) (by simp only [Nat.sub_zero]; omega) (by omega), hy] at e3
    exact e3

example : LeafStored toy.height toyTree.tree 2 ∧
    validate toy { toyTree with tree := toyTree.tree.insert (heapIndex toy.height 0 2) 77 } = .ok false ∧
    validate toy { toyTree with tree := toyTree.tree.insert (heapIndex toy.height 1 1) 77 } = .ok false := by
  unfold LeafStored; decide

/-! ## C11, exactly -/

/-- A tree built through the API (as `Built`), together with its contents and the set of positions that
were given a leaf: at construction or by a later write. -/
inductive BuiltOn (cfg : Config L D) : STree D → (Nat → L) → (Nat → Prop) → Prop
  | blank {t} : blank cfg = .ok t → BuiltOn cfg t (fun _ => cfg.dflt) (fun _ => False)
  | new {t leaves} : leaves.keys.Pairwise (· < ·) → (∀ i ∈ leaves.keys, i < 2 ^ (cfg.height - 1)) →
      MT.new cfg leaves = .ok t →
      BuiltOn cfg t (fun i => (leaves.get i).getD cfg.dflt) (fun i => i ∈ leaves.keys)
  | update {t c W i v t' p} : BuiltOn cfg t c W → i < 2 ^ (cfg.height - 1) →
      (updateAndProve cfg t i v : Outcome Unit _) = .ok (t', p) →
      BuiltOn cfg t' (write c i v) (fun j => j = i ∨ W j)

theorem BuiltOn.built {cfg : Config L D} {t : STree D} {c : Nat → L} {W : Nat → Prop}
    (h : BuiltOn cfg t c W) : Built cfg t c := by
  induction h with
  | blank e => exact .blank e
  | new h1 h2 h3 => exact .new h1 h2 h3
  | update _ hi hu ih => exact .update ih hi hu

/-- Every tree built through the API has such a set. -/
theorem Built.on {cfg : Config L D} {t : STree D} {c : Nat → L} (h : Built cfg t c) :
    ∃ W, BuiltOn cfg t c W := by
  induction h with
  | blank e => exact ⟨_, .blank e⟩
  | new h1 h2 h3 => exact ⟨_, .new h1 h2 h3⟩
  | update _ hi hu ih => obtain ⟨W, hW⟩ := ih; exact ⟨_, .update hW hi hu⟩

theorem BuiltOn.stored {cfg : Config L D} (hH : 2 ≤ cfg.height) {t : STree D} {c : Nat → L}
    {W : Nat → Prop} (h : BuiltOn cfg t c W) : ∀ j, j < 2 ^ (cfg.height - 1) →
      ((t.tree.get (hidx (cfg.height - 1) j)).isSome ↔ W j) := by
  induction h with
  | @blank t e =>
    have ht : t.tree = [] := by
      simp only [MT.blank, genEmptyHashes_get cfg cfg.height (cfg.height - 1) (by omega),
        Outcome.unwrap_some, Outcome.bind_ok] at e
      cases e; rfl
    intro j _
    simp [ht, BMap.get]
  | @new t leaves h1 h2 h3 =>
    have hnd : leaves.keys.Nodup := h1.imp (fun h => Nat.ne_of_lt h)
    have hs := new_spec_stored cfg leaves hH hnd h2
    by_cases hl : leaves = []
    · rw [hs.1 hl] at h3; cases h3
    · obtain ⟨t', h4, -, h5⟩ := hs.2 hl
      rw [h4] at h3; cases h3
      exact h5
  | @update t c W i v t' p hb hi hu ih =>
    intro j hj
    rw [updateAndProve_stored (hb.built.rep hH) hH i v p hi hu j hj]
    by_cases e : j = i
    · simp [e]
    · simp only [e, if_false, false_or]; exact ih j hj

/-- C11: on every tree built through the API, `generate_proof(i, leaf)` for an in-range `i` either
succeeds or errs, and succeeds exactly when no leaf was ever given for position `i` or `leaf` has the
digest of the leaf stored there. -/
theorem C11_exact (cfg : Config L D) (hH : 2 ≤ cfg.height) (t : STree D) (c : Nat → L)
    (W : Nat → Prop) (h : BuiltOn cfg t c W) (i : Nat) (hi : i < 2 ^ (cfg.height - 1)) (leaf : L) :
    ((∃ p, genProof cfg t i leaf = .ok p) ↔
      (¬ W i ∨ cfg.leafHash leaf = cfg.leafHash (c i))) ∧
    (genProof cfg t i leaf = .err () ↔
      (W i ∧ cfg.leafHash leaf ≠ cfg.leafHash (c i))) := by
  have hR := h.built.rep hH
  have hst := h.stored hH i hi
  have hn := hR.node (cfg.height - 1) 0 i (by omega) hi
  simp only [genProof, convertIndex_eq, genMembershipProof_eq hR i hi]
  cases hx : t.tree.get (hidx (cfg.height - 1) i) with
  | none =>
    have hw : ¬ W i := fun hw => by have := hst.2 hw; rw [hx] at this; cases this
    simp [hw]
  | some x =>
    have hw : W i := hst.1 (by rw [hx]; rfl)
    rw [hx] at hn
    simp only [Option.getD_some, nodeAt, lf] at hn
    subst hn
    by_cases he : cfg.leafHash leaf = cfg.leafHash (c i) <;> simp [he, hw]

theorem chainRoot_start (h2 : D → D → D) (path : List (D × D)) {a b r r' : D} {j : Nat} (h : path ≠ [])
    (h1 : chainRoot h2 path a j = some r) (h3 : chainRoot h2 path b j = some r') : a = b := by
  cases path with
  | nil => exact absurd rfl h
  | cons e rest =>
    obtain ⟨l, r⟩ := e
    simp only [chainRoot] at h1 h3
    split_ifs at h1 h3 with e1 e2
    exact e1.symm.trans e2

/-- C11: and whatever leaf it was called with, the proof it returns is the true path of position `i`: it
verifies for a leaf exactly as the true path does, so a proof obtained for a wrong leaf (possible only on
positions never given a leaf) verifies only if that leaf has the digest of the default leaf. -/
theorem C11_proof_is_the_path (cfg : Config L D) (hH : 2 ≤ cfg.height) (t : STree D) (c : Nat → L)
    (h : Built cfg t c) (i : Nat) (hi : i < 2 ^ (cfg.height - 1)) (leaf : L)
    (p : List (D × D)) (hp : genProof cfg t i leaf = .ok p) :
    p = truePath cfg.leafHash cfg.h2 cfg.height c i ∧
    (∀ b leaf', cfg.height ≤ 63 →
      ((verifyWithIndex b cfg p (merkleRoot cfg.leafHash cfg.h2 cfg.height c) leaf' i
        : Outcome Unit Bool) = .ok true ↔ cfg.leafHash leaf' = cfg.leafHash (c i))) := by
  have hR := h.rep hH
  have e : p = truePath cfg.leafHash cfg.h2 cfg.height c i := by
    simp only [genProof, convertIndex_eq, genMembershipProof_eq hR i hi] at hp
    split at hp
    · split at hp
      · cases hp
      · exact (Outcome.ok.inj hp).symm
    · exact (Outcome.ok.inj hp).symm
  refine ⟨e, fun b leaf' h63 => ?_⟩
  subst e
  have ht := truePath_verifies cfg hH (by omega) c i hi b
  refine ⟨fun hv => ?_, fun hl => ?_⟩
  · have hb : 2 ^ (cfg.height - 1) - 1 + i < U64 := by
      have : 2 ^ (cfg.height - 1) ≤ 2 ^ 63 := Nat.pow_le_pow_right (by omega) (by omega)
      unfold U64; omega
    rw [verifyWithIndex_eq b cfg _ _ _ i hb] at hv ht
    simp only [Outcome.ok.injEq, decide_eq_true_eq] at hv ht
    exact chainRoot_start _ _ hv.2.1 hv.2.2.2 ht.2.2.2
  · simp only [verifyWithIndex] at ht ⊢
    rw [hl]; exact ht

/-- The toy tree is built this way, with positions 0 and 2 given leaves: the leaf at 2 is bound, any
leaf passes at 1. -/
example : ∃ W, BuiltOn toy toyTree (contents (fun _ => 0) [(2, 7), (0, 4), (2, 9)]) W ∧ W 2 ∧ ¬ W 1 ∧
    2 ≤ toy.height := by
  obtain ⟨W, hW⟩ := toyTree_built.on
  have hs := hW.stored (by decide)
  exact ⟨W, hW, (hs 2 (by decide)).1 (by decide), fun h => by
    have := (hs 1 (by decide)).2 h; revert this; decide, by decide⟩

end PF.Props
