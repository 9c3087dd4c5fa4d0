import Verif.Proof.Storage
import Verif.Props.Validate

/-!
# C116: what a sparse tree stores
-/
set_option linter.unusedSectionVars false
namespace PF.Props
open PF PF.MT PF.Spec
variable {L D : Type} [DecidableEq D]

theorem BuiltOn.in_range {cfg : Config L D} {t : STree D} {c : Nat → L} {W : Nat → Prop}
    (h : BuiltOn cfg t c W) : ∀ i, W i → i < 2 ^ (cfg.height - 1) := by
  induction h with
  | blank e => exact fun _ h => h.elim
  | new h1 h2 h3 => exact h2
  | update _ hi hu ih =>
    rintro j (rfl | hj)
    · exact hi
    · exact ih j hj

theorem BuiltOn.paths {cfg : Config L D} (hH : 2 ≤ cfg.height) {t : STree D} {c : Nat → L}
    {W : Nat → Prop} (h : BuiltOn cfg t c W) : PathsOf cfg.height t.tree.keys W := by
  induction h with
  | @blank t e =>
    have ht : t.tree = [] := by
      simp only [MT.blank, genEmptyHashes_get cfg cfg.height (cfg.height - 1) (by omega),
        Outcome.unwrap_some, Outcome.bind_ok] at e
      cases e; rfl
    rw [ht]
    exact ⟨List.Pairwise.nil, fun k => by simp [BMap.keys]⟩
  | @new t leaves h1 h2 h3 =>
    have hnd : leaves.keys.Nodup := h1.imp (fun h => Nat.ne_of_lt h)
    have hs := new_spec_nodes cfg leaves hH hnd h2
    refine ⟨new_sorted h3, fun k => ?_⟩
    by_cases hl : leaves = []
    · rw [hs.1 hl] at h3; cases h3
    · obtain ⟨t', h4, h6, h5⟩ := hs.2 hl
      rw [h4] at h3; cases h3
      rw [BMap.mem_keys_iff, ← Option.isSome_iff_exists]
      constructor
      · intro hk
        have hlt := h6.range k ((BMap.mem_keys_iff _ _).2 (Option.isSome_iff_exists.1 hk))
        obtain ⟨d, j, e1, e2, rfl⟩ := exists_hidx _ _ hlt
        obtain ⟨i, hi, hij⟩ := (h5 d (cfg.height - 1 - d) j (by omega) e2).1 hk
        refine ⟨i, hi, cfg.height - 1 - d, by omega, ?_⟩
        rw [hij, show cfg.height - 1 - (cfg.height - 1 - d) = d by omega]; rfl
      · rintro ⟨i, hi, ℓ, hℓ, rfl⟩
        exact (h5 (cfg.height - 1 - ℓ) ℓ (i / 2 ^ ℓ) (by omega) (div_pow_lt (by omega) (h2 i hi))).2 ⟨i, hi, rfl⟩
  | @update t c W i v t' p hb hi hu ih => exact pathsOf_update (by omega) (hb.built.rep hH).es ih hi hu

/-- C116: a tree built through the API stores a digest for exactly the nodes on the paths from the written
leaves to the root, each once and in order, and the digest stored for a node is the one the Merkle tree of
the contents has there. -/
theorem C116_stored (cfg : Config L D) (hH : 2 ≤ cfg.height) (t : STree D) (c : Nat → L) (W : Nat → Prop)
    (h : BuiltOn cfg t c W) :
    PathsOf cfg.height t.tree.keys W ∧
    (∀ i, W i → i < 2 ^ (cfg.height - 1)) ∧
    (∀ i ℓ, W i → ℓ < cfg.height → t.tree.get (2 ^ (cfg.height - 1 - ℓ) - 1 + i / 2 ^ ℓ) =
      some (nodeAt cfg.h2 (fun j => cfg.leafHash (c j)) ℓ (i / 2 ^ ℓ))) ∧
    t.root = some (merkleRoot cfg.leafHash cfg.h2 cfg.height c) := by
  have hp := h.paths hH
  have hR := h.built.rep hH
  refine ⟨hp, h.in_range, fun i ℓ hi hℓ => ?_, hR.root⟩
  have hk := (hp.2 (2 ^ (cfg.height - 1 - ℓ) - 1 + i / 2 ^ ℓ)).2 ⟨i, hi, ℓ, hℓ, rfl⟩
  obtain ⟨x, hx⟩ := (BMap.mem_keys_iff _ _).1 hk
  have hn := hR.node (cfg.height - 1 - ℓ) ℓ (i / 2 ^ ℓ) (by omega)
    (div_pow_lt (by omega) (h.in_range i hi))
  simp only [hidx] at hn
  rw [hx] at hn ⊢
  exact congrArg some hn

/-- C116: the stored tree does not depend on how it was built: two trees with the same contents and the
same written positions are the same data structure. -/
theorem C116_same (cfg : Config L D) (hH : 2 ≤ cfg.height) (t t' : STree D) (c c' : Nat → L)
    (W W' : Nat → Prop) (h : BuiltOn cfg t c W) (h' : BuiltOn cfg t' c' W')
    (hc : ∀ i, i < 2 ^ (cfg.height - 1) → c i = c' i) (hW : ∀ i, W i ↔ W' i) : t = t' := by
  have hWW : W = W' := funext fun i => propext (hW i)
  subst hWW
  have hp := h.paths hH
  have hp' := h'.paths hH
  have hR := (h.built.rep hH).congr hc
  have hR' := h'.built.rep hH
  have htree : t.tree = t'.tree := by
    refine BMap.ext_sorted _ _ hp.1 hp'.1 fun k => ?_
    by_cases hk : ∃ i, W i ∧ OnPath cfg.height i k
    · obtain ⟨i, hi, ℓ, hℓ, rfl⟩ := hk
      have e1 := hR.node (cfg.height - 1 - ℓ) ℓ (i / 2 ^ ℓ) (by omega)
        (div_pow_lt (by omega) (h.in_range i hi))
      have e2 := hR'.node (cfg.height - 1 - ℓ) ℓ (i / 2 ^ ℓ) (by omega)
        (div_pow_lt (by omega) (h.in_range i hi))
      obtain ⟨x, hx⟩ := (BMap.mem_keys_iff _ _).1 ((hp.2 _).2 ⟨i, hi, ℓ, hℓ, rfl⟩)
      obtain ⟨y, hy⟩ := (BMap.mem_keys_iff _ _).1 ((hp'.2 _).2 ⟨i, hi, ℓ, hℓ, rfl⟩)
      simp only [hidx] at e1 e2
      rw [hx] at e1 ⊢
      rw [hy] at e2 ⊢
      simp only [Option.getD_some] at e1 e2
      rw [e1, e2]
    · rw [(BMap.get_eq_none_iff _ _).2 (fun hm => hk ((hp.2 k).1 hm)),
        (BMap.get_eq_none_iff _ _).2 (fun hm => hk ((hp'.2 k).1 hm))]
  cases t; cases t'
  simp only at htree
  subst htree
  have e1 := hR.root
  have e2 := hR'.root
  have e3 := hR.es
  have e4 := hR'.es
  simp only at e1 e2 e3 e4
  rw [e1, e2, e3, e4]

theorem keys_length {V : Type} (m : BMap V) : m.keys.length = m.length := by simp [BMap.keys]

theorem sorted_nodup {l : List Nat} (h : l.Pairwise (· < ·)) : l.Nodup := h.imp (fun h => Nat.ne_of_lt h)

/-- C116: a tree in which only positions from a list were written stores at most `height` digests per
position, never more than the `2^height - 1` nodes of the tree, and at least one per written position. -/
theorem C116_size (cfg : Config L D) (hH : 2 ≤ cfg.height) (t : STree D) (c : Nat → L) (W : Nat → Prop)
    (h : BuiltOn cfg t c W) (S : List Nat) :
    ((∀ i, W i → i ∈ S) → t.tree.length ≤ cfg.height * S.length) ∧
    t.tree.length ≤ 2 ^ cfg.height - 1 ∧
    (S.Nodup → (∀ i ∈ S, W i) → S.length ≤ t.tree.length ∧
      (S ≠ [] → S.length + (cfg.height - 1) ≤ t.tree.length)) := by
  have hp := h.paths hH
  have hnd := sorted_nodup hp.1
  refine ⟨fun hS => ?_, ?_, fun hSn hS => ?_⟩
  · have hsub : t.tree.keys ⊆ S.flatMap fun i =>
        (List.range cfg.height).map fun ℓ => 2 ^ (cfg.height - 1 - ℓ) - 1 + i / 2 ^ ℓ := by
      intro k hk
      obtain ⟨i, hi, ℓ, hℓ, rfl⟩ := (hp.2 k).1 hk
      simp only [List.mem_flatMap, List.mem_map, List.mem_range]
      exact ⟨i, hS i hi, ℓ, hℓ, rfl⟩
    have := (List.subperm_of_subset hnd hsub).length_le
    rw [keys_length] at this
    refine this.trans ?_
    simp [List.length_flatMap, Nat.mul_comm]
  · have hlt := (h.built.rep hH).range
    rw [← keys_length]
    have := length_le_of_nodup_lt _ _ hnd hlt
    rwa [show cfg.height - 1 + 1 = cfg.height by omega] at this
  · have hinj : (S.map fun i => hidx (cfg.height - 1) i).Nodup := by
      refine hSn.map_on fun a ha b hb e => ?_
      exact (hidx_inj (h.in_range a (hS a ha)) (h.in_range b (hS b hb)) e).2
    have key : ∀ i ∈ S, S.length + (cfg.height - 1) ≤ t.tree.length := by
      intro i hi
      have hup : ((List.range (cfg.height - 1)).map fun d => hidx d (i / 2 ^ (cfg.height - 1 - d))).Nodup := by
        refine List.nodup_range.map_on fun a ha b hb e => ?_
        rw [List.mem_range] at ha hb
        exact (hidx_inj (div_pow_lt (by omega) (h.in_range i (hS i hi)))
          (div_pow_lt (by omega) (h.in_range i (hS i hi))) e).1
      have hall : ((S.map fun i => hidx (cfg.height - 1) i) ++
          (List.range (cfg.height - 1)).map fun d => hidx d (i / 2 ^ (cfg.height - 1 - d))).Nodup := by
        refine List.nodup_append.2 ⟨hinj, hup, ?_⟩
        intro a ha b hb e
        simp only [List.mem_map, List.mem_range] at ha hb
        obtain ⟨x, hx, rfl⟩ := ha
        obtain ⟨d, hd, rfl⟩ := hb
        have := (hidx_inj (h.in_range x (hS x hx))
          (div_pow_lt (by omega) (h.in_range i (hS i hi))) e).1
        omega
      have hsub : ((S.map fun i => hidx (cfg.height - 1) i) ++
          (List.range (cfg.height - 1)).map fun d => hidx d (i / 2 ^ (cfg.height - 1 - d))) ⊆ t.tree.keys := by
        intro k hk
        rcases List.mem_append.1 hk with hk | hk
        · simp only [List.mem_map] at hk
          obtain ⟨x, hx, rfl⟩ := hk
          exact (hp.2 _).2 ⟨x, hS x hx, 0, by omega, by simp [hidx]⟩
        · simp only [List.mem_map, List.mem_range] at hk
          obtain ⟨d, hd, rfl⟩ := hk
          refine (hp.2 _).2 ⟨i, hS i hi, cfg.height - 1 - d, by omega, ?_⟩
          rw [show cfg.height - 1 - (cfg.height - 1 - d) = d by omega]; rfl
      have := (List.subperm_of_subset hall hsub).length_le
      simpa [keys_length] using this
    constructor
    · cases hS' : S with
      | nil => simp
      | cons i r =>
        have := key i (by rw [hS']; simp)
        rw [← hS']; omega
    · intro hne
      obtain ⟨i, hi⟩ := List.exists_mem_of_ne_nil S hne
      exact key i hi

/-- C116: a write never removes a stored node, adds at most `height` of them, and adds none if the position
was written before; in particular writing the default leaf frees nothing. -/
theorem C116_update (cfg : Config L D) (hH : 2 ≤ cfg.height) (t t' : STree D) (c : Nat → L) (W : Nat → Prop)
    (h : BuiltOn cfg t c W) (i : Nat) (hi : i < 2 ^ (cfg.height - 1)) (v : L) (π : List D)
    (hu : (updateAndProve cfg t i v : Outcome Unit _) = .ok (t', π)) :
    (∀ k ∈ t.tree.keys, k ∈ t'.tree.keys) ∧
    t'.tree.length ≤ t.tree.length + cfg.height ∧
    (W i → t'.tree.keys = t.tree.keys) ∧
    (¬ W i → t.tree.length < t'.tree.length) := by
  have hp := h.paths hH
  have hp' := (BuiltOn.update h hi hu).paths hH
  have hsub : ∀ k ∈ t.tree.keys, k ∈ t'.tree.keys := by
    intro k hk
    obtain ⟨j, hj, hjk⟩ := (hp.2 k).1 hk
    exact (hp'.2 k).2 ⟨j, Or.inr hj, hjk⟩
  refine ⟨hsub, ?_, fun hw => ?_, fun hw => ?_⟩
  · have hs : t'.tree.keys ⊆ t.tree.keys ++
        (List.range cfg.height).map fun ℓ => 2 ^ (cfg.height - 1 - ℓ) - 1 + i / 2 ^ ℓ := by
      intro k hk
      obtain ⟨j, rfl | hj, hjk⟩ := (hp'.2 k).1 hk
      · obtain ⟨ℓ, hℓ, rfl⟩ := hjk
        refine List.mem_append_right _ ?_
        simp only [List.mem_map, List.mem_range]
        exact ⟨ℓ, hℓ, rfl⟩
      · exact List.mem_append_left _ ((hp.2 k).2 ⟨j, hj, hjk⟩)
    have := (List.subperm_of_subset (sorted_nodup hp'.1) hs).length_le
    simpa [keys_length] using this
  · refine List.Perm.eq_of_pairwise (le := (· < ·)) ?_ hp'.1 hp.1 ?_
    · intro a b _ _ h1 h2; omega
    · refine (List.perm_ext_iff_of_nodup (sorted_nodup hp'.1) (sorted_nodup hp.1)).2 fun k => ?_
      refine ⟨fun hk => ?_, hsub k⟩
      obtain ⟨j, rfl | hj, hjk⟩ := (hp'.2 k).1 hk
      · exact (hp.2 k).2 ⟨j, hw, hjk⟩
      · exact (hp.2 k).2 ⟨j, hj, hjk⟩
  · have hnew : hidx (cfg.height - 1) i ∉ t.tree.keys := by
      intro hk
      obtain ⟨j, hj, ℓ, hℓ, e⟩ := (hp.2 _).1 hk
      have := hidx_inj hi (div_pow_lt (N := cfg.height - 1) (d := cfg.height - 1 - ℓ) (by omega)
        (h.in_range j hj)) e
      have h0 : ℓ = 0 := by omega
      subst h0
      rw [this.2] at hw
      exact hw (by simpa using hj)
    have hin : hidx (cfg.height - 1) i ∈ t'.tree.keys :=
      (hp'.2 _).2 ⟨i, Or.inl rfl, 0, by omega, by simp [hidx]⟩
    have hs : hidx (cfg.height - 1) i :: t.tree.keys ⊆ t'.tree.keys := by
      intro k hk
      rcases List.mem_cons.1 hk with rfl | hk
      · exact hin
      · exact hsub k hk
    have := (List.subperm_of_subset (List.nodup_cons.2 ⟨hnew, sorted_nodup hp.1⟩) hs).length_le
    simp only [List.length_cons, keys_length] at this
    exact this

end PF.Props
