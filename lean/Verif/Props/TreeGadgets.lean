import Verif.Proof.TreeGadgets
import Verif.Spec.TreeGadgets
import Verif.Proof.AggregatorCircuitComplete
import Verif.Props.SparseMT
import Verif.Props.SparseMTGadget
import Verif.Props.Data

/-!
# Properties C81–C83: gadgets over dense trees (user ids, tree updates) and the nonce tree
-/

set_option linter.unusedSectionVars false

namespace PF.Props
open PF PF.Spec PF.Circuit
open PF.TreeG (PathVar Path computeIdAndCheck)
variable {L LV G : Type} {p q : Nat} [AddCommGroup G] [Module (ZMod q) G]

/-! ## C81 -/

theorem position_eq (v : PathVar p) : position v = bitsVal v.getLeafPosition := by
  have key : ∀ (l : List Bool), l.foldl (fun n b => 2 * n + b.toNat) 0 = bitsVal l.reverse := by
    intro l
    induction l using List.reverseRecOn with
    | nil => rfl
    | append_singleton l b ih =>
      rw [List.foldl_append, ih, List.reverse_append]
      simp only [List.foldl_cons, List.foldl_nil, List.reverse_singleton, List.singleton_append,
        bitsVal]
      omega
  rw [position, key, List.reverse_append]
  rfl

theorem position_lt {v : PathVar p} {height : Nat} (h : Fits v height) :
    position v < 2 ^ (height - 1) := by
  rw [position_eq]
  have := bitsVal_lt v.getLeafPosition
  have hl : v.getLeafPosition.length = height - 1 := by
    simp only [PathVar.getLeafPosition, List.length_cons, List.length_reverse]
    have := h.bits; omega
  rwa [hl] at this

private theorem cast_eq_iff {a : Nat} (ha : a < p) (x : ZMod p) : (a : ZMod p) = x ↔ x.val = a := by
  have : NeZero p := ⟨by omega⟩
  constructor
  · rintro rfl; rw [ZMod.val_natCast, Nat.mod_eq_of_lt ha]
  · rintro rfl; exact ZMod.natCast_rightInverse x

/-- C81: the id gadget accepts exactly the position the path points at, as a number (trees with fewer
levels than the field has bits). -/
theorem C81_id_is_position (v : PathVar p) (height : Nat) (hv : Fits v height)
    (hb : height - 1 < modBits p) (id : ZMod p) :
    computeIdAndCheck v id ↔ id.val = position v := by
  unfold computeIdAndCheck
  rw [← position_eq]
  exact cast_eq_iff (lt_of_lt_of_le (position_lt hv) (TreeG.two_pow_le_of_lt_modBits hb)) id

/-- C81: for a path produced natively for leaf `i` the only accepted id is `i`. -/
theorem C81_native_path_id (a : Path p) (hb : a.authPath.length + 1 < modBits p)
    (hi : a.leafIndex < 2 ^ (a.authPath.length + 1)) (id : ZMod p) :
    computeIdAndCheck a.alloc id ↔ id.val = a.leafIndex := by
  unfold computeIdAndCheck
  rw [TreeG.getLeafPosition_alloc, bitsVal_natBits, Nat.mod_eq_of_lt hi]
  exact cast_eq_iff (lt_of_lt_of_le hi (TreeG.two_pow_le_of_lt_modBits hb)) id

/-- C81: the membership gadget on an allocated path returns what the native verifier returns. -/
theorem C81_membership_agrees (cfg : TreeG.Config L p) (a : Path p) (root : ZMod p) (leaf : L) :
    a.alloc.verifyMembership cfg root leaf = a.verify cfg root leaf :=
  TreeG.verifyMembership_alloc cfg a root leaf

private theorem sibsUp_length {v : PathVar p} {height : Nat} (h : Fits v height) :
    (sibsUp v).length = height - 1 := by
  simp only [sibsUp, List.length_cons, List.length_reverse]
  have := h.sibs; omega

theorem calc_eq (cfg : TreeG.Config L p) {v : PathVar p} {height : Nat} (h : Fits v height)
    (leaf : L) :
    v.calculateRoot cfg leaf = climb cfg.h2 (sibsUp v) (cfg.leafHash leaf) (position v) := by
  rw [TreeG.calculateRoot_eq cfg v (by have := h.bits; have := h.sibs; omega), position_eq]
  rfl

theorem member_sound (cfg : TreeG.Config L p) (height : Nat) (c : Nat → L) (v : PathVar p)
    (hv : Fits v height) (leaf : L)
    (h : v.verifyMembership cfg (merkleRoot cfg.leafHash cfg.h2 height c) leaf = true) (nl : L) :
    (cfg.leafHash leaf = cfg.leafHash (c (position v)) ∧
      v.calculateRoot cfg nl =
        merkleRoot cfg.leafHash cfg.h2 height (write c (position v) nl)) ∨
    ShowsCollision cfg height c v leaf := by
  simp only [PathVar.verifyMembership, decide_eq_true_eq] at h
  rw [calc_eq cfg hv] at h ⊢
  exact MT.climb_update cfg.h2 cfg.leafHash (height - 1) c (sibsUp v) (position v) leaf nl
    (sibsUp_length hv) (position_lt hv) h

/-- C81: membership and id check together bind the id to the public key: under the root of the public
key tree, the key shown with id `id` is the one registered at position `id`, or the shown path
exhibits a collision. -/
theorem C81_id_binds_key (cv : Curve p q G) (hs : Hashes p) (height : Nat)
    (hb : height - 1 < modBits p) (keys : Nat → G) (v : PathVar p) (hv : Fits v height) (key : G)
    (id : ZMod p)
    (hm : v.verifyMembership (TreeG.pkTreeCfgVar cv hs)
      (merkleRoot (pkCRH cv hs.crh) hs.h2 height keys) key = true)
    (hid : computeIdAndCheck v id) :
    id.val < 2 ^ (height - 1) ∧
    (keys id.val = key ∨ Collides hs.crh (pkEnc cv key) (pkEnc cv (keys id.val)) ∨
      ShowsCollision (TreeG.pkTreeCfg cv hs) height keys v key) := by
  have e : TreeG.pkTreeCfgVar cv hs = TreeG.pkTreeCfg cv hs := by
    simp only [TreeG.pkTreeCfgVar, TreeG.pkTreeCfg]
    congr 1
    funext P; simp [pkVarCRH, pkCRH, pkEncVar_eq]
  rw [e] at hm
  have hpos := (C81_id_is_position v height hv hb id).1 hid
  refine ⟨by rw [hpos]; exact position_lt hv, ?_⟩
  have hp : 1 < p := by
    have h1 := TreeG.two_pow_le_of_lt_modBits hb
    have h2 : 2 ^ 1 ≤ 2 ^ (height - 1) :=
      Nat.pow_le_pow_right (by omega) (by have := hv.bits; omega)
    omega
  rcases member_sound (TreeG.pkTreeCfg cv hs) height keys v hv key hm key with ⟨h, _⟩ | h
  · rw [hpos]
    rcases (C18_digests_bind cv hp hs.crh).2.1 _ _ h with h | h
    · exact .inl h.symm
    · exact .inr (.inl h)
  · exact .inr (.inr h)

private theorem alloc_sibs (a : Path p) : sibsUp a.alloc = a.leafSibling :: a.authPath.reverse := rfl

theorem truePathTo_facts (cfg : TreeG.Config L p) (height : Nat) (hH : 2 ≤ height)
    (c : Nat → L) (i : Nat) :
    Fits (truePathTo cfg height c i).alloc height ∧
    sibsUp (truePathTo cfg height c i).alloc = trueSibs cfg.leafHash cfg.h2 height c i := by
  have hl := Spec.trueSibs_length cfg.leafHash cfg.h2 height c i
  have hl2 : (truePathTo cfg height c i).authPath.length + 2 = height := by
    simp only [truePathTo, List.length_reverse, List.length_tail, hl]; omega
  refine ⟨⟨?_, hl2⟩, ?_⟩
  · rw [TreeG.alloc_len]; exact hl2
  · rw [alloc_sibs]
    simp only [truePathTo, List.reverse_reverse]
    cases hc : trueSibs cfg.leafHash cfg.h2 height c i with
    | nil => rw [hc] at hl; simp at hl; omega
    | cons x xs => simp

theorem truePathTo_position (cfg : TreeG.Config L p) (height : Nat) (hH : 2 ≤ height)
    (c : Nat → L) (i : Nat) (hi : i < 2 ^ (height - 1)) :
    position (truePathTo cfg height c i).alloc = i := by
  rw [position_eq, TreeG.getLeafPosition_alloc, bitsVal_natBits]
  have h := (truePathTo_facts cfg height hH c i).1.sibs
  have : (truePathTo cfg height c i).authPath.length + 1 = height - 1 := by
    have : (truePathTo cfg height c i).alloc.authPath = (truePathTo cfg height c i).authPath := rfl
    rw [this] at h; omega
  rw [this]
  exact Nat.mod_eq_of_lt hi

/-- C81: the true path of position `i` passes both checks, with the leaf at `i` and the id `i`. -/
theorem C81_true_path_accepted (cfg : TreeG.Config L p) (height : Nat) (hH : 2 ≤ height)
    (hb : height - 1 < modBits p) (c : Nat → L) (i : Nat) (hi : i < 2 ^ (height - 1)) :
    (truePathTo cfg height c i).alloc.verifyMembership cfg
      (merkleRoot cfg.leafHash cfg.h2 height c) (c i) = true ∧
    computeIdAndCheck (truePathTo cfg height c i).alloc (i : ZMod p) := by
  obtain ⟨hf, hsib⟩ := truePathTo_facts cfg height hH c i
  have hpos := truePathTo_position cfg height hH c i hi
  constructor
  · simp only [PathVar.verifyMembership, decide_eq_true_eq]
    rw [calc_eq cfg hf, hsib, hpos, Spec.trueSibs_eq]
    have := MT.climb_sibsFrom cfg.h2 (fun k => cfg.leafHash (c k)) (height - 1) 0 i
    rw [Nat.zero_add, Nat.div_eq_of_lt hi] at this
    exact this
  · unfold computeIdAndCheck
    rw [← position_eq, hpos]

/-! ## C82 -/

/-- C82: under the root of a tree with contents `c`, the update gadget is satisfiable only if the old
leaf hashes like the leaf at the position of the path, and then it returns true exactly when the new
root is the root after writing the new leaf there and nowhere else – or the shown path exhibits a
collision. -/
theorem C82_update_sound (cfg : TreeG.Config L p) (height : Nat) (c : Nat → L)
    (u : TreeG.UpdateProofVar L p) (hv : Fits u.path height) (out : Bool)
    (hr : u.prevRoot = merkleRoot cfg.leafHash cfg.h2 height c)
    (h : TreeG.updateAndCheck cfg u out) :
    (cfg.leafHash u.prevLeaf = cfg.leafHash (c (position u.path)) ∧
      (out = true ↔
        u.newRoot = merkleRoot cfg.leafHash cfg.h2 height (write c (position u.path) u.newLeaf))) ∨
    ShowsCollision cfg height c u.path u.prevLeaf := by
  obtain ⟨h1, h2⟩ := h
  rw [hr] at h1
  rcases member_sound cfg height c u.path hv u.prevLeaf h1 u.newLeaf with ⟨h3, h4⟩ | h3
  · left
    refine ⟨h3, ?_⟩
    rw [h2, decide_eq_true_eq, h4]
    exact eq_comm
  · exact .inr h3

/-- C82: with the true path of position `i`, the leaf at `i` as old leaf and any new leaf, the update
gadget is satisfied and returns true exactly for the root after the write. -/
theorem C82_update_complete (cfg : TreeG.Config LV p) (f : L → LV) (ncfg : TreeG.Config L p)
    (h2 : cfg.h2 = ncfg.h2) (hl : ∀ l, cfg.leafHash (f l) = ncfg.leafHash l)
    (height : Nat) (hH : 2 ≤ height) (c : Nat → L) (i : Nat) (hi : i < 2 ^ (height - 1))
    (v : L) (newRoot : ZMod p) :
    TreeG.updateAndCheck cfg
      ((TreeG.UpdateProof.ofTuple (merkleRoot ncfg.leafHash ncfg.h2 height c, c i,
        truePathTo ncfg height c i, newRoot, v)).alloc f)
      (decide (newRoot = merkleRoot ncfg.leafHash ncfg.h2 height (write c i v))) := by
  obtain ⟨hf, hsib⟩ := truePathTo_facts ncfg height hH c i
  have hpos := truePathTo_position ncfg height hH c i hi
  have key : ∀ l, (truePathTo ncfg height c i).alloc.calculateRoot cfg (f l) =
      (truePathTo ncfg height c i).alloc.calculateRoot ncfg l := by
    intro l
    rw [calc_eq cfg hf, calc_eq ncfg hf, h2, hl]
  refine ⟨?_, ?_⟩
  · show decide ((truePathTo ncfg height c i).alloc.calculateRoot cfg (f (c i)) =
      merkleRoot ncfg.leafHash ncfg.h2 height c) = true
    rw [decide_eq_true_eq, key, calc_eq ncfg hf, hsib, hpos, Spec.trueSibs_eq]
    have := MT.climb_sibsFrom ncfg.h2 (fun k => ncfg.leafHash (c k)) (height - 1) 0 i
    rw [Nat.zero_add, Nat.div_eq_of_lt hi] at this
    exact this
  · show _ = decide ((truePathTo ncfg height c i).alloc.calculateRoot cfg (f v) = newRoot)
    have e2 : (truePathTo ncfg height c i).alloc.calculateRoot cfg (f v) =
        merkleRoot ncfg.leafHash ncfg.h2 height (write c i v) := by
      rw [key, calc_eq ncfg hf, hsib, hpos, Spec.trueSibs_eq]
      have hw := MT.climb_sibsFrom_write ncfg.h2 ncfg.leafHash c i v (height - 1) 0
      simp only [pow_zero, Nat.div_one, Nat.zero_add, Nat.div_eq_of_lt hi] at hw
      have e : nodeAt ncfg.h2 (fun k => ncfg.leafHash (write c i v k)) 0 i = ncfg.leafHash v := by
        simp [nodeAt, write]
      rw [e] at hw
      rw [hw]
      rfl
    rw [e2, decide_eq_decide]; exact eq_comm

/-- C82: the gadget does not itself enforce the new root: with a wrong new root it is still
satisfiable, returning false, so callers have to enforce the returned bit. -/
theorem C82_result_must_be_enforced (cfg : TreeG.Config L p) (height : Nat) (hH : 2 ≤ height)
    (c : Nat → L) (i : Nat) (hi : i < 2 ^ (height - 1)) (v : L) (newRoot : ZMod p)
    (hne : newRoot ≠ merkleRoot cfg.leafHash cfg.h2 height (write c i v)) :
    TreeG.updateAndCheck cfg
      ((TreeG.UpdateProof.ofTuple (merkleRoot cfg.leafHash cfg.h2 height c, c i,
        truePathTo cfg height c i, newRoot, v)).alloc id) false := by
  have := C82_update_complete cfg id cfg rfl (fun _ => rfl) height hH c i hi v newRoot
  rwa [decide_eq_false hne] at this

/-! Concrete tree: four leaves over the field with 97 elements. -/

/-- Toy dense-tree configuration. -/
def toyDense : TreeG.Config Nat 97 := { leafHash := fun x => x + 1, h2 := fun a b => 10 * a + b + 3 }

example : Fits (truePathTo toyDense 3 (fun i => i * i) 2).alloc 3 ∧ 3 - 1 < modBits 97 ∧
    position (truePathTo toyDense 3 (fun i => i * i) 2).alloc = 2 ∧
    (truePathTo toyDense 3 (fun i => i * i) 2).alloc.verifyMembership toyDense
      (merkleRoot toyDense.leafHash toyDense.h2 3 fun i => i * i) 4 = true ∧
    (truePathTo toyDense 3 (fun i => i * i) 2).alloc.verifyMembership toyDense
      (merkleRoot toyDense.leafHash toyDense.h2 3 fun i => i * i) 9 = false := by
  refine ⟨⟨by decide, by decide⟩, by decide, by decide, by decide, by decide⟩

example : computeIdAndCheck (truePathTo toyDense 3 (fun i => i * i) 2).alloc 2 ∧
    ¬ computeIdAndCheck (truePathTo toyDense 3 (fun i => i * i) 2).alloc 3 := by
  constructor
  · exact (C81_true_path_accepted toyDense 3 (by decide) (by decide) _ 2 (by decide)).2
  · rw [C81_id_is_position _ 3 ⟨by decide, by decide⟩ (by decide)]
    decide

/-! ## C83 -/

/-- C83: in every nonce tree built through the API, the membership proof generated for user `i` passes
the indexed membership gadget with the user's nonce as a 64-bit variable. -/
theorem C83_nonce_proof_accepted (hs : Hashes p) (hp : U64 ≤ p) (t : MT.STree (ZMod p))
    (nonces : Nat → Nat) (h : Built (nonceTreeCfg hs) t nonces) (i : Nat) (hi : i < 2 ^ 31)
    (hn : nonces i < U64) :
    ∃ path r, MT.genMembershipProof (nonceTreeCfg hs) t i = .ok path ∧
      (t.rootHash : Outcome Unit (ZMod p)) = .ok r ∧
      MT.genProof (nonceTreeCfg hs) t i (nonces i) = .ok path ∧
      MT.checkMembershipIdx (nonceTreeCfgVar hs) path r (natBits 64 (nonces i)) (i : ZMod p) := by
  have hU : U64 = 2 ^ 64 := by norm_num [U64]
  have hip : i < p := lt_of_lt_of_le hi (le_trans (by rw [hU]; norm_num) hp)
  obtain ⟨path, r, h1, h2, h3, -, h5⟩ := C03_membership_complete (nonceTreeCfg hs)
    (by show 2 ≤ 32; omega) (by show 32 ≤ 64; omega) t nonces h i hi
  refine ⟨path, r, h1, h2, h3, ?_⟩
  have hb : (nonceTreeCfgVar hs).height - 1 ≤ modBits p := by
    show 31 ≤ modBits p
    have : 31 < modBits p := Nat.lt_size.2 (le_trans (by rw [hU]; norm_num) hp)
    omega
  have hval : (i : ZMod p).val = i := by rw [ZMod.val_natCast, Nat.mod_eq_of_lt hip]
  have h5 := h5 .debug
  rw [MT.verifyWithIndex_eq .debug _ _ _ _ i (by
    show 2 ^ 31 - 1 + i < U64
    rw [hU]; omega)] at h5
  simp only [Outcome.ok.injEq, decide_eq_true_eq] at h5
  rw [MT.checkMembershipIdx_iff _ _ _ _ _ hb, hval]
  refine ⟨h5.1, ?_⟩
  have hmod : i % 2 ^ ((nonceTreeCfgVar hs).height - 1) = i := Nat.mod_eq_of_lt hi
  rw [hmod]
  have hh : (nonceTreeCfgVar hs).leafHash (natBits 64 (nonces i)) =
      (nonceTreeCfg hs).leafHash (nonces i) := by
    show nonceVarCRH hs.crh _ = nonceCRH hs.crh _
    unfold nonceVarCRH nonceCRH
    rw [bitsVal_natBits, Nat.mod_eq_of_lt (by rw [← hU]; exact hn)]
  rw [hh]
  exact h5.2.2.2

/-- C83: a 64-bit nonce variable accepted under the root of a nonce tree for an in-range user id is
that user's nonce, or the proof exhibits a collision. -/
theorem C83_nonce_bound (hs : Hashes p) (hp : U64 ≤ p) (t : MT.STree (ZMod p)) (nonces : Nat → Nat)
    (h : Built (nonceTreeCfg hs) t nonces) (hn : ∀ i, nonces i < U64) (r : ZMod p)
    (hr : (t.rootHash : Outcome Unit (ZMod p)) = .ok r)
    (path : List (ZMod p × ZMod p)) (bits : List Bool) (h64 : bits.length = 64) (id : ZMod p)
    (hid : id.val < 2 ^ 31) (hc : MT.checkMembershipIdx (nonceTreeCfgVar hs) path r bits id) :
    bits = natBits 64 (nonces id.val) ∨
    Collides hs.crh [(bitsVal bits : ZMod p)] [(nonces id.val : ZMod p)] ∨
    PathCollision hs.h2 path (truePath (nonceCRH hs.crh) hs.h2 32 nonces id.val) := by
  have hU : U64 = 2 ^ 64 := by norm_num [U64]
  have hb : (nonceTreeCfgVar hs).height - 1 ≤ modBits p := by
    show 31 ≤ modBits p
    have : 31 < modBits p := Nat.lt_size.2 (le_trans (by rw [hU]; norm_num) hp)
    omega
  have hr2 := (C01_history_independent (nonceTreeCfg hs) (by show 2 ≤ 32; omega) t t nonces nonces h h
    (fun _ _ => rfl)).2
  rw [hr] at hr2
  have hr3 := Outcome.ok.inj hr2
  have hv : (MT.verifyWithIndex .debug (nonceTreeCfg hs) path
      (merkleRoot (nonceTreeCfg hs).leafHash (nonceTreeCfg hs).h2 (nonceTreeCfg hs).height nonces)
      (bitsVal bits) id.val : Outcome Unit Bool) = .ok true := by
    rw [MT.checkMembershipIdx_iff _ _ _ _ _ hb] at hc
    have hmod : id.val % 2 ^ ((nonceTreeCfgVar hs).height - 1) = id.val := Nat.mod_eq_of_lt hid
    rw [hmod] at hc
    rw [MT.verifyWithIndex_eq .debug _ _ _ _ _ (by
      show 2 ^ 31 - 1 + id.val < U64
      rw [hU]; omega), ← hr3]
    simp only [Outcome.ok.injEq, decide_eq_true_eq]
    refine ⟨hc.1, ?_, hid, hc.2⟩
    rintro rfl
    have := hc.1
    simp [nonceTreeCfgVar] at this
  have hlt : bitsVal bits < U64 := by rw [hU, ← h64]; exact bitsVal_lt bits
  rcases (C04_indexed_sound (nonceTreeCfg hs) nonces .debug path (bitsVal bits) id.val
    (by rw [hU]; omega) hv).2 with he | he
  · by_cases hne : bitsVal bits = nonces id.val
    · left
      rw [← hne, ← h64, natBits_bitsVal]
    · right; left
      refine ⟨?_, he⟩
      intro e
      have e := congrArg ZMod.val (List.cons.inj e).1
      rw [ZMod.val_natCast, ZMod.val_natCast, Nat.mod_eq_of_lt (lt_of_lt_of_le hlt hp),
        Nat.mod_eq_of_lt (lt_of_lt_of_le (hn _) hp)] at e
      exact hne e
  · exact .inr (.inr he)

/-- A nonce tree in which user 5 has nonce 77 and everyone else nonce 0 is built through the API. -/
example (hs : Hashes p) : ∃ t c, Built (nonceTreeCfg hs) t c ∧ c 5 = 77 ∧ c 6 = 0 ∧ ∀ i, c i < U64 := by
  obtain ⟨t₀, h0, -⟩ := MT.blank_rep (nonceTreeCfg hs)
  have hB := Built.blank h0
  obtain ⟨t', pr, r, r', hu, -⟩ := C06_update_complete (nonceTreeCfg hs) (by show 2 ≤ 32; omega)
    (by show 32 ≤ 64; omega) t₀ _ hB 5 77 (by show 5 < 2 ^ 31; norm_num)
  refine ⟨t', _, Built.update hB (by show 5 < 2 ^ 31; norm_num) hu, by simp [write], by
    simp [write, nonceTreeCfg], ?_⟩
  intro i
  simp only [write]
  split
  · norm_num [U64]
  · show 0 < U64
    norm_num [U64]

end PF.Props
