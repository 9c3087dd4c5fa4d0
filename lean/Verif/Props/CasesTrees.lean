import Verif.Props.SparseMTGadget
import Verif.Props.Validate
import Verif.Props.TreeGadgets
import Verif.Props.TxTrees
import Verif.Props.Defaults
import Verif.Props.Width
import Verif.Props.NewTree

/-!
# Concrete cases for the theorems about the trees

Every theorem named here is applied to a concrete tree, proof or path, so its hypotheses are met. The trees are
the toy tree of `SparseMT.lean` (height 3, writes to positions 2, 0 and 2), the dense tree of `TreeGadgets.lean`
and the transaction trees of `TxTrees.lean`.
-/
set_option linter.unusedSectionVars false

namespace PF.Cases.Trees
open PF PF.MT PF.Spec PF.Circuit PF.Props PF.TreeG

def c : Nat → Nat := contents (fun _ => 0) [(2, 7), (0, 4), (2, 9)]

theorem built : Built toy toyTree c := toyTree_built

theorem writes : InRange toy [(2, 7), (0, 4), (2, 9)] := by unfold InRange; simp [toy]

/-! ## Sparse tree -/

example := C01_root_of_contents toy [(2, 7), (0, 4), (2, 9)] writes

example := C02_new_eq_incremental toy (by decide) [(1, 5), (3, 6)] (by decide) (by decide) (by decide)

/-- An accepted indexed proof: position 2 exists and holds 9, or the path shows a collision (it does not: it is
the true path). -/
example : (2 < 2 ^ (toy.height - 1)) ∧ (toy.leafHash 9 = toy.leafHash (c 2)) := by
  have h := C04_indexed_sound toy c .debug [(10, 1), (501, 1001)] 9 2 (by decide) (by decide)
  refine ⟨h.1, ?_⟩
  rcases h.2 with h | h
  · exact h
  · exfalso
    have hp : truePath toy.leafHash toy.h2 toy.height c 2 = [(10, 1), (501, 1001)] := by decide
    rw [hp] at h
    obtain ⟨ℓ, x, y, hx, hy, hne, -⟩ := h
    rw [hx] at hy
    exact hne (Option.some.inj hy)

example := C08_out_of_range_rejected toy (by decide) .debug 4 (by decide) (by decide)

example := C09_validate_ignores_root toy toyTree (some 5)

/-- Position 3 of the tree is overwritten. -/
example : ∃ t' p, updateAndProve toy toyTree 3 8 = (.ok (t', p) : Outcome Unit _) ∧
    (t'.rootHash : Outcome Unit Nat) =
      .ok (merkleRoot toy.leafHash toy.h2 toy.height (fun j => if j = 3 then 8 else c j)) := by
  obtain ⟨t', p, hu, -⟩ := C10_write_never_refused toy (by decide) (by decide) toyTree c built 3 8
  exact ⟨t', p, hu, C10_write_frame toy (by decide) toyTree t' c built 3 8 p (by decide) hu⟩

/-- Position 4 does not exist. -/
example := C10_out_of_range toy (by decide) toyTree c built 4 5

/-- The pair of the proof for position 2 is generated for 9 and refused for 7. -/
example : ∃ t₀ t, blank toy = .ok t₀ ∧ applyWrites toy t₀ [(2, 7), (0, 4), (2, 9)] = .ok t ∧
    (∃ p, genProof toy t 2 9 = .ok p) ∧ ¬ ∃ p, genProof toy t 2 7 = .ok p := by
  obtain ⟨t₀, t, h0, h, -⟩ := C01_root_of_contents toy [(2, 7), (0, 4), (2, 9)] writes
  refine ⟨t₀, t, h0, h, (C11_wrong_leaf toy (by decide) _ writes t₀ t h0 h 2 (by decide) 9).2 (by decide), ?_⟩
  rw [C11_wrong_leaf toy (by decide) _ writes t₀ t h0 h 2 (by decide) 7]
  decide

/-! ## `validate` and `gen_proof`, exactly -/

example := C87_validate_exact toy (by decide) toyTree (by decide) (by decide)

theorem stray : NoStrayNodes toy.height toyTree.tree := by
  intro ℓ j hℓ hj hs
  have h2 : ℓ < 2 := hℓ
  interval_cases ℓ
  · have h3 : j < 2 := hj
    interval_cases j
    · exact ⟨0, by unfold LeafStored; decide, by decide⟩
    · exact ⟨2, by unfold LeafStored; decide, by decide⟩
  · have h3 : j < 1 := hj
    interval_cases j
    exact ⟨0, by unfold LeafStored; decide, by decide⟩

example := C87_validate_sound toy (by decide) toyTree (by decide) (by decide) stray (by decide) c (by decide)

example := C87_tampered_ancestor toy (by decide) toyTree c built 2 (by unfold LeafStored; decide) 0 (by decide) 77
  (by decide)

example : ∃ W : Nat → Prop, W 2 ∧ ¬ W 1 ∧ (∀ leaf, (∃ p, genProof toy toyTree 1 leaf = .ok p)) ∧
    (genProof toy toyTree 2 8 = .err ()) := by
  obtain ⟨W, hW⟩ := toyTree_built.on
  have hs := hW.stored (by decide)
  have h2 : W 2 := (hs 2 (by decide)).1 (by decide)
  have h1 : ¬ W 1 := fun h => by have := (hs 1 (by decide)).2 h; revert this; decide
  exact ⟨W, h2, h1, fun leaf => (C11_exact toy (by decide) toyTree c W hW 1 (by decide) leaf).1.2 (Or.inl h1),
    (C11_exact toy (by decide) toyTree c W hW 2 (by decide) 8).2.2 ⟨h2, by decide⟩⟩

example := C11_proof_is_the_path toy (by decide) toyTree c built 2 (by decide) 9 [(10, 1), (501, 1001)] (by decide)

/-! ## The sparse tree's gadget -/

/-- Index 6 is accepted by the gadget for the leaf at position 2. -/
theorem gadget6 : checkMembershipIdx toyF [(10, 1), (8, 7)] (10 * 8 + 7 + 3) 9 6 := C15_witness.1

example : (verifyWithIndex .debug toyF [(10, 1), (8, 7)] (10 * 8 + 7 + 3) 9 2 : Outcome Unit Bool) = .ok true :=
  (C15_index_binding toyF toyF id toyF_gadget (by decide) (by decide) (by decide) [(10, 1), (8, 7)] (10 * 8 + 7 + 3)
    9 6 .debug).1 gadget6

example :=
  C15_one_position toyF (by decide) [(10, 1), (8, 7)] (10 * 8 + 7 + 3) (10 * 8 + 7 + 3) 9 6 2
    (by intro e he; simp only [List.mem_cons, List.not_mem_nil, or_false] at he
        rcases he with rfl | rfl <;> decide) gadget6
    ((C15_index_binding toyF toyF id toyF_gadget (by decide) (by decide) (by decide) [(10, 1), (8, 7)]
      (10 * 8 + 7 + 3) 9 2 .debug).2 (by decide))

/-- An update of position 1 shown with index 5. -/
example : checkUpdate toyF [5, 11] (toyF.h2 (toyF.h2 5 2) 11) (toyF.h2 (toyF.h2 5 9) 11) 1 8 5 :=
  (C15_update_index_binding toyF toyF id toyF_gadget (by decide) (by decide) [5, 11] _ _ 1 8 5 .debug).2 (by decide)

example := (C15_index_aliasing toyF (by decide) 6 3 (by decide)).1 _ _ _ gadget6

/-! ## Dense tree and nonce tree gadgets -/

example : computeIdAndCheck (truePathTo toyDense 3 (fun i => i * i) 2).alloc 2 :=
  (C81_native_path_id (truePathTo toyDense 3 (fun i => i * i) 2) (by decide) (by decide) 2).2 (by decide)

example := C81_membership_agrees toyDense (truePathTo toyDense 3 (fun i => i * i) 2)
  (merkleRoot toyDense.leafHash toyDense.h2 3 fun i => i * i) 4

/-- An accepted key proof for position 1. -/
example : ∃ (keys : Nat → ZMod 7) (v : PathVar 101), keys 1 = 3 ∧ Fits v 3 ∧
    v.verifyMembership (TreeG.pkTreeCfgVar toyCurve toyTreeHs)
      (merkleRoot (pkCRH toyCurve toyTreeHs.crh) toyTreeHs.h2 3 keys) 3 = true ∧ computeIdAndCheck v 1 ∧
    (1 : ZMod 101).val < 2 ^ (3 - 1) := by
  have h1 : ((truePathTo (TreeG.pkTreeCfg toyCurve toyTreeHs) 3 (fun i => if i = 1 then 3 else 2) 1).alloc).verifyMembership
      (TreeG.pkTreeCfgVar toyCurve toyTreeHs)
      (merkleRoot (pkCRH toyCurve toyTreeHs.crh) toyTreeHs.h2 3 (fun i => if i = 1 then 3 else 2)) 3 = true := by
    decide +kernel
  have h2 : computeIdAndCheck (truePathTo (TreeG.pkTreeCfg toyCurve toyTreeHs) 3 (fun i => if i = 1 then 3 else 2) 1).alloc 1 :=
    (C81_true_path_accepted _ 3 (by decide) (by decide) _ 1 (by decide)).2
  have hf : Fits (truePathTo (TreeG.pkTreeCfg toyCurve toyTreeHs) 3 (fun i => if i = 1 then 3 else 2) 1).alloc 3 :=
    ⟨by decide, by decide⟩
  exact ⟨_, _, rfl, hf, h1, h2, (C81_id_binds_key toyCurve toyTreeHs 3 (by decide) (fun i => if i = 1 then 3 else 2) _ hf 3 1
    h1 h2).1⟩

example := C82_update_complete toyDense id toyDense rfl (fun _ => rfl) 3 (by decide) (fun i => i * i) 2 (by decide) 8
  (merkleRoot toyDense.leafHash toyDense.h2 3 (write (fun i => i * i) 2 8))

/-- Soundness applied to the honest update of position 2 just shown. -/
example := C82_update_sound toyDense 3 (fun i => i * i)
  ((TreeG.UpdateProof.ofTuple (merkleRoot toyDense.leafHash toyDense.h2 3 (fun i => i * i), 4,
    truePathTo toyDense 3 (fun i => i * i) 2, 7, 8)).alloc id) ⟨by decide, by decide⟩ _ rfl
  (C82_update_complete toyDense id toyDense rfl (fun _ => rfl) 3 (by decide) (fun i => i * i) 2 (by decide) 8 7)

example := C82_result_must_be_enforced toyDense 3 (by decide) (fun i => i * i) 2 (by decide) 8 7 (by decide)

/-- A nonce tree with nonce 77 for user 5, over the field of the repository. -/
theorem nonces (hs : Hashes bn254r) : ∃ t ns, Built (nonceTreeCfg hs) t ns ∧ ns 5 = 77 ∧ ∀ i, ns i < U64 := by
  obtain ⟨t₀, h0, -⟩ := MT.blank_rep (nonceTreeCfg hs)
  have hB := Built.blank h0
  obtain ⟨t', pr, r, r', hu, -⟩ := C06_update_complete (nonceTreeCfg hs) (by show 2 ≤ 32; omega)
    (by show 32 ≤ 64; omega) t₀ _ hB 5 77 (by show 5 < 2 ^ 31; norm_num)
  refine ⟨t', _, Built.update hB (by show 5 < 2 ^ 31; norm_num) hu, if_pos rfl, fun i => ?_⟩
  show (if i = 5 then 77 else 0) < U64
  split <;> decide

/-- Its proof is accepted, and the gadget's verdict binds the nonce: 77 or an explicit collision. -/
example (hs : Hashes bn254r) : ∃ (path : List (ZMod bn254r × ZMod bn254r)) (r : ZMod bn254r) (ns : Nat → Nat), ns 5 = 77 ∧
    MT.checkMembershipIdx (nonceTreeCfgVar hs) path r (natBits 64 77) ((5 : Nat) : ZMod bn254r) := by
  obtain ⟨t, ns, hB, h5, hn⟩ := nonces hs
  obtain ⟨path, r, -, -, -, h⟩ := C83_nonce_proof_accepted hs (by decide) t ns hB 5 (by decide) (hn 5)
  rw [h5] at h
  exact ⟨path, r, ns, h5, h⟩

example (hs : Hashes bn254r) : ∃ (path : List (ZMod bn254r × ZMod bn254r)) (ns : Nat → Nat) (id : ZMod bn254r),
    natBits 64 77 = natBits 64 (ns id.val) ∨
    Collides hs.crh [(bitsVal (natBits 64 77) : ZMod bn254r)] [(ns id.val : ZMod bn254r)] ∨
    PathCollision hs.h2 path (truePath (nonceCRH hs.crh) hs.h2 32 ns id.val) := by
  obtain ⟨t, ns, hB, h5, hn⟩ := nonces hs
  obtain ⟨path, r, -, hr, -, h⟩ := C83_nonce_proof_accepted hs (by decide) t ns hB 5 (by decide) (hn 5)
  rw [h5] at h
  have hv : (((5 : Nat) : ZMod bn254r)).val = 5 := by rw [ZMod.val_natCast]; decide
  exact ⟨path, ns, _, C83_nonce_bound hs (by decide) t ns hB hn r hr path _ (natBits_length _ _) _
    (by rw [hv]; decide) h⟩

/-! ## Transaction trees -/

def txs : Nat → Tx Nat (ZMod 7) := fun i => if i = 1 then toyTx else Tx.default

theorem txs_small : ∀ i, ∀ u ∈ (txs i).ios, u.amount < 101 := by
  intro i
  unfold txs
  by_cases h : i = 1
  · rw [if_pos h]; decide
  · rw [if_neg h]; decide

example := C106_deposit_sound toyCurve toyTreeHs (by decide) 3 txs (truePathTo (depositTreeCfg toyCurve toyTreeHs) 3 txs 1)
  (by decide) (txs 1) (txs_small 1) txs_small (C106_complete toyCurve toyTreeHs 3 (by decide) txs 1 (by decide)).1

example := C106_withdraw_sound toyCurve toyTreeHs (by decide) 3 txs (truePathTo (withdrawTreeCfg toyCurve toyTreeHs) 3 txs 1)
  (by decide) (txs 1) (txs_small 1) txs_small (C106_complete toyCurve toyTreeHs 3 (by decide) txs 1 (by decide)).2

example := C106_root_binds toyCurve toyTreeHs (by decide) 3 (by decide) txs txs txs_small txs_small rfl 1 (by decide)

example := C106_index_aliases (depositTreeCfg toyCurve toyTreeHs) (truePathTo (depositTreeCfg toyCurve toyTreeHs) 3 txs 1) 5
  (merkleRoot (fun t => toyTreeHs.crh (txEnc toyCurve t)) toyTreeHs.h2 3 txs) (txs 1)

/-! ## Default paths -/

/-- With an additive hash the default path proves that 0 is in the tree with root 0, and nothing else. -/
example : MT.verify (⟨id, fun a b => a + b, 0, 4⟩ : MT.Config Nat Nat) (MT.defaultPath 0 ⟨id, fun a b => a + b, 0, 4⟩) 0 0
    = true :=
  (C107_default_membership (⟨id, fun a b => a + b, 0, 4⟩ : MT.Config Nat Nat) (by decide) 0 0 0).2.2
    ⟨rfl, fun _ => rfl, rfl⟩

example := C107_default_switched_off toyF (by decide) (by decide) 5 6 1 2 3

/-! ## `u64` indices -/

example := (C103_width_agrees (ε := Unit) .release toy).1 toyTree 2 (by decide)

example := C103_boundary_release (ε := Unit) toy (by decide) (by decide) toyTree (by decide) 51101 (by decide) (2 ^ 64 - 4)
  (by decide) 7

end PF.Cases.Trees
