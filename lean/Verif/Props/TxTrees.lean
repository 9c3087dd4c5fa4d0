import Verif.Props.TreeGadgets

/-!
# Property C106: deposit and withdrawal trees
-/

set_option linter.unusedSectionVars false

namespace PF.Props
open PF PF.Spec PF.Circuit
open PF.TreeG (Path depositTreeCfg withdrawTreeCfg)
variable {L G : Type} {p q : Nat} [AddCommGroup G] [Module (ZMod q) G]

theorem alloc_fits {a : Path p} {height : Nat} (hl : a.authPath.length + 2 = height) : Fits a.alloc height :=
  ⟨by rw [TreeG.alloc_len]; exact hl, hl⟩

theorem alloc_position {a : Path p} {height : Nat} (hl : a.authPath.length + 2 = height) :
    position a.alloc = a.leafIndex % 2 ^ (height - 1) := by
  rw [position_eq, TreeG.getLeafPosition_alloc, bitsVal_natBits]
  congr 2
  omega

private theorem tree_sound (cv : Curve p q G) (hs : Hashes p) (cfg : TreeG.Config (Tx Nat G) p)
    (hcfg : cfg = ⟨fun t => hs.crh (txEnc cv t), hs.h2⟩) (hp : 1 < p) (height : Nat) (txs : Nat → Tx Nat G)
    (a : Path p) (hl : a.authPath.length + 2 = height) (t : Tx Nat G)
    (ht : ∀ u ∈ t.ios, u.amount < p) (hts : ∀ i, ∀ u ∈ (txs i).ios, u.amount < p)
    (hv : a.verify cfg (merkleRoot (fun t => hs.crh (txEnc cv t)) hs.h2 height txs) t = true) :
    t = txs (a.leafIndex % 2 ^ (height - 1)) ∨
    Collides hs.crh (txEnc cv t) (txEnc cv (txs (a.leafIndex % 2 ^ (height - 1)))) ∨
    ShowsCollision cfg height txs a.alloc t := by
  subst hcfg
  rw [← C81_membership_agrees] at hv
  rcases member_sound _ height txs a.alloc (alloc_fits hl) t hv t with ⟨h, _⟩ | h
  · rw [alloc_position hl] at h
    by_cases e : txEnc cv t = txEnc cv (txs (a.leafIndex % 2 ^ (height - 1)))
    · exact .inl (C17_tx_encoding_injective cv hp _ _ ht (hts _) e)
    · exact .inr (.inl ⟨e, h⟩)
  · exact .inr (.inr h)

/-- **C106** (soundness, deposits): under the root of a deposit tree with transactions `txs`, a path accepted for
transaction `t` shows that `t` is the transaction at the position of the path (the index in the path, of which only
the low bits count), or an explicit collision. -/
theorem C106_deposit_sound (cv : Curve p q G) (hs : Hashes p) (hp : 1 < p) (height : Nat) (txs : Nat → Tx Nat G)
    (a : Path p) (hl : a.authPath.length + 2 = height) (t : Tx Nat G)
    (ht : ∀ u ∈ t.ios, u.amount < p) (hts : ∀ i, ∀ u ∈ (txs i).ios, u.amount < p)
    (hv : a.verify (depositTreeCfg cv hs) (merkleRoot (fun t => hs.crh (txEnc cv t)) hs.h2 height txs) t = true) :
    t = txs (a.leafIndex % 2 ^ (height - 1)) ∨
    Collides hs.crh (txEnc cv t) (txEnc cv (txs (a.leafIndex % 2 ^ (height - 1)))) ∨
    ShowsCollision (depositTreeCfg cv hs) height txs a.alloc t :=
  tree_sound cv hs _ rfl hp height txs a hl t ht hts hv

/-- **C106** (soundness, withdrawals). -/
theorem C106_withdraw_sound (cv : Curve p q G) (hs : Hashes p) (hp : 1 < p) (height : Nat) (txs : Nat → Tx Nat G)
    (a : Path p) (hl : a.authPath.length + 2 = height) (t : Tx Nat G)
    (ht : ∀ u ∈ t.ios, u.amount < p) (hts : ∀ i, ∀ u ∈ (txs i).ios, u.amount < p)
    (hv : a.verify (withdrawTreeCfg cv hs) (merkleRoot (fun t => hs.crh (txEnc cv t)) hs.h2 height txs) t = true) :
    t = txs (a.leafIndex % 2 ^ (height - 1)) ∨
    Collides hs.crh (txEnc cv t) (txEnc cv (txs (a.leafIndex % 2 ^ (height - 1)))) ∨
    ShowsCollision (withdrawTreeCfg cv hs) height txs a.alloc t :=
  tree_sound cv hs _ rfl hp height txs a hl t ht hts hv

private theorem tree_complete (cv : Curve p q G) (hs : Hashes p) (cfg : TreeG.Config (Tx Nat G) p)
    (hcfg : cfg = ⟨fun t => hs.crh (txEnc cv t), hs.h2⟩) (height : Nat) (hH : 2 ≤ height)
    (txs : Nat → Tx Nat G) (i : Nat) (hi : i < 2 ^ (height - 1)) :
    (truePathTo cfg height txs i).verify cfg
      (merkleRoot (fun t => hs.crh (txEnc cv t)) hs.h2 height txs) (txs i) = true := by
  subst hcfg
  obtain ⟨hf, hsib⟩ := truePathTo_facts (⟨fun t => hs.crh (txEnc cv t), hs.h2⟩ : TreeG.Config (Tx Nat G) p)
    height hH txs i
  have hpos := truePathTo_position (⟨fun t => hs.crh (txEnc cv t), hs.h2⟩ : TreeG.Config (Tx Nat G) p)
    height hH txs i hi
  rw [← C81_membership_agrees]
  simp only [TreeG.PathVar.verifyMembership, decide_eq_true_eq]
  rw [calc_eq _ hf, hsib, hpos, Spec.trueSibs_eq]
  have := MT.climb_sibsFrom hs.h2 (fun k => hs.crh (txEnc cv (txs k))) (height - 1) 0 i
  rw [Nat.zero_add, Nat.div_eq_of_lt hi] at this
  exact this

/-- **C106** (completeness): in both trees the true path of every position is accepted for the transaction at that
position. -/
theorem C106_complete (cv : Curve p q G) (hs : Hashes p) (height : Nat) (hH : 2 ≤ height)
    (txs : Nat → Tx Nat G) (i : Nat) (hi : i < 2 ^ (height - 1)) :
    (truePathTo (depositTreeCfg cv hs) height txs i).verify (depositTreeCfg cv hs)
      (merkleRoot (fun t => hs.crh (txEnc cv t)) hs.h2 height txs) (txs i) = true ∧
    (truePathTo (withdrawTreeCfg cv hs) height txs i).verify (withdrawTreeCfg cv hs)
      (merkleRoot (fun t => hs.crh (txEnc cv t)) hs.h2 height txs) (txs i) = true :=
  ⟨tree_complete cv hs _ rfl height hH txs i hi, tree_complete cv hs _ rfl height hH txs i hi⟩

/-- **C106** (roots): a deposit tree and a withdrawal tree (of one height) with the same root hold the same transactions at every position, or
the two trees show a collision. -/
theorem C106_root_binds (cv : Curve p q G) (hs : Hashes p) (hp : 1 < p) (height : Nat) (hH : 2 ≤ height)
    (txs txs' : Nat → Tx Nat G)
    (hts : ∀ i, ∀ u ∈ (txs i).ios, u.amount < p) (hts' : ∀ i, ∀ u ∈ (txs' i).ios, u.amount < p)
    (he : merkleRoot (depositTreeCfg cv hs).leafHash hs.h2 height txs =
      merkleRoot (withdrawTreeCfg cv hs).leafHash hs.h2 height txs') (i : Nat) (hi : i < 2 ^ (height - 1)) :
    txs i = txs' i ∨ Collides hs.crh (txEnc cv (txs i)) (txEnc cv (txs' i)) ∨
    ShowsCollision (depositTreeCfg cv hs) height txs' (truePathTo (depositTreeCfg cv hs) height txs i).alloc (txs i) := by
  have h1 := (C106_complete cv hs height hH txs i hi).1
  have hl : (truePathTo (depositTreeCfg cv hs) height txs i).authPath.length + 2 = height :=
    (truePathTo_facts (depositTreeCfg cv hs) height hH txs i).1.sibs
  have hidx : (truePathTo (depositTreeCfg cv hs) height txs i).leafIndex % 2 ^ (height - 1) = i :=
    Nat.mod_eq_of_lt hi
  have he' : merkleRoot (fun t => hs.crh (txEnc cv t)) hs.h2 height txs =
      merkleRoot (fun t => hs.crh (txEnc cv t)) hs.h2 height txs' := he
  rw [he'] at h1
  have := C106_deposit_sound cv hs hp height txs' _ hl (txs i) (hts i) hts' h1
  rwa [hidx] at this

/-- The index carried by a path is not range-checked by the verifier: adding the number of leaves to it changes
nothing (as C15 for the sparse tree gadget). -/
theorem C106_index_aliases (cfg : TreeG.Config L p) (a : Path p) (k : Nat) (root : ZMod p) (leaf : L) :
    ({ a with leafIndex := a.leafIndex + k * 2 ^ (a.authPath.length + 1) } : Path p).verify cfg root leaf =
      a.verify cfg root leaf := by
  rw [← C81_membership_agrees, ← C81_membership_agrees]
  have e : ({ a with leafIndex := a.leafIndex + k * 2 ^ (a.authPath.length + 1) } : Path p).alloc = a.alloc := by
    have hb : ∀ i, i < a.authPath.length + 1 →
        (a.leafIndex + k * 2 ^ (a.authPath.length + 1)).testBit i = a.leafIndex.testBit i := by
      intro i hi
      have h1 := Nat.testBit_mod_two_pow (a.leafIndex + k * 2 ^ (a.authPath.length + 1)) (a.authPath.length + 1) i
      have h2 := Nat.testBit_mod_two_pow a.leafIndex (a.authPath.length + 1) i
      rw [Nat.add_mul_mod_self_right] at h1
      rw [h1] at h2
      simpa [hi] using h2
    have hpl : ({ a with leafIndex := a.leafIndex + k * 2 ^ (a.authPath.length + 1) } : Path p).positionList =
        a.positionList := by
      unfold Path.positionList
      congr 1
      apply List.map_congr_left
      intro i hi
      exact hb i (List.mem_range.1 hi)
    unfold Path.alloc
    rw [hpl]
    simp only
    rw [hb 0 (by omega)]
  rw [e]

/-- A sponge and a compression for examples. -/
def toyTreeHs : Hashes 101 := ⟨fun l => l.foldl (fun a x => 3 * a + x + 1) 5, fun a b => 2 * a + 7 * b + 1⟩

/-- Non-vacuity: a deposit tree with two different transactions, a path accepted for the right one and not for the
other. -/
example : ∃ (txs : Nat → Tx Nat (ZMod 7)), txs 1 ≠ txs 2 ∧
    (∀ i, ∀ u ∈ (txs i).ios, u.amount < 101) ∧
    (truePathTo (depositTreeCfg toyCurve toyTreeHs) 3 txs 1).verify (depositTreeCfg toyCurve toyTreeHs)
      (merkleRoot (fun t => toyTreeHs.crh (txEnc toyCurve t)) toyTreeHs.h2 3 txs) (txs 1) = true ∧
    (truePathTo (depositTreeCfg toyCurve toyTreeHs) 3 txs 1).verify (depositTreeCfg toyCurve toyTreeHs)
      (merkleRoot (fun t => toyTreeHs.crh (txEnc toyCurve t)) toyTreeHs.h2 3 txs) (txs 2) = false := by
  refine ⟨fun i => if i = 1 then toyTx else Tx.default, by decide, ?_, ?_, by decide +kernel⟩
  · intro i
    by_cases h : i = 1
    · show ∀ u ∈ (if i = 1 then toyTx else Tx.default).ios, u.amount < 101
      rw [if_pos h]; decide
    · show ∀ u ∈ (if i = 1 then toyTx else Tx.default).ios, u.amount < 101
      rw [if_neg h]; decide
  · exact (C106_complete toyCurve toyTreeHs 3 (by decide) _ 1 (by decide)).1

end PF.Props
