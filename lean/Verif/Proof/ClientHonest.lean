import Verif.Proof.ClientRun
import Verif.Proof.SparseMTRep

/-!
# Client circuit: soundness and completeness of the membership checks
-/

set_option linter.unusedSectionVars false

namespace PF.Client
open PF PF.Spec PF.MT PF.Circuit

variable {p q : Nat} {G : Type} [AddCommGroup G] [Module (ZMod q) G] [DecidableEq G]

theorem tx_included {hs : Hashes p} (h : FieldOk p) (cv : Curve p q G) (c : Nat → Tx (ZMod p) G)
    (root : ZMod p) (hr : RootOf hs (txEncVar cv) 13 c root) (x : Shown p G)
    (hm : checkMembershipIdx (txTreeCfgVar cv hs) x.txPath root x.tx x.index) :
    hs.crh (txEncVar cv x.tx) = hs.crh (txEncVar cv (c x.position)) ∨
      PathCollision hs.h2 x.txPath
        (truePath (fun t => hs.crh (txEncVar cv t)) hs.h2 13 c x.position) := by
  have hb : (txTreeCfgVar cv hs).height - 1 ≤ modBits p := h.bits
  rw [checkMembershipIdx_iff _ _ _ _ _ hb] at hm
  obtain ⟨h1, h2⟩ := hm
  have hlen : x.txPath.length = 12 := h1
  have hpos : x.index.val % 2 ^ 12 = x.position := rfl
  have h2' : chainRoot hs.h2 x.txPath (hs.crh (txEncVar cv x.tx)) x.position = some root := h2
  have := chainRoot_sound hs.h2 (fun i => hs.crh (txEncVar cv (c i))) x.txPath
    (hs.crh (txEncVar cv x.tx)) 0 x.position (by
      have hz : x.position / 2 ^ 12 = 0 := Nat.div_eq_of_lt (by rw [← hpos]; exact Nat.mod_lt _ (by norm_num))
      rw [h2', hlen, Nat.zero_add, hz, hr]; rfl)
  rw [hlen] at this
  rcases this with ⟨e, _⟩ | e
  · left; exact e
  · right; exact e

theorem signer_included {hs : Hashes p} (cv : Curve p q G) (sc : Nat → G)
    (root : ZMod p) (hr : RootOf hs (pkEncVar cv) 13 sc root) (path : List (ZMod p × ZMod p)) (k : G)
    (hm : checkMembership (signerTreeCfgVar cv hs) path root k) :
    ∃ j, j < CAP ∧ (hs.crh (pkEncVar cv k) = hs.crh (pkEncVar cv (sc j)) ∨
      PathCollision hs.h2 path (truePath (fun t => hs.crh (pkEncVar cv t)) hs.h2 13 sc j)) := by
  unfold checkMembership condCheckMembership at hm
  rw [memLoop_iff] at hm
  obtain ⟨h1, _, h3⟩ := hm
  have hlen : path.length = 12 := h1
  obtain ⟨j, hj, h⟩ := verifyLoop_sound hs.h2 (fun i => hs.crh (pkEncVar cv (sc i))) path
    (hs.crh (pkEncVar cv k)) 0 0 (by
      have h3' : verifyLoop hs.h2 path (hs.crh (pkEncVar cv k)) = some root := h3
      rw [h3', hlen, Nat.zero_add, hr]; rfl)
  rw [hlen] at hj h
  exact ⟨j, (Nat.div_eq_zero_iff_lt (by norm_num)).1 hj, h⟩

theorem honest_included {hs : Hashes p} (h : FieldOk p) (cv : Curve p q G) (c : Nat → Tx (ZMod p) G)
    (sc : Nat → G) (root : ZMod p) (hr : RootOf hs (txEncVar cv) 13 c root) (t : Tx (ZMod p) G) (i j : Nat)
    (hi : i < p) (ht : c (i % CAP) = t) :
    checkMembershipIdx (txTreeCfgVar cv hs) (honestShown cv hs c sc t i j).txPath root t (i : ZMod p) := by
  have hb : (txTreeCfgVar cv hs).height - 1 ≤ modBits p := h.bits
  rw [checkMembershipIdx_iff _ _ _ _ _ hb, ZMod.val_natCast, Nat.mod_eq_of_lt hi]
  refine ⟨pathFrom_length _ _ _ _ _, ?_⟩
  have := chainRoot_pathFrom hs.h2 (fun i => hs.crh (txEncVar cv (c i))) 12 0 (i % CAP)
  have hz : (i % CAP) / 2 ^ 12 = 0 := Nat.div_eq_of_lt (Nat.mod_lt _ (by norm_num))
  rw [hz, Nat.zero_add] at this
  have hn : nodeAt hs.h2 (fun i => hs.crh (txEncVar cv (c i))) 0 (i % CAP) = hs.crh (txEncVar cv t) := by
    simp only [nodeAt]; rw [ht]
  rw [hn] at this
  rw [hr]
  exact this

theorem honest_signer {hs : Hashes p} (cv : Curve p q G) (c : Nat → Tx (ZMod p) G)
    (sc : Nat → G) (root : ZMod p) (hr : RootOf hs (pkEncVar cv) 13 sc root) (t : Tx (ZMod p) G) (i j : Nat)
    (hj : j < CAP) (k : G) (ht : sc j = k) :
    checkMembership (signerTreeCfgVar cv hs) (honestShown cv hs c sc t i j).signerPath root k := by
  have hlen : (honestShown cv hs c sc t i j).signerPath.length = 12 := pathFrom_length _ _ _ _ _
  unfold checkMembership condCheckMembership
  rw [memLoop_iff]
  have := chainRoot_pathFrom hs.h2 (fun i => hs.crh (pkEncVar cv (sc i))) 12 0 j
  have hz : j / 2 ^ 12 = 0 := Nat.div_eq_of_lt hj
  rw [hz, Nat.zero_add] at this
  have hn : nodeAt hs.h2 (fun i => hs.crh (pkEncVar cv (sc i))) 0 j = hs.crh (pkEncVar cv k) := by
    simp only [nodeAt]; rw [ht]
  rw [hn] at this
  have hv : verifyLoop hs.h2 (honestShown cv hs c sc t i j).signerPath (hs.crh (pkEncVar cv k)) = some root := by
    rw [hr]
    exact verifyLoop_of_chainRoot _ _ _ _ _ this
  refine ⟨hlen, ?_, hv⟩
  cases hx : (honestShown cv hs c sc t i j).signerPath with
  | nil => rw [hx] at hlen; simp at hlen
  | cons e rest =>
    obtain ⟨l, r⟩ := e
    rw [hx] at hv
    simp only [verifyLoop] at hv
    split_ifs at hv with hc
    by_cases hl : hs.crh (pkEncVar cv k) = l
    · exact ⟨l, r, rest, rfl, true, fun _ => hl⟩
    · exact ⟨l, r, rest, rfl, false, fun _ => not_not.1 fun hr' => hc ⟨hl, hr'⟩⟩

/-- A transaction chosen by the prover: the transaction, the index claimed for it and the position of the
signer tree at which its signer is shown. -/
structure Pick (p : Nat) (G : Type) where
  tx : Tx (ZMod p) G
  index : Nat
  signerPos : Nat

def Pick.shown (cv : Curve p q G) (hs : Hashes p) (c : Nat → Tx (ZMod p) G) (sc : Nat → G) (x : Pick p G) :
    Shown p G := honestShown cv hs c sc x.tx x.index x.signerPos

/-- The pick is not padding. -/
def Pick.real (cv : Curve p q G) (hs : Hashes p) (x : Pick p G) : Prop :=
  hs.crh (txEncVar cv x.tx) ≠ hs.crh (txEncVar cv (Tx.default : Tx (ZMod p) G))

theorem shown_counts (cv : Curve p q G) (hs : Hashes p) (c : Nat → Tx (ZMod p) G) (sc : Nat → G)
    (x : Pick p G) : (x.shown cv hs c sc).counts cv hs = true ↔ x.real cv hs := by
  unfold Shown.counts Pick.real
  rw [decide_eq_true_eq]
  rfl

/-- What is required of the picks for the loop to be satisfied. -/
structure PicksOk (cv : Curve p q G) (hs : Hashes p) (c : Nat → Tx (ZMod p) G) (sc : Nat → G)
    (prev : Nat) (xs : List (Pick p G)) : Prop where
  half : ∀ x ∈ xs, x.index ≤ (p - 1) / 2
  included : ∀ x ∈ xs, x.real cv hs → c (x.index % CAP) = x.tx
  signer : ∀ x ∈ xs, x.real cv hs → x.signerPos < CAP ∧ sc x.signerPos = x.tx.getSigner
  above : ∀ x ∈ xs, x.real cv hs → prev < x.index
  ordered : xs.Pairwise fun x y => x.real cv hs → y.real cv hs → x.index < y.index

theorem loop_complete (h : FieldOk p) {P : Params p} {cv : Curve p q G} {blk : BlockVar (ZMod p)} {k : G}
    (c : Nat → Tx (ZMod p) G) (sc : Nat → G)
    (hr : RootOf P.hs (txEncVar cv) 13 c blk.txRoot) (hg : RootOf P.hs (pkEncVar cv) 13 sc blk.signerRoot)
    (xs : List (Pick p G)) (s : Loop p) (hs : s.prevTxIndex.val ≤ (p - 1) / 2)
    (ok : PicksOk cv P.hs c sc s.prevTxIndex.val xs) :
    LoopFacts P cv blk k s (xs.map (Pick.shown cv P.hs c sc)) := by
  have hp : 2 ^ 67 ≤ p := h.large
  have hhalf : (p - 1) / 2 < p := by omega
  induction xs generalizing s with
  | nil => trivial
  | cons x xs ih =>
    have hx := ok.half x (by simp)
    have hxp : x.index < p := by omega
    have hval : (x.shown cv P.hs c sc).index.val = x.index := by
      show ((x.index : ZMod p)).val = x.index
      rw [ZMod.val_natCast, Nat.mod_eq_of_lt hxp]
    refine ⟨⟨hs, by rw [hval]; exact hx, pathFrom_length _ _ _ _ _, pathFrom_length _ _ _ _ _, ?_, ?_, ?_⟩, ?_⟩
    · intro hc
      rw [hval]
      exact ok.above x (by simp) ((shown_counts cv P.hs c sc x).1 hc)
    · intro hc
      exact honest_included h cv c sc _ hr x.tx x.index x.signerPos hxp
        (ok.included x (by simp) ((shown_counts cv P.hs c sc x).1 hc))
    · intro hc
      have := ok.signer x (by simp) ((shown_counts cv P.hs c sc x).1 hc)
      exact honest_signer cv c sc _ hg x.tx x.index x.signerPos this.1 _ this.2
    · by_cases hc : (x.shown cv P.hs c sc).counts cv P.hs = true
      · have hpv : (s.after cv P.hs k (x.shown cv P.hs c sc)).prevTxIndex.val = x.index := by
          rw [← hval]; simp [Loop.after, hc]
        apply ih
        · rw [hpv]; exact hx
        · rw [hpv]
          exact ⟨fun y hy => ok.half y (by simp [hy]), fun y hy => ok.included y (by simp [hy]),
            fun y hy => ok.signer y (by simp [hy]),
            fun y hy hr => (List.pairwise_cons.1 ok.ordered).1 y hy ((shown_counts cv P.hs c sc x).1 hc) hr,
            (List.pairwise_cons.1 ok.ordered).2⟩
      · have hpv : (s.after cv P.hs k (x.shown cv P.hs c sc)).prevTxIndex = s.prevTxIndex := by
          simp [Loop.after, hc]
        apply ih
        · rw [hpv]; exact hs
        · rw [hpv]
          exact ⟨fun y hy => ok.half y (by simp [hy]), fun y hy => ok.included y (by simp [hy]),
            fun y hy => ok.signer y (by simp [hy]), fun y hy => ok.above y (by simp [hy]),
            (List.pairwise_cons.1 ok.ordered).2⟩

theorem mkAux_shown (blk : BlockVar (ZMod p)) (k : G) (xs : List (Shown p G)) :
    (mkAux blk k xs).shown = xs := by
  unfold UserAuxVar.shown mkAux
  induction xs with
  | nil => rfl
  | cons x xs ih => simp only [List.map_cons, List.zip_cons_cons] at ih ⊢; rw [ih]

theorem step_complete (h : FieldOk p) {P : Params p} {cv : Curve p q G} {blk : BlockVar (ZMod p)} {k : G}
    (c : Nat → Tx (ZMod p) G) (sc : Nat → G)
    (hr : RootOf P.hs (txEncVar cv) 13 c blk.txRoot) (hg : RootOf P.hs (pkEncVar cv) 13 sc blk.signerRoot)
    (xs : List (Pick p G)) (z : UState p) (hk : P.hs.crh (pkEncVar cv k) = z.pkHash)
    (h1 : z.prevBlockNumber.val ≤ blk.height.val) (h2 : blk.height.val + 1 ≤ (p - 1) / 2)
    (hs : (startIndex P.hs z (mkAux blk k (xs.map (Pick.shown cv P.hs c sc)))).val ≤ (p - 1) / 2)
    (ok : PicksOk cv P.hs c sc
      (startIndex P.hs z (mkAux blk k (xs.map (Pick.shown cv P.hs c sc)))).val xs) :
    StepFacts P cv xs.length z (mkAux blk k (xs.map (Pick.shown cv P.hs c sc))) := by
  refine ⟨by simp [mkAux], by simp [mkAux], by simp [mkAux], hk, h1, h2, ?_⟩
  rw [mkAux_shown]
  exact loop_complete h c sc hr hg xs (loopStart P.hs z _) hs ok

end PF.Client
