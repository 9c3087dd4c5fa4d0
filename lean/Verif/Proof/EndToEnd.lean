import Verif.Spec.EndToEnd
import Verif.Proof.AggregatorHonest
import Verif.Proof.AggregatorSigner
import Verif.Props.ClientRuns

/-!
# From the aggregator's state to client steps
-/

set_option linter.unusedSectionVars false

namespace PF.Spec
open PF PF.MT PF.Agg PF.Client PF.Props PF.Circuit

variable {p q : Nat} {G : Type} [AddCommGroup G] [Module (ZMod q) G] [DecidableEq G]
variable {b : Build} {cv : Curve p q G} {hs : Hashes p}

theorem mapO_ok {α β : Type} {f : α → Outcome Unit β} {g : α → β} {l : List α}
    (h : ∀ a ∈ l, f a = .ok (g a)) : mapO f l = .ok (l.map g) := by
  induction l with
  | nil => rfl
  | cons a l ih =>
    unfold mapO
    rw [h a (by simp), ih fun a ha => h a (by simp [ha])]
    rfl

/-- Contents of the transaction tree as the circuit sees them. -/
def txVars (p : Nat) (s : Agg.State p q G) (i : Nat) : Tx (ZMod p) G :=
  (s.transactions[i]?.getD Tx.default).alloc p

theorem tx_hash_var (s : Agg.State p q G) :
    (fun i => hs.crh (txEncVar cv (txVars p s i))) =
      fun i => txCRH cv hs.crh (listC Tx.default s.transactions i) := by
  funext k; unfold txVars txCRH; rw [AggC.txEncVar_alloc]; rfl

theorem tx_root_var (s : Agg.State p q G) :
    merkleRoot (fun t => hs.crh (txEncVar cv t)) hs.h2 13 (txVars p s) = txRoot cv hs s := by
  unfold txRoot merkleRoot
  exact congrArg (fun f => nodeAt hs.h2 f (13 - 1) 0) (tx_hash_var s)

theorem tx_path_var (s : Agg.State p q G) (i : Nat) :
    truePath (txCRH cv hs.crh) hs.h2 13 (listC Tx.default s.transactions) i =
      truePath (fun t => hs.crh (txEncVar cv t)) hs.h2 13 (txVars p s) i := by
  unfold truePath
  exact congrArg (fun f => pathFrom hs.h2 f 0 (13 - 1) i) (tx_hash_var (cv := cv) (hs := hs) s).symm

theorem signer_root_var (sc : Nat → G) :
    merkleRoot (fun t => hs.crh (pkEncVar cv t)) hs.h2 13 sc = merkleRoot (pkCRH cv hs.crh) hs.h2 13 sc := by
  have : (fun t => hs.crh (pkEncVar cv t)) = pkCRH cv hs.crh := by
    funext k; unfold pkCRH; rw [pkEncVar_eq]
  rw [this]


/-- Padding as the user assembles it. -/
def padShown (p : Nat) (G : Type) [Zero G] : Shown p G :=
  ⟨Tx.default, 0, List.replicate 12 (0, 0), List.replicate 12 (0, 0)⟩

/-- A pick for a pair of positions. -/
def pickOf (s : Agg.State p q G) (x : Nat × Nat) : Pick p G := ⟨txVars p s x.1, x.1, x.2⟩

theorem assemble_eq {s : Agg.State p q G} {c : Nat → UTXO Nat G} {sc : Nat → G} (h : Inv cv hs s c sc)
    (blk : Block (ZMod p)) (k : G) (n : Nat) (xs : List (Nat × Nat)) (hx : ∀ x ∈ xs, x.1 < CAP ∧ x.2 < CAP) :
    ∃ aux, assemble cv hs s blk k n xs = .ok aux ∧ aux.block = blk ∧ aux.pk = k ∧
      aux.alloc = mkAux blk.alloc k (xs.map (fun x => (pickOf s x).shown cv hs (txVars p s) sc) ++
        List.replicate (n - xs.length) (padShown p G)) := by
  have h1 : mapO (fun x : Nat × Nat => genProof (txTreeCfg cv hs) s.txTree x.1
      (s.transactions[x.1]?.getD Tx.default)) xs =
      .ok (xs.map fun x => truePath (fun t => hs.crh (txEncVar cv t)) hs.h2 13 (txVars p s) x.1) := by
    apply mapO_ok
    intro x hxm
    rw [← tx_path_var]
    exact genProof_rep h.tx x.1 (hx x hxm).1
  have h2 : mapO (fun x : Nat × Nat => genMembershipProof (signerTreeCfg cv hs) s.signerTree x.2) xs =
      .ok (xs.map fun x => truePath (fun t => hs.crh (pkEncVar cv t)) hs.h2 13 sc x.2) := by
    apply mapO_ok
    intro x hxm
    rw [genMembershipProof_eq h.signer x.2 (hx x hxm).2]
    have : (fun t => hs.crh (pkEncVar cv t)) = pkCRH cv hs.crh := by
      funext k; unfold pkCRH; rw [pkEncVar_eq]
    rw [this]
    rfl
  refine ⟨_, by unfold assemble; rw [h1, h2]; rfl, rfl, rfl, ?_⟩
  unfold UserAux.alloc mkAux
  simp only [List.map_append, List.map_map, List.map_replicate]
  congr 1
  · congr 1
    · apply List.map_congr_left
      intro x hxm
      show _ = truePath _ _ _ _ (x.1 % CAP)
      rw [Nat.mod_eq_of_lt (show x.1 < CAP from (hx x hxm).1)]; rfl
  · simp [UserAux.default, padShown, AggC.default_alloc, pickOf, txVars, Pick.shown, honestShown]

theorem assemble_txs {s : Agg.State p q G} {blk : Block (ZMod p)} {k : G} {n : Nat} {xs : List (Nat × Nat)}
    {aux : UserAux p G} (h : assemble cv hs s blk k n xs = .ok aux) :
    aux.transactions = (xs.map fun x => (s.transactions[x.1]?.getD Tx.default, x.1)) ++
      List.replicate (n - xs.length) (Tx.default, 0) := by
  unfold assemble at h
  rcases h1 : mapO (fun x : Nat × Nat => genProof (txTreeCfg cv hs) s.txTree x.1
      (s.transactions[x.1]?.getD Tx.default)) xs with a | e | _
  · rcases h2 : mapO (fun x : Nat × Nat => genMembershipProof (signerTreeCfg cv hs) s.signerTree x.2) xs
      with a' | e | _
    · rw [h1, h2] at h
      have h := Outcome.ok.inj h
      rw [← h]
      simp only [UserAux.default]
    · rw [h1, h2] at h; cases h
    · rw [h1, h2] at h; cases h
  · rw [h1] at h; cases h
  · rw [h1] at h; cases h

theorem pads_inert (h : FieldOk p) (P : Client.Params p) (cv : Curve p q G) (n m : Nat)
    (blk : BlockVar (ZMod p)) (k : G) (hk : k ≠ 0) (xs : List (Shown p G)) (z z' : UState p)
    (hz : z.prevTxIndex.val ≤ (p - 1) / 2) :
    updateBalance P cv (n + m) z (mkAux blk k (xs ++ List.replicate m (padShown p G))) z' ↔
      updateBalance P cv n z (mkAux blk k xs) z' := by
  induction m with
  | zero => simp
  | succ m ih =>
    rw [← ih, List.replicate_succ]
    exact C64_padding_inert h P cv (n + m) blk k hk xs (List.replicate m (padShown p G)) (padShown p G) rfl
      (by simp [padShown]) (by simp [padShown]) (by simp [padShown]) z z' hz

end PF.Spec
