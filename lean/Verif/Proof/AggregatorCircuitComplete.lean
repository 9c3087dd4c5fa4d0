import Verif.Proof.AggregatorCircuitValue

/-!
# Completeness of the aggregator circuit: honest updates satisfy it
-/
set_option linter.unusedSectionVars false

namespace PF.Spec
open PF.MT
variable {L D : Type} {p : Nat}

theorem sibsFrom_eq_map (h2 : D → D → D) (f : Nat → D) (n ℓ j : Nat) :
    sibsFrom h2 f ℓ n j = (List.range n).map fun k =>
      nodeAt h2 f (ℓ + k) (if j / 2 ^ k % 2 = 0 then j / 2 ^ k + 1 else j / 2 ^ k - 1) := by
  induction n generalizing ℓ j with
  | zero => rfl
  | succ n ih =>
    rw [List.range_succ_eq_map]
    simp only [sibsFrom, List.map_cons, List.map_map, pow_zero, Nat.div_one, Nat.add_zero]
    rw [ih]
    congr 1
    apply List.map_congr_left
    intro k _
    simp only [Function.comp, Nat.succ_eq_add_one, Nat.div_div_eq_div_mul]
    rw [show 2 * 2 ^ k = 2 ^ (k + 1) by ring, show ℓ + 1 + k = ℓ + (k + 1) by omega]

theorem trueSibs_eq (lh : L → D) (h2 : D → D → D) (height : Nat) (c : Nat → L) (i : Nat) :
    trueSibs lh h2 height c i = sibsFrom h2 (fun k => lh (c k)) 0 (height - 1) i := by
  rw [sibsFrom_eq_map]; simp [trueSibs]

theorem trueSibs_of (lh : L → D) (h2 : D → D → D) (height : Nat) (us : List (Upd L D)) (c : Nat → L)
    (h : Honest lh h2 height c us) : TrueSibs h2 lh (height - 1) c us := by
  induction us generalizing c with
  | nil => trivial
  | cons u us ih => exact ⟨by rw [h.1, trueSibs_eq], ih _ h.2⟩

theorem trueSibs_length (lh : L → D) (h2 : D → D → D) (height : Nat) (c : Nat → L) (i : Nat) :
    (trueSibs lh h2 height c i).length = height - 1 := by simp [trueSibs]

theorem honest_append (lh : L → D) (h2 : D → D → D) (height : Nat) (us vs : List (Upd L D)) (c : Nat → L) :
    Honest lh h2 height c (us ++ vs) ↔ Honest lh h2 height c us ∧ Honest lh h2 height (applied c us) vs := by
  induction us generalizing c with
  | nil => simp [Honest, applied]
  | cons u us ih => simp only [List.cons_append, Honest, ih, applied_cons, and_assoc]

/-- What honest tree updates need. -/
structure Ready (hs : Hashes p) (enc : L → List (ZMod p)) (height : Nat) (c : Nat → L) (r : ZMod p)
    (us : List (Upd L (ZMod p))) : Prop where
  root : RootOf hs enc height c r
  legal : Legal c us
  honest : Honest (fun l => hs.crh (enc l)) hs.h2 height c us

end PF.Spec

namespace PF.AggC
open PF PF.Spec PF.MT PF.Circuit PF.Contract
variable {p q : Nat} {G : Type} [AddCommGroup G] [Module (ZMod q) G] [DecidableEq G]

/-- Final state of an honest run. -/
def finalState (P : Params p G) (cv : Curve p q G) (z : CState p) (is : List (CInputs p G))
    (c : Nat → UTXO (ZMod p) G) (ct : Nat → Tx (ZMod p) G) (cs : Nat → G) : CState p :=
  { step := z.step + (is.length : Nat)
    utxoRoot := merkleRoot (fun l => P.hs.crh (utxoEncVar cv l)) P.hs.h2 32
      (applied c (ledgerUpds P cv z.txRootFinal is))
    txRoot := merkleRoot (fun l => P.hs.crh (txEncVar cv l)) P.hs.h2 13 (applied ct (txUpds z.step is))
    txRootFinal := z.txRootFinal
    signerRoot := merkleRoot (fun l => P.hs.crh (pkEncVar cv l)) P.hs.h2 13
      (applied cs (signerUpds P cv z.txRootFinal z.step is))
    signerAcc := chain (shaField p P.sha) (signerInput cv) z.signerAcc (signerList P cv z.txRootFinal is)
    depositAcc := if P.transferOnly then z.depositAcc else
      chain (shaField p P.sha) (amountInput cv) z.depositAcc (depositList P is)
    withdrawalAcc := if P.transferOnly then z.withdrawalAcc else
      chain (shaField p P.sha) (amountInput cv) z.withdrawalAcc (withdrawalList P is) }

theorem txUpds_idx {s : ZMod p} {is : List (CInputs p G)} {u : Upd (Tx (ZMod p) G) (ZMod p)}
    (h : u ∈ txUpds s is) : u.idx < TX_CAP := by
  induction is generalizing s with
  | nil => simp [txUpds] at h
  | cons i is ih =>
    rcases List.mem_cons.1 h with rfl | h
    · exact Nat.mod_lt _ (by simp [TX_CAP])
    · exact ih h

theorem signerUpds_idx {P : Params p G} {cv : Curve p q G} {root s : ZMod p} {is : List (CInputs p G)}
    {u : Upd G (ZMod p)} (h : u ∈ signerUpds P cv root s is) : u.idx < TX_CAP := by
  induction is generalizing s with
  | nil => simp [signerUpds] at h
  | cons i is ih =>
    rw [signerUpds_cons, List.mem_append] at h
    rcases h with h | h
    · simp only [signerUpds, List.append_nil] at h
      split at h
      · rw [List.mem_singleton] at h; subst h; exact Nat.mod_lt _ (by simp [TX_CAP])
      · simp at h
    · exact ih h

/-- Honest inputs satisfy the circuit. -/
theorem run_complete (h : Sizes p q) (P : Params p G) (cv : Curve p q G) (z : CState p)
    (is : List (CInputs p G)) (c : Nat → UTXO (ZMod p) G) (ct : Nat → Tx (ZMod p) G) (cs : Nat → G)
    (shape : ∀ i ∈ is, Shape q i)
    (owned : ∀ i ∈ is, OwnedBy i.senderPk i.tx.inputs.toList)
    (sums : ∀ i ∈ is, ((totalVal i.tx.inputs.toList : Nat) : ZMod p) = (totalVal i.tx.outputs.toList : Nat))
    (sig : ∀ i ∈ is, SigDefined cv P.hs z.txRootFinal i)
    (range : P.transferOnly = false → (∀ i ∈ is, ∀ u ∈ i.tx.outputs.toList, u.amount.val < 2 ^ 64) ∧
      ∀ i ∈ is, i.withdrawn P < 2 ^ 64)
    (hu : Ready P.hs (utxoEncVar cv) 32 c z.utxoRoot (ledgerUpds P cv z.txRootFinal is))
    (ht : Ready P.hs (txEncVar cv) 13 ct z.txRoot (txUpds z.step is))
    (hs : Ready P.hs (pkEncVar cv) 13 cs z.signerRoot (signerUpds P cv z.txRootFinal z.step is)) :
    stepBatch P cv z is (finalState P cv z is c ct cs) := by
  rw [stepBatch_iff h]
  refine ⟨shape, owned, sums, sig, ?_, ?_, ?_, rfl, ?_, rfl, rfl⟩
  · exact UpdChain.complete _ (fun u m => ledgerUpds_idx m) hu.root hu.legal (trueSibs_of _ _ _ _ _ hu.honest)
  · exact UpdChain.complete _ (fun u m => txUpds_idx m) ht.root ht.legal (trueSibs_of _ _ _ _ _ ht.honest)
  · exact UpdChain.complete _ (fun u m => signerUpds_idx m) hs.root hs.legal (trueSibs_of _ _ _ _ _ hs.honest)
  · cases t : P.transferOnly with
    | true => left; simp [finalState, t]
    | false => right; exact ⟨rfl, (range t).1, (range t).2, by simp [finalState, t], by simp [finalState, t]⟩

end PF.AggC
