import Verif.Proof.AggregatorCircuitComplete

/-!
# Building honest circuit inputs for one transaction
-/
set_option linter.unusedSectionVars false

namespace PF.AggC
open PF PF.Spec PF.MT PF.Circuit PF.Contract
variable {p q : Nat} {G : Type} [AddCommGroup G] [Module (ZMod q) G] [DecidableEq G]

/-- Contents after replacing, at the positions `js`, by the values `n u` of the selected UTXOs. -/
def placed (on : UTXO (ZMod p) G → Bool) (n : UTXO (ZMod p) G → UTXO (ZMod p) G) :
    (Nat → UTXO (ZMod p) G) → List (UTXO (ZMod p) G) → List Nat → Nat → UTXO (ZMod p) G
  | c, u :: us, j :: js => if on u then placed on n (write c j (n u)) us js else placed on n c us js
  | c, _, _ => c

/-- The positions `js` are in range and hold the values `o u` when their turn comes. -/
def fits (on : UTXO (ZMod p) G → Bool) (o n : UTXO (ZMod p) G → UTXO (ZMod p) G) :
    (Nat → UTXO (ZMod p) G) → List (UTXO (ZMod p) G) → List Nat → Prop
  | c, u :: us, j :: js =>
    if on u then j < UTXO_CAP ∧ c j = o u ∧ fits on o n (write c j (n u)) us js else fits on o n c us js
  | _, [], [] => True
  | _, _, _ => False

/-- Positions and true siblings for the selected UTXOs, zeros for the others. -/
def honestProofs (cv : Curve p q G) (hs : Hashes p) (on : UTXO (ZMod p) G → Bool)
    (n : UTXO (ZMod p) G → UTXO (ZMod p) G) :
    (Nat → UTXO (ZMod p) G) → List (UTXO (ZMod p) G) → List Nat → List (ZMod p × List (ZMod p))
  | c, u :: us, j :: js =>
    if on u then ((j : ZMod p), trueSibs (fun l => hs.crh (utxoEncVar cv l)) hs.h2 32 c j) ::
      honestProofs cv hs on n (write c j (n u)) us js
    else (0, List.replicate 31 0) :: honestProofs cv hs on n c us js
  | _, _, _ => []

theorem honestProofs_spec (h : Sizes p q) (cv : Curve p q G) (hs : Hashes p) (on : UTXO (ZMod p) G → Bool)
    (o n : UTXO (ZMod p) G → UTXO (ZMod p) G) (us : List (UTXO (ZMod p) G)) (js : List Nat)
    (c : Nat → UTXO (ZMod p) G) (hf : fits on o n c us js) :
    ProofsShape us (honestProofs cv hs on n c us js) ∧
    Legal c (updsOf us (honestProofs cv hs on n c us js) on o n) ∧
    Honest (fun l => hs.crh (utxoEncVar cv l)) hs.h2 32 c
      (updsOf us (honestProofs cv hs on n c us js) on o n) ∧
    applied c (updsOf us (honestProofs cv hs on n c us js) on o n) = placed on n c us js := by
  induction us generalizing js c with
  | nil =>
    cases js with
    | nil => exact ⟨⟨rfl, by simp [honestProofs]⟩, by simp [updsOf, legal_nil], trivial, rfl⟩
    | cons => exact absurd hf (by simp [fits])
  | cons u us ih =>
    cases js with
    | nil => exact absurd hf (by simp [fits])
    | cons j js =>
      unfold fits at hf
      unfold honestProofs placed
      by_cases hu : on u = true
      · rw [if_pos hu] at hf
        rw [if_pos hu, if_pos hu, updsOf_cons, if_pos hu]
        obtain ⟨h1, h2, h3⟩ := hf
        obtain ⟨⟨i1, i1'⟩, i2, i3, i4⟩ := ih js _ h3
        have hj : ((j : ZMod p)).val % 2 ^ (UTXO_TREE_HEIGHT - 1) = j := by
          have hl := h.large
          have : UTXO_CAP = 2 ^ 31 := rfl
          have hjp : j < p := by omega
          rw [ZMod.val_natCast, Nat.mod_eq_of_lt hjp]
          exact Nat.mod_eq_of_lt h1
        simp only [hj, List.singleton_append]
        refine ⟨⟨by simp [i1], ?_⟩, (legal_cons _ _ _).2 ⟨h2, i2⟩, ⟨rfl, i3⟩, i4⟩
        intro d hd
        rcases List.mem_cons.1 hd with rfl | hd
        · exact trueSibs_length _ _ _ _ _
        · exact i1' d hd
      · rw [if_neg hu] at hf
        rw [if_neg hu, if_neg hu, updsOf_cons, if_neg hu]
        obtain ⟨⟨i1, i1'⟩, i2, i3, i4⟩ := ih js _ hf
        refine ⟨⟨by simp [i1], ?_⟩, by simpa using i2, by simpa using i3, by simpa using i4⟩
        intro d hd
        rcases List.mem_cons.1 hd with rfl | hd
        · simp
        · exact i1' d hd

/-- A transaction with given sender and signature, and positions for its inputs and outputs, is accepted
in any state whose trees can take it. -/
theorem one_complete_tx (h : Sizes p q) (hpq : p ≤ q) (P : Params p G) (cv : Curve p q G) (z : CState p)
    (c : Nat → UTXO (ZMod p) G) (ct : Nat → Tx (ZMod p) G) (cs : Nat → G)
    (hc : RootOf P.hs (utxoEncVar cv) 32 c z.utxoRoot)
    (hct : RootOf P.hs (txEncVar cv) 13 ct z.txRoot)
    (hcs : RootOf P.hs (pkEncVar cv) 13 cs z.signerRoot)
    (tx : Tx (ZMod p) G) (pk : G) (sS sE : List Bool) (lS : sS.length = modBits q)
    (lE : sE.length = modBits q) (djs ajs : List Nat)
    (owned : OwnedBy pk tx.inputs.toList)
    (sums : ((totalVal tx.inputs.toList : Nat) : ZMod p) = (totalVal tx.outputs.toList : Nat))
    (range : P.transferOnly = false → (∀ u ∈ tx.outputs.toList, u.amount.val < 2 ^ 64) ∧
      totalVal (tx.outputs.toList.filter fun u => u.pk = P.contract) < 2 ^ 64)
    (sg : Bool) (hsg : sg = (decide (bitsVal sE < q) &&
      Schnorr.verify cv P.hs.crh pk (txEncVar cv tx ++ [z.txRootFinal])
        ((bitsVal sS : ZMod q), (bitsVal sE : ZMod q))))
    (hd : fits (fun u => sg && !u.isDummy) id (fun _ => UTXO.dummy) c tx.inputs.toList djs)
    (ha : fits (fun u => (sg || decide (pk = P.contract)) && u.onLedger P.contract) (fun _ => UTXO.dummy) id
      (placed (fun u => sg && !u.isDummy) (fun _ => UTXO.dummy) c tx.inputs.toList djs)
      tx.outputs.toList ajs)
    (ht0 : ct (z.step.val % TX_CAP) = Tx.default)
    (hs0 : (sg || decide (pk = P.contract)) = true → cs (z.step.val % TX_CAP) = 0) :
    ∃ i z', i.tx = tx ∧ i.senderPk = pk ∧ i.sigS = sS ∧ i.sigE = sE ∧
      i.signed cv P.hs z.txRootFinal = sg ∧
      stepOne P cv z i z' ∧
      RootOf P.hs (utxoEncVar cv) 32
        (placed (fun u => (sg || decide (pk = P.contract)) && u.onLedger P.contract) id
          (placed (fun u => sg && !u.isDummy) (fun _ => UTXO.dummy) c tx.inputs.toList djs)
          tx.outputs.toList ajs) z'.utxoRoot ∧
      RootOf P.hs (txEncVar cv) 13 (write ct (z.step.val % TX_CAP) tx) z'.txRoot := by
  obtain ⟨d1, d2, d3, d4⟩ := honestProofs_spec h cv P.hs _ _ _ _ _ _ hd
  obtain ⟨a1, a2, a3, a4⟩ := honestProofs_spec h cv P.hs _ _ _ _ _ _ ha
  let i : CInputs p G :=
    { tx := tx
      txProof := trueSibs (fun l => P.hs.crh (txEncVar cv l)) P.hs.h2 13 ct (z.step.val % TX_CAP)
      dels := honestProofs cv P.hs (fun u => sg && !u.isDummy) (fun _ => UTXO.dummy) c tx.inputs.toList djs
      adds := honestProofs cv P.hs
        (fun u => (sg || decide (pk = P.contract)) && u.onLedger P.contract) id
        (placed (fun u => sg && !u.isDummy) (fun _ => UTXO.dummy) c tx.inputs.toList djs)
        tx.outputs.toList ajs
      signerProof := trueSibs (fun l => P.hs.crh (pkEncVar cv l)) P.hs.h2 13 cs (z.step.val % TX_CAP)
      senderPk := pk, sigS := sS, sigE := sE }
  have hsig : i.signed cv P.hs z.txRootFinal = sg := hsg.symm
  have hau : i.authorised P cv z.txRootFinal = (sg || decide (pk = P.contract)) := by
    unfold CInputs.authorised; rw [hsig]
  have he : i.erases cv P.hs z.txRootFinal = updsOf tx.inputs.toList i.dels (fun u => sg && !u.isDummy) id
      (fun _ => UTXO.dummy) := by rw [erases_eq, hsig]
  have hi : i.inserts P cv z.txRootFinal = updsOf tx.outputs.toList i.adds
      (fun u => (sg || decide (pk = P.contract)) && u.onLedger P.contract) (fun _ => UTXO.dummy) id := by
    rw [inserts_eq, hau]
  have hshape : Shape q i := ⟨lS, lE, d1, a1, trueSibs_length _ _ _ _ _, trueSibs_length _ _ _ _ _⟩
  have hl : ledgerUpds P cv z.txRootFinal [i] =
      updsOf tx.inputs.toList i.dels (fun u => sg && !u.isDummy) id (fun _ => UTXO.dummy) ++
      updsOf tx.outputs.toList i.adds
        (fun u => (sg || decide (pk = P.contract)) && u.onLedger P.contract) (fun _ => UTXO.dummy) id := by
    rw [ledgerUpds_one, he, hi]
  have happ : applied c (ledgerUpds P cv z.txRootFinal [i]) =
      placed (fun u => (sg || decide (pk = P.contract)) && u.onLedger P.contract) id
          (placed (fun u => sg && !u.isDummy) (fun _ => UTXO.dummy) c tx.inputs.toList djs)
          tx.outputs.toList ajs := by
    rw [hl, applied_append, d4, a4]
  have key := run_complete h P cv z [i] c ct cs (by simpa using hshape) (by simpa using owned)
    (by simpa using sums) (by simpa using sigDefined_of_le h hpq cv P.hs _ i lE)
    (fun t => by simpa [CInputs.withdrawn] using range t)
    ⟨hc, by rw [hl, legal_append, d4]; exact ⟨d2, a2⟩, by rw [hl, honest_append, d4]; exact ⟨d3, a3⟩⟩
    ⟨hct, by
      simp only [txUpds]; rw [legal_cons]; exact ⟨ht0, legal_nil _⟩, ⟨rfl, trivial⟩⟩
    ⟨hcs, by
      simp only [signerUpds, List.append_nil]
      rw [hau]
      split
      · rename_i hb; rw [legal_cons]; exact ⟨hs0 hb, legal_nil _⟩
      · exact legal_nil _, by
      simp only [signerUpds, List.append_nil]
      rw [hau]
      split
      · exact ⟨rfl, trivial⟩
      · trivial⟩
  obtain ⟨z1, k1, k2⟩ := key
  have k3 : finalState P cv z [i] c ct cs = z1 := k2
  refine ⟨i, z1, rfl, rfl, rfl, rfl, hsig, k1, ?_, ?_⟩
  · rw [← happ, ← k3]
    rfl
  · rw [← k3]
    rfl

/-- The same without the transaction root. -/
theorem one_complete (h : Sizes p q) (hpq : p ≤ q) (P : Params p G) (cv : Curve p q G) (z : CState p)
    (c : Nat → UTXO (ZMod p) G) (ct : Nat → Tx (ZMod p) G) (cs : Nat → G)
    (hc : RootOf P.hs (utxoEncVar cv) 32 c z.utxoRoot)
    (hct : RootOf P.hs (txEncVar cv) 13 ct z.txRoot)
    (hcs : RootOf P.hs (pkEncVar cv) 13 cs z.signerRoot)
    (tx : Tx (ZMod p) G) (pk : G) (sS sE : List Bool) (lS : sS.length = modBits q)
    (lE : sE.length = modBits q) (djs ajs : List Nat)
    (owned : OwnedBy pk tx.inputs.toList)
    (sums : ((totalVal tx.inputs.toList : Nat) : ZMod p) = (totalVal tx.outputs.toList : Nat))
    (range : P.transferOnly = false → (∀ u ∈ tx.outputs.toList, u.amount.val < 2 ^ 64) ∧
      totalVal (tx.outputs.toList.filter fun u => u.pk = P.contract) < 2 ^ 64)
    (sg : Bool) (hsg : sg = (decide (bitsVal sE < q) &&
      Schnorr.verify cv P.hs.crh pk (txEncVar cv tx ++ [z.txRootFinal])
        ((bitsVal sS : ZMod q), (bitsVal sE : ZMod q))))
    (hd : fits (fun u => sg && !u.isDummy) id (fun _ => UTXO.dummy) c tx.inputs.toList djs)
    (ha : fits (fun u => (sg || decide (pk = P.contract)) && u.onLedger P.contract) (fun _ => UTXO.dummy) id
      (placed (fun u => sg && !u.isDummy) (fun _ => UTXO.dummy) c tx.inputs.toList djs)
      tx.outputs.toList ajs)
    (ht0 : ct (z.step.val % TX_CAP) = Tx.default)
    (hs0 : (sg || decide (pk = P.contract)) = true → cs (z.step.val % TX_CAP) = 0) :
    ∃ i z', i.tx = tx ∧ i.senderPk = pk ∧ i.sigS = sS ∧ i.sigE = sE ∧
      i.signed cv P.hs z.txRootFinal = sg ∧
      stepOne P cv z i z' ∧
      RootOf P.hs (utxoEncVar cv) 32
        (placed (fun u => (sg || decide (pk = P.contract)) && u.onLedger P.contract) id
          (placed (fun u => sg && !u.isDummy) (fun _ => UTXO.dummy) c tx.inputs.toList djs)
          tx.outputs.toList ajs) z'.utxoRoot := by
  obtain ⟨i, z', h1, h2, h3, h4, h5, h6, h7, _⟩ :=
    one_complete_tx h hpq P cv z c ct cs hc hct hcs tx pk sS sE lS lE djs ajs owned sums range sg hsg hd ha ht0 hs0
  exact ⟨i, z', h1, h2, h3, h4, h5, h6, h7⟩

/-- A bit string that is never a canonical challenge. -/
theorem ones_not_lt (q : Nat) : ¬ bitsVal (List.replicate (modBits q) true) < q := by
  have : ∀ n, bitsVal (List.replicate n true) = 2 ^ n - 1 := by
    intro n
    induction n with
    | zero => rfl
    | succ n ih =>
      rw [List.replicate_succ]
      simp only [bitsVal, ih, Bool.toNat_true]
      have := Nat.one_le_two_pow (n := n)
      rw [pow_succ]; omega
  rw [this]
  have := Nat.lt_size_self q
  unfold modBits
  omega

end PF.AggC
