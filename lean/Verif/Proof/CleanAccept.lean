import Verif.Proof.CleanRun

/-!
# The collision-free run is accepted (for examples)
-/
set_option linter.unusedSectionVars false

namespace PF.Clean
open PF PF.Spec PF.MT PF.AggC PF.Circuit PF.Contract PF.Agg PF.Props
variable {p q : Nat} {G : Type} [AddCommGroup G] [Module (ZMod q) G] [DecidableEq G]
variable {cv : Curve p q G} {k0 a b : G}

theorem five_val (hp : 1000 < p) : (5 : ZMod p).val = 5 := by
  have : ((5 : Nat) : ZMod p).val = 5 := by rw [ZMod.val_natCast, Nat.mod_eq_of_lt (by omega)]
  simpa using this

/-- Final state of the run. -/
def zEnd (cv : Curve p q G) (k0 a b : G) (sha : Sha) (mode : Bool) : CState p :=
  finalState (P cv k0 a b sha mode) cv (z cv k0 a b) (is cv k0 a b) c0 ct0 cs0

theorem tx0_inputs (x y : G) : (tx0 p x y).inputs.toList = [UTXO.new x 5, UTXO.dummy, UTXO.dummy, UTXO.dummy] := rfl
theorem tx0_outputs (x y : G) : (tx0 p x y).outputs.toList = [UTXO.new y 5, UTXO.dummy, UTXO.dummy, UTXO.dummy] := rfl

theorem new_real (x : G) (v : ZMod p) : (UTXO.new x v).isDummy = false := rfl
theorem dummy_dummy : (UTXO.dummy : UTXO (ZMod p) G).isDummy = true := rfl

theorem withdrawn_eq (hp : 1000 < p) (k0 x y : G) (Q : Params p G) (hQ : Q.contract = k0) (i : CInputs p G)
    (hi : i.tx = tx0 p x y) : i.withdrawn Q = if y = k0 then 5 else 0 := by
  have d : ∀ l : List (UTXO (ZMod p) G), (∀ u ∈ l, u.isDummy = true) →
      totalVal (l.filter fun u => u.pk = k0) = 0 := by
    intro l hl
    induction l with
    | nil => rfl
    | cons u l ih =>
      have hu := hl u (by simp)
      have := ih fun v hv => hl v (by simp [hv])
      rw [List.filter_cons]
      split
      · simp [totalVal, hu] at this ⊢; exact this
      · exact this
  rw [CInputs.withdrawn, hi, tx0_outputs, hQ]
  rw [List.filter_cons]
  have h3 := d [UTXO.dummy, UTXO.dummy, UTXO.dummy] (by
    intro u hu
    simp only [List.mem_cons, List.not_mem_nil, or_false, or_self] at hu
    rw [hu]; rfl)
  by_cases h : y = k0
  · rw [if_pos (by simp [UTXO.new, h]), if_pos h]
    have e : ∀ l : List (UTXO (ZMod p) G), totalVal (UTXO.new y 5 :: l) = 5 + totalVal l := by
      intro l; simp [totalVal, UTXO.new, five_val hp]
    rw [e, h3]
  · rw [if_neg (by simp [UTXO.new, h]), if_neg h, h3]

theorem shape_all : ∀ i ∈ is cv k0 a b, Shape q i := by
  intro i hi
  simp only [is, List.mem_cons, List.not_mem_nil, or_false] at hi
  rcases hi with rfl | rfl | rfl
  · exact ⟨by simp [i0, noSig], by simp [i0, noSig], ⟨rfl, by simp [i0, noP]⟩,
      ⟨rfl, by simp [i0, noP, trueSibs_length]⟩, by simp [i0, trueSibs_length], by simp [i0, trueSibs_length]⟩
  · exact ⟨by simp [i1, noSig], by simp [i1, natBits_length], ⟨rfl, by simp [i1, noP, trueSibs_length]⟩,
      ⟨rfl, by simp [i1, noP, trueSibs_length]⟩, by simp [i1, trueSibs_length], by simp [i1, trueSibs_length]⟩
  · exact ⟨by simp [i2, noSig], by simp [i2, natBits_length], ⟨rfl, by simp [i2, noP, trueSibs_length]⟩,
      ⟨rfl, by simp [i2, noP]⟩, by simp [i2, trueSibs_length], by simp [i2, trueSibs_length]⟩

theorem tx_of (i : CInputs p G) (hi : i ∈ is cv k0 a b) : ∃ y, i.tx = tx0 p i.senderPk y := by
  simp only [is, List.mem_cons, List.not_mem_nil, or_false] at hi
  rcases hi with rfl | rfl | rfl
  · exact ⟨a, rfl⟩
  · exact ⟨b, rfl⟩
  · exact ⟨k0, rfl⟩

/-- The run is accepted. -/
theorem run (hsz : Sizes p q) (hpq : p ≤ q) (hp : 1000 < p) (hq : 1 < q) (ha : a ≠ k0) (hb : b ≠ k0)
    (hab : a ≠ b) (h0 : k0 ≠ 0) (ha0 : a ≠ 0) (hb0 : b ≠ 0) (sha : Sha) (mode : Bool)
    (bs : List (List (CInputs p G))) (hbs : bs.flatten = is cv k0 a b) :
    runSteps (P cv k0 a b sha mode) cv (z cv k0 a b) bs (zEnd cv k0 a b sha mode) := by
  obtain ⟨l1, l2, -⟩ := ledger_ready (cv := cv) hp hq ha hb hab sha mode (final cv k0 a b)
  obtain ⟨t1, t2, -⟩ := tx_ready (cv := cv) (b := b) hp ha
  obtain ⟨s1, s2, -⟩ := signer_ready (cv := cv) (b := b) hp hq ha h0 ha0 hb0 sha mode (final cv k0 a b)
  have := C50_honest_runs_accepted hsz hpq (P cv k0 a b sha mode) cv (z cv k0 a b) bs c0 ct0 cs0
    (by rw [hbs]; exact shape_all)
    (by
      rw [hbs]; intro i hi
      obtain ⟨y, hy⟩ := tx_of i hi
      rw [hy, tx0_inputs]
      intro u hu hd
      simp only [List.mem_cons, List.not_mem_nil, or_false] at hu
      rcases hu with rfl | rfl | rfl | rfl
      · rfl
      all_goals cases hd)
    (by
      rw [hbs]; intro i hi
      obtain ⟨y, hy⟩ := tx_of i hi
      rw [hy, tx0_inputs, tx0_outputs]
      simp [totalVal, UTXO.new])
    (by
      rw [hbs]; intro i hi u hu
      obtain ⟨y, hy⟩ := tx_of i hi
      rw [hy, tx0_outputs] at hu
      simp only [List.mem_cons, List.not_mem_nil, or_false] at hu
      rcases hu with rfl | rfl | rfl | rfl
      · show (5 : ZMod p).val < _
        rw [five_val hp]; decide
      all_goals simp [UTXO.dummy])
    (by
      rw [hbs]; intro i hi
      obtain ⟨y, hy⟩ := tx_of i hi
      rw [withdrawn_eq hp k0 i.senderPk y _ rfl i hy]
      split <;> decide)
    rfl (by rw [hbs]; exact l1) (by rw [hbs]; exact l2)
    rfl (by rw [hbs]; exact t1) (by rw [hbs]; exact t2)
    rfl (by rw [hbs]; exact s1) (by rw [hbs]; exact s2)
  rw [hbs] at this
  exact this

theorem signers_eq (hp : 1000 < p) (hq : 1 < q) (sha : Sha) (mode : Bool) (r : ZMod p) :
    signerList (P cv k0 a b sha mode) cv r (is cv k0 a b) = [k0, a, b] := by
  have := authorised_all (cv := cv) (k0 := k0) (a := a) (b := b) (by omega : 1 < p) hq sha mode r
  unfold signerList
  rw [List.map_congr_left (g := fun i => i.senderPk) (fun i hi => by rw [this i hi]; rfl)]
  rfl

theorem deposits_eq (hp : 1000 < p) (ha : a ≠ k0) (hb : b ≠ k0) (sha : Sha) (mode : Bool) :
    PF.AggC.depositList (P cv k0 a b sha mode) (is cv k0 a b) = [(a, 5)] := by
  simp [PF.AggC.depositList, is, i0, i1, i2, P, ha, hb, tx0_outputs, UTXO.new, five_val hp, UTXO.dummy]

theorem withdrawals_eq (hp : 1000 < p) (ha : a ≠ k0) (hb : b ≠ k0) (sha : Sha) (mode : Bool) :
    PF.AggC.withdrawalList (P cv k0 a b sha mode) (is cv k0 a b) = [(b, 5)] := by
  have e0 := withdrawn_eq hp k0 k0 a (P cv k0 a b sha mode) rfl (i0 cv k0 a b) rfl
  have e1 := withdrawn_eq hp k0 a b (P cv k0 a b sha mode) rfl (i1 cv k0 a b) rfl
  have e2 := withdrawn_eq hp k0 b k0 (P cv k0 a b sha mode) rfl (i2 cv k0 a b) rfl
  rw [if_neg ha] at e0; rw [if_neg hb] at e1; rw [if_pos rfl] at e2
  simp [PF.AggC.withdrawalList, is, e0, e1, e2]
  rfl

theorem applied_tx (hp : 1000 < p) : applied ct0 (txUpds 0 (is cv k0 a b)) = ct3 k0 a b := by
  rw [txUpds_eq hp]; rfl

/-- The announced root is the root reached. -/
theorem root_reached (hp : 1000 < p) (sha : Sha) (mode : Bool) :
    (zEnd cv k0 a b sha mode).txRoot = final cv k0 a b := by
  have e : (zEnd cv k0 a b sha mode).txRoot =
      merkleRoot (lhT cv k0 a b) (h2 p) 13 (applied ct0 (txUpds 0 (is cv k0 a b))) := rfl
  rw [e, applied_tx hp]; rfl

/-- Registry with the contract and the two users. -/
def reg (k0 a b : G) : Contract.State G :=
  { pks := [k0, a, b], pkIndices := [(k0, 0), (a, 1), (b, 2)], accounts := [0, 0, 0], nonces := [0, 0, 0],
    deposits := [] }

/-- Block of the run. -/
def block (cv : Curve p q G) (k0 a b : G) (sha : Sha) : Block (ZMod p) :=
  { utxoRoot := (zEnd cv k0 a b sha false).utxoRoot, txRoot := final cv k0 a b
    signerRoot := (zEnd cv k0 a b sha false).signerRoot
    signers := [some 0, some 1, some 2], deposits := [(1, 5)], withdrawals := [(2, 5)], height := 1 }

theorem public_inputs (hp : 1000 < p) (hq : 1 < q) (ha : a ≠ k0) (hb : b ≠ k0) (sha : Sha) :
    derivePublicInputs cv sha (reg k0 a b) (block cv k0 a b sha) = .ok (zEnd cv k0 a b sha false).toList := by
  have e1 : signerAcc cv sha (reg k0 a b).pks (block cv k0 a b sha).signers 0 =
      .ok (zEnd cv k0 a b sha false).signerAcc := by
    refine (signerAcc_ok cv sha _ _ _ _).2 ⟨[k0, a, b], rfl, ?_⟩
    have e : (zEnd cv k0 a b sha false).signerAcc = chain (shaField p sha) (signerInput cv) 0
      (signerList (P cv k0 a b sha false) cv (final cv k0 a b) (is cv k0 a b)) := rfl
    rw [e, signers_eq hp hq]
  have e2 : amountAcc cv sha (reg k0 a b).pks (block cv k0 a b sha).deposits 0 =
      .ok (zEnd cv k0 a b sha false).depositAcc := by
    refine (amountAcc_ok cv sha _ _ _ _).2 ⟨[(a, 5)], rfl, ?_⟩
    have e : (zEnd cv k0 a b sha false).depositAcc = chain (shaField p sha) (amountInput cv) 0
      (PF.AggC.depositList (P cv k0 a b sha false) (is cv k0 a b)) := rfl
    rw [e, deposits_eq hp ha hb]
  have e3 : amountAcc cv sha (reg k0 a b).pks (block cv k0 a b sha).withdrawals 0 =
      .ok (zEnd cv k0 a b sha false).withdrawalAcc := by
    refine (amountAcc_ok cv sha _ _ _ _).2 ⟨[(b, 5)], rfl, ?_⟩
    have e : (zEnd cv k0 a b sha false).withdrawalAcc = chain (shaField p sha) (amountInput cv) 0
      (PF.AggC.withdrawalList (P cv k0 a b sha false) (is cv k0 a b)) := rfl
    rw [e, withdrawals_eq hp ha hb]
  have e4 : ((block cv k0 a b sha).signers.length : ZMod p) = (zEnd cv k0 a b sha false).step := by
    show ((3 : Nat) : ZMod p) = 0 + ((3 : Nat) : ZMod p)
    rw [zero_add]
  unfold derivePublicInputs
  rw [e1, e2, e3, e4]
  show Outcome.ok _ = _
  refine congrArg Outcome.ok ?_
  show [_, _, _, _, _, _, _, _] = [_, _, _, _, _, _, _, _]
  rw [root_reached hp]
  rfl

theorem ledgerUpds_first (hp : 1 < p) (hq : 1 < q) (ha : a ≠ k0) (sha : Sha) (mode : Bool) (r : ZMod p) :
    ledgerUpds (P cv k0 a b sha mode) cv r [i0 cv k0 a b] =
      [⟨0, UTXO.dummy, uA p a, trueSibs (lhU cv k0 a b) (h2 p) 32 c0 0⟩] := by
  have s0 := signed0 (cv := cv) (k0 := k0) (a := a) (b := b) hp hq r
  have a0 := authorised_all (cv := cv) (k0 := k0) (a := a) (b := b) hp hq sha mode r (i0 cv k0 a b) (by simp [is])
  have e0 : (i0 cv k0 a b).erases cv (P cv k0 a b sha mode).hs r = [] := by
    unfold CInputs.erases
    show List.map _ (List.filter (fun x => (i0 cv k0 a b).signed cv (hs cv k0 a b) r && _) _) = []
    rw [s0]; simp
  have n0 : (i0 cv k0 a b).inserts (P cv k0 a b sha mode) cv r =
      [⟨0, UTXO.dummy, uA p a, trueSibs (lhU cv k0 a b) (h2 p) 32 c0 0⟩] := by
    unfold CInputs.inserts; rw [a0]
    simp [i0, tx0, UTXO.onLedger, UTXO.dummy, UTXO.new, P, ha, uA]
  rw [ledgerUpds_one, e0, n0]; rfl

theorem z_open (sha : Sha) (mode : Bool) : Open (P cv k0 a b sha mode) cv (z cv k0 a b) c0 ct0 cs0 :=
  ⟨rfl, rfl, rfl, rfl, rfl⟩

theorem healthy0 (k : G) : Healthy k (c0 : Nat → UTXO (ZMod p) G) := fun j h => by cases h

theorem range_all (hp : 1000 < p) :
    ∀ i ∈ is cv k0 a b, ∀ u ∈ i.tx.outputs.toList, u.amount.val < 2 ^ 64 := by
  intro i hi u hu
  obtain ⟨y, hy⟩ := tx_of i hi
  rw [hy, tx0_outputs] at hu
  simp only [List.mem_cons, List.not_mem_nil, or_false] at hu
  rcases hu with rfl | rfl | rfl | rfl
  · show (5 : ZMod p).val < _
    rw [five_val hp]; decide
  all_goals simp [UTXO.dummy]

/-- A state in which the deposit is on the ledger and the other trees are empty. -/
def zPaid (cv : Curve p q G) (k0 a b : G) : CState p :=
  initState (merkleRoot (lhU cv k0 a b) (h2 p) 32 (c1 a)) (merkleRoot (lhT cv k0 a b) (h2 p) 13 ct0)
    (final cv k0 a b) (merkleRoot (lhK cv k0 a b) (h2 p) 13 cs0)

theorem paid_open (sha : Sha) (mode : Bool) : Open (P cv k0 a b sha mode) cv (zPaid cv k0 a b) (c1 a) ct0 cs0 :=
  ⟨rfl, rfl, rfl, rfl, rfl⟩

theorem five_lt (hp : 1000 < p) : (5 : ZMod p).val < 2 ^ 64 := by rw [five_val hp]; decide

theorem root_utxo (sha : Sha) (mode : Bool) :
    RootOf (P cv k0 a b sha mode).hs (utxoEncVar cv) 32 c0 (z cv k0 a b).utxoRoot := (z_open sha mode).utxo

end PF.Clean
