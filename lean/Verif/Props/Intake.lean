import Verif.Model.User
import Verif.Props.AggregatorProvable
import Verif.Props.Schnorr

/-!
# C94 – C96: deposits seen by the circuit, the user handle, funds behind deposits
-/

set_option linter.unusedSectionVars false

namespace PF.Props
open PF PF.Agg PF.Spec PF.AggC PF.Contract
variable {p q : Nat} {G : Type} [AddCommGroup G] [Module (ZMod q) G] [DecidableEq G]

/-! ## C94 -/

/-- C94. For a transaction that is valid for its sender and has at least one real input, `tx_is_deposit` says
whether the sender is the contract. -/
theorem C94_deposit_iff_contract [NeZero p] (t : Tx (ZMod p) G) (sender contract : G) (hv : t.enforceValid sender)
    (hreal : ∃ u ∈ t.inputs.toList, u.isDummy = false) :
    txIsDeposit t contract = true ↔ sender = contract := by
  rw [enforceValid_iff] at hv
  unfold txIsDeposit
  simp only [List.all_eq_true, Bool.or_eq_true, decide_eq_true_eq]
  constructor
  · intro h
    obtain ⟨u, hu, hd⟩ := hreal
    rcases h u hu with h1 | h1
    · rw [hd] at h1; cases h1
    · rw [← hv.1 u hu hd, h1]
  · rintro rfl u hu
    cases hd : u.isDummy
    · exact .inr (hv.1 u hu hd)
    · exact .inl rfl

/-- C94. A transaction without real inputs is called a deposit whoever sends it, and it creates no value as long
as its outputs are amounts of 64 bits. -/
theorem C94_no_inputs (hp : 2 ^ 66 < p) (t : Tx (ZMod p) G) (sender contract : G) (hv : t.enforceValid sender)
    (hdummy : ∀ u ∈ t.inputs.toList, u.isDummy = true)
    (h64 : ∀ u ∈ t.outputs.toList, u.isDummy = false → u.amount.val < 2 ^ 64) :
    txIsDeposit t contract = true ∧ ∀ u ∈ t.outputs.toList, u.isDummy = false → u.amount = 0 := by
  have hne : NeZero p := ⟨by omega⟩
  refine ⟨?_, ?_⟩
  · unfold txIsDeposit
    rw [List.all_eq_true]
    intro u hu
    rw [hdummy u hu]; rfl
  · rw [enforceValid_iff] at hv
    have h0 : totalVal t.inputs.toList = 0 := by
      unfold totalVal
      refine List.sum_eq_zero fun x hx => ?_
      obtain ⟨u, hu, rfl⟩ := List.mem_map.1 hx
      rw [if_pos (hdummy u hu)]
    have hlen : t.outputs.toList.length = 4 := by simp
    have hlt := totalVal_lt t.outputs.toList (2 ^ 64) (by decide)
      (by intro hh; rw [hh] at hlen; cases hlen) h64
    rw [hlen] at hlt
    have hz : totalVal t.outputs.toList = 0 := by
      refine natCast_inj_of_lt (p := p) (by omega) (by omega) ?_
      rw [← hv.2, h0]
    intro u hu hd
    have := List.sum_eq_zero_iff.1 hz (if u.isDummy then 0 else u.amount.val)
      (List.mem_map.2 ⟨u, hu, rfl⟩)
    rw [if_neg (by rw [hd]; decide)] at this
    exact (ZMod.val_eq_zero _).1 this

/-- C94, what the function does not say: a valid transaction of any user, with no inputs and empty outputs, is called
a deposit. -/
theorem C94_user_deposit [NeZero p] (sender contract receiver : G) :
    let t : Tx (ZMod p) G := ⟨Vector.replicate _ UTXO.dummy, Vector.replicate _ (UTXO.new receiver 0)⟩
    t.enforceValid sender ∧ txIsDeposit t contract = true := by
  intro t
  have hi : ∀ u ∈ t.inputs.toList, u = UTXO.dummy := by
    intro u hu
    simp only [t, Vector.toList_replicate, List.mem_replicate] at hu
    exact hu.2
  have ho : ∀ u ∈ t.outputs.toList, u = UTXO.new receiver 0 := by
    intro u hu
    simp only [t, Vector.toList_replicate, List.mem_replicate] at hu
    exact hu.2
  refine ⟨(enforceValid_iff t sender).2 ⟨fun u hu hd => ?_, ?_⟩, ?_⟩
  · rw [hi u hu] at hd; cases hd
  · have h1 : totalVal t.inputs.toList = 0 := by
      refine List.sum_eq_zero fun x hx => ?_
      obtain ⟨u, hu, rfl⟩ := List.mem_map.1 hx
      rw [hi u hu]; rfl
    have h2 : totalVal t.outputs.toList = 0 := by
      refine List.sum_eq_zero fun x hx => ?_
      obtain ⟨u, hu, rfl⟩ := List.mem_map.1 hx
      rw [ho u hu]
      simp [UTXO.new]
    rw [h1, h2]
  · unfold txIsDeposit
    rw [List.all_eq_true]
    intro u hu
    rw [hi u hu]; rfl

/-- Non-vacuity of C94: a deposit of the contract and a payment of a user, both valid, both with a real input. -/
example : ∃ t t' : Tx (ZMod 101) (ZMod 7), t.enforceValid 1 ∧ t'.enforceValid 2 ∧
    (∃ u ∈ t.inputs.toList, u.isDummy = false) ∧ (∃ u ∈ t'.inputs.toList, u.isDummy = false) ∧
    txIsDeposit t 1 = true ∧ txIsDeposit t' 1 = false :=
  ⟨⟨#v[UTXO.new 1 5, UTXO.dummy, UTXO.dummy, UTXO.dummy], #v[UTXO.new 2 5, UTXO.dummy, UTXO.dummy, UTXO.dummy]⟩,
    ⟨#v[UTXO.new 2 5, UTXO.dummy, UTXO.dummy, UTXO.dummy], #v[UTXO.new 3 5, UTXO.dummy, UTXO.dummy, UTXO.dummy]⟩,
    (enforceValid_iff _ _).2 (by decide), (enforceValid_iff _ _).2 (by decide), by decide, by decide, by decide, by decide⟩

/-! ## C95 -/

theorem bind_ok_inv {ε α β : Type} {m : Outcome ε α} {f : α → Outcome ε β} {b : β} (h : (m >>= f) = .ok b) :
    ∃ a, m = .ok a ∧ f a = .ok b := by
  match m, h with
  | .ok a, h => exact ⟨a, rfl, h⟩
  | .err _, h => cases h
  | .panic, h => cases h

theorem runUser_keys (b : Build) : ∀ (ops : List (UserOp G)) (u u' : User (ZMod q) G),
    runUser b u ops = .ok u' → u'.sk = u.sk ∧ u'.pk = u.pk ∧ u'.id = u.id
  | [], u, u', h => by cases h; exact ⟨rfl, rfl, rfl⟩
  | .spend t :: ops, u, u', h => by
    simp only [runUser, User.spend] at h
    obtain ⟨u1, h1, h2⟩ := bind_ok_inv h
    obtain ⟨_, _, h3⟩ := bind_ok_inv h1
    obtain ⟨_, _, h4⟩ := bind_ok_inv h3
    cases h4
    have k := runUser_keys b ops _ u' h2
    exact k
  | .receive t :: ops, u, u', h => by
    simp only [runUser, User.receive] at h
    obtain ⟨u1, h1, h2⟩ := bind_ok_inv h
    obtain ⟨_, _, h4⟩ := bind_ok_inv h1
    cases h4
    have k := runUser_keys b ops _ u' h2
    exact k

/-- C95. Whatever a user spends and receives, what it signs verifies under the public key it was created with. -/
theorem C95_user_signs (b : Build) (cv : Curve p q G) (H : List (ZMod p) → ZMod p) (sk : ZMod q) (id nonce : Nat)
    (ops : List (UserOp G)) (u : User (ZMod q) G) (h : runUser b (User.sample cv sk id nonce) ops = .ok u)
    (m : List (ZMod p)) (ks : List (ZMod q)) (sig : ZMod q × ZMod q) (hs : u.sign cv H m ks = .ok (some sig)) :
    u.pk = sk • cv.gen ∧ u.id = id ∧ Schnorr.verify cv H u.pk m sig = true := by
  obtain ⟨h1, h2, h3⟩ := runUser_keys b ops _ _ h
  refine ⟨h2, h3, ?_⟩
  rw [h2]
  refine C25_sign_verifies cv H sk m ks sig ?_
  unfold User.sign at hs
  rw [h1] at hs
  exact hs

/-- C95. A new user starts with nothing. -/
theorem C95_new_user (cv : Curve p q G) (sk : ZMod q) (id : Nat) :
    (User.new cv sk id).balance = 0 ∧ (User.new cv sk id).nonce = 0 ∧ (User.new cv sk id).id = id ∧
    (User.new cv sk id).pk = sk • cv.gen := ⟨rfl, rfl, rfl, rfl⟩

/-- C95. The in-circuit state of a user determines balance, nonce and accumulator. -/
theorem C95_state_injective (hq : 2 ^ 64 ≤ q) (u u' : User (ZMod q) G) (acc acc' : ZMod q) (hb : u.balance < 2 ^ 64)
    (hb' : u'.balance < 2 ^ 64) (hn : u.nonce < 2 ^ 64) (hn' : u'.nonce < 2 ^ 64)
    (h : u.stateVar acc = u'.stateVar acc') : u.balance = u'.balance ∧ u.nonce = u'.nonce ∧ acc = acc' := by
  simp only [User.stateVar, List.cons.injEq, and_true] at h
  exact ⟨natCast_inj_of_lt (by omega) (by omega) h.1, natCast_inj_of_lt (by omega) (by omega) h.2.1, h.2.2⟩

/-- Non-vacuity of C95: a user receives, spends and signs. -/
example : ∃ u, runUser .debug (User.sample toyCurve2 4 9 3)
      [.receive ⟨Vector.replicate _ UTXO.dummy, #v[UTXO.new 1 6, UTXO.dummy, UTXO.dummy, UTXO.dummy]⟩,
       .spend ⟨#v[UTXO.new 1 5, UTXO.dummy, UTXO.dummy, UTXO.dummy], Vector.replicate _ UTXO.dummy⟩] = .ok u ∧
    u.balance = 1 ∧ u.nonce = 4 ∧ u.sign toyCurve2 (toyH 5) [1, 2] [2, 5] = .ok (some (5, 1)) :=
  ⟨⟨4, (4 : ZMod 7) • toyCurve2.gen, 1, 4, 9⟩, rfl, rfl, rfl, by decide⟩

/-! ## C96 -/

/-- C96. What the contract derives from a block does not depend on balances, nonces or pending deposits. -/
theorem C96_derivation_ignores_funds (cv : Curve p q G) (sha : Sha) (s s' : Contract.State G) (h : s.pks = s'.pks)
    (b : Block (ZMod p)) : derivePublicInputs cv sha s b = derivePublicInputs cv sha s' b := by
  unfold derivePublicInputs
  rw [h]

/-- C96. An epoch that credits a user with five and pays five out to another is processed, proved and matched by
what the contract derives, although no account on L1 ever held or deposited anything. -/
theorem C96_unbacked_epoch (h : Sizes p q) (hpq : p ≤ q) (bd : Build) (cv : Curve p q G) (P : AggC.Params p G)
    (hP : P.hs = oneHs p) (hfull : P.transferOnly = false) {a b : G} (ha : a ≠ P.contract) (hb : b ≠ P.contract)
    (hab : a ≠ b) :
    ∃ (z z' : CState p) (is : List (CInputs p G)) (st : Contract.State G) (block : Block (ZMod p)),
    Contract.run bd (Contract.new P.contract) [.join 0 a, .join 0 b] = .ok st ∧
    (∀ x ∈ st.accounts, x = 0) ∧ (∀ pk, st.deposits.get pk = none) ∧
    AggC.runSteps P cv z [is] z' ∧ (∃ u t f g, z = initState u t f g) ∧
    derivePublicInputs cv P.sha st block = .ok z'.toList ∧
    block.deposits = [(1, 5)] ∧ block.withdrawals = [(2, 5)] := by
  have hp : 1 < p := lt_of_lt_of_le (by decide) h.large
  obtain ⟨s1, s2, st, block, z, e1, e2, hon, hst, hpk, hb, b1, b2, b3, hz⟩ :=
    example_epoch bd hp (lt_of_lt_of_le hp hpq) cv P hP ha hb hab
  obtain ⟨z', hrun, hder⟩ := C57_first_epoch h hpq bd P hfull cv s1 s2 _ _
    (by show 3 ≤ 4096; omega) e1 e2 hon bd _ _ st hst (by rw [hpk]; show 3 ≤ 4294967296; omega) block hb z hz
    [s2.ivcInputs.map CInputs.alloc] (by simp)
  obtain ⟨u, t, g, _, _, _, hz'⟩ := hz
  have hst' : st = (join (join (Contract.new P.contract) 0 a).1 0 b).1 := (Outcome.ok.inj hst).symm
  refine ⟨z, z', _, st, block, hst, ?_, ?_, hrun, ⟨u, t, _, g, hz'⟩, hder, b1, b2⟩
  · rw [hst']
    intro x hx
    simpa [join, Contract.new] using hx
  · rw [hst']; intro pk; rfl

/-- Non-vacuity of C96 over the fields and the group order of the repository. -/
example : ∃ (z z' : CState bn254r) (is : List (CInputs bn254r (ZMod grumpkinQ)))
    (st : Contract.State (ZMod grumpkinQ)) (block : Block (ZMod bn254r)),
    (∀ x ∈ st.accounts, x = 0) ∧
    AggC.runSteps ⟨oneHs bn254r, toySha, ((1 : Nat) : ZMod grumpkinQ), false⟩ bnCurve z [is] z' ∧
    derivePublicInputs bnCurve toySha st block = .ok z'.toList ∧ block.deposits = [(1, 5)] := by
  obtain ⟨z, z', is, st, block, _, h2, _, h4, _, h6, h7, _⟩ := C96_unbacked_epoch sizes_bn254 bn254_le .debug bnCurve
    ⟨oneHs bn254r, toySha, ((1 : Nat) : ZMod grumpkinQ), false⟩ rfl rfl
    (a := ((2 : Nat) : ZMod grumpkinQ)) (b := ((3 : Nat) : ZMod grumpkinQ))
    (bn_ne (by decide)) (bn_ne (by decide)) (bn_ne (by decide))
  exact ⟨z, z', is, st, block, h2, h4, h6, h7⟩

end PF.Props
