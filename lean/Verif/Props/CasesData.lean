import Verif.Props.SignatureBinding
import Verif.Props.Sponge
import Verif.Props.Wallet
import Verif.Props.Intake
import Verif.Props.Grumpkin

/-!
# Concrete cases for the theorems about data, signatures, wallets and the contract

Every theorem named here is applied to concrete values, so its hypotheses are met.
-/
set_option linter.unusedSectionVars false

namespace PF.Cases.Data
open PF PF.MT PF.Spec PF.Circuit PF.Props PF.Contract
open PF.AggC (grumpkinQ txIsDeposit)

/-! ## Encodings and digests (C17–C19) -/

theorem small : ∀ u ∈ toyTx.ios, u.amount < 101 := by decide

example := C17_tx_encoding_injective toyCurve (by decide) toyTx toyTx small small rfl
example := C17_tx_var_encoding_injective toyCurve (by decide) (toyTx.alloc 101) (toyTx.alloc 101) rfl
example := C17_circuit_encoding_eq toyCurve toyTx
example := (C18_digests_bind toyCurve (by decide) (toyH 101)).1 (UTXO.new 1 5) (UTXO.new 1 5) (by decide) (by decide) rfl
example := (C18_gadgets_agree toyCurve (toyH 101)).2.2.1 77 (by decide)
example := C18_tree_configs toyCurve ⟨toyH 101, fun a b => a + 2 * b⟩
example := C18_tree_defaults toyCurve ⟨toyH 101, fun a b => a + 2 * b⟩
/-- Key 1 or key 3 as sender: the by-value encodings agree. -/
example : txEncByValue 101 toyTx = txEncByValue 101
    ({ toyTx with inputs := #v[UTXO.new 3 5, UTXO.dummy, UTXO.new 3 3, UTXO.dummy] } : Tx Nat (ZMod 7)) :=
  (C19_by_value_encoding (p := 101) (by decide) toyTx _ small (by decide)).2 (by decide)

/-! ## Validity (C20–C24) -/

example : toyTx.isValid .release (some 1) = .ok () :=
  (C20_is_valid_decision .release toyTx 1).trans (by unfold OwnedBy; decide)
/-- The same transaction with rubbish in its dummy input. -/
example := C20_dummies_irrelevant .debug toyTx
  ({ toyTx with inputs := #v[UTXO.new 1 5, ⟨77, 3, true⟩, UTXO.new 1 3, UTXO.dummy] } : Tx Nat (ZMod 7)) 1
  (by decide) (by decide)
example : totalOf toyTx.inputs.toList = totalOf toyTx.outputs.toList :=
  (C21_conservation .debug toyTx (some 1) (by decide)).2 (Or.inl rfl)
example : (toyTx.alloc bn254r).enforceValid 1 :=
  (C22_circuit_validity_iff_native (by decide) .debug toyTx 1 (by decide) (by decide)).2 (by decide)
theorem in64 : (∀ u ∈ (toyTx.alloc bn254r).inputs.toList, u.isDummy = false → u.amount.val < 2 ^ 64) ∧
    (∀ u ∈ (toyTx.alloc bn254r).outputs.toList, u.isDummy = false → u.amount.val < 2 ^ 64) := by
  decide +kernel
example := (C23_enforce_valid_iff (p := bn254r) (by decide) (toyTx.alloc bn254r) 1 in64.1 in64.2).1
  ((C22_circuit_validity_iff_native (by decide) .debug toyTx 1 (by decide) (by decide)).2 (by decide))
example := C23_range_needed (p := 101) (by decide) (1 : ZMod 7)
example : (toyTx.alloc bn254r).getSigner = 1 :=
  (C24_get_signer (toyTx.alloc bn254r) 1
    ((C22_circuit_validity_iff_native (by decide) .debug toyTx 1 (by decide) (by decide)).2 (by decide))).1
    ⟨UTXO.alloc bn254r (UTXO.new 1 5), by decide +kernel, rfl⟩

/-! ## Signatures (C25–C27, C30, C88) -/

example : Schnorr.verify toyCurve2 (toyH 5) (Schnorr.keyGen toyCurve2 4).2 [1, 2] (5, 1) = true :=
  C25_sign_verifies toyCurve2 (toyH 5) 4 [1, 2] [2, 5] (5, 1) (by decide)
/-- The secret key 4 is computed from two responses to one commitment. -/
example : (4 : ZMod 7) = (6 - 3) / (1 - 2) :=
  ((C26_special_soundness toyCurve2 (Schnorr.keyGen toyCurve2 4).2 0 6 2 3 1 (by decide) (by decide)).1 (by decide)).2 4 rfl
example := C26_unique_per_commitment toyCurve2 (toyH 5) (Schnorr.keyGen toyCurve2 4).2 [1, 2] 5 1 5 1 (by decide) (by decide) rfl
/-- The gadget accepts the same signature, as bits. -/
example : Schnorr.verifyGadget 1 toyCurve2 (toyH 5) (Schnorr.keyGen toyCurve2 4).2 [1, 2] [true, false, true] [true, false, false] :=
  (C27_verify_gadget_iff toyCurve2 (toyH 5) 1 (by decide) (by decide) (by decide) (by decide) (by decide) _ _ _ _
    (by decide)).2 (by decide)
example := (C27_is_valid_gadget toyCurve2 (toyH 5) 1 (by decide) (by decide) (by decide) (by decide) (by decide)
  (Schnorr.keyGen toyCurve2 4).2 [1, 2] [true, false, true] [true, false, false] (by decide)).2 (by decide)
example : Schnorr.verify toyCurve2 (toyH 5) 0 [1, 2] (6, 3) = true :=
  (C30_zero_key_exact toyCurve2 (toyH 5) [1, 2] 6 3).2 (by decide)

/-- Two messages accepted with one signature: the challenge hash collides after cutting. -/
example : ∃ sig, [(1 : ZMod 5), 2] = [0, 0] ∨
    CutCollision 7 (toyH 5) (recomputed toyCurve3 5 sig ++ [1, 2]) (recomputed toyCurve3 5 sig ++ [0, 0]) := by
  have h : ∃ sig, Schnorr.verify toyCurve3 (toyH 5) 5 [1, 2] sig = true ∧
      Schnorr.verify toyCurve3 (toyH 5) 5 [0, 0] sig = true := by decide
  obtain ⟨sig, h1, h2⟩ := h
  exact ⟨sig, C88_binds_message toyCurve3 (toyH 5) 5 [1, 2] [0, 0] sig h1 h2⟩
example : ∃ sig, (5 : ZMod 7) = 5 ∨
    CutCollision 7 (toyH 5) (recomputed toyCurve3 5 sig ++ [1, 2]) (recomputed toyCurve3 5 sig ++ [1, 2]) := by
  have h : ∃ sig, Schnorr.verify toyCurve3 (toyH 5) 5 [1, 2] sig = true ∧ sig.2 ≠ 0 := by decide
  obtain ⟨sig, h1, h2⟩ := h
  exact ⟨sig, C88_binds_key toyCurve3 (toyH 5) 5 5 [1, 2] sig (by decide) h2 h1 h1⟩
example := C88_zero_challenge toyCurve3 (toyH 5) 5 4 [1, 2] 2

/-! ## Sponge (C93) -/

example := C93_lengths toyCurve 3 (UTXO.new 1 5) toyTx toyBlock
example : [(1 : ZMod 7), 2, 3, 0] = [4, 0, 2, 4] ∨ SpongeBreak toyPerm [1, 2, 3, 0] [4, 0, 2, 4] :=
  C93_same_length_collision toyPerm [1, 2, 3, 0] [4, 0, 2, 4] rfl (by
    rw [(C93_sponge toyPerm _ 0 0).1, (C93_sponge toyPerm _ 0 0).1]; decide)
/-- A permutation that maps everything to 0: all transactions collide, and the sponge is broken. -/
example := C93_transactions (c := 1) (r := 2) toyCurve (by decide) (fun _ => (fun _ => 0, fun _ => 0)) toyTx Tx.default small
  (by decide) (by unfold txCRH; rw [(C93_sponge _ _ 0 0).1, (C93_sponge _ _ 0 0).1])
example := C93_utxos (c := 1) (r := 2) toyCurve (by decide) (fun _ => (fun _ => 0, fun _ => 0)) (UTXO.new 1 5) (UTXO.new 2 5)
  (by decide) (by decide) (by unfold utxoCRH; rw [(C93_sponge _ _ 0 0).1, (C93_sponge _ _ 0 0).1])
example := C93_leaf_is_node (c := 1) (r := 3) (by decide) toyCurve (fun _ => (fun _ => 0, fun _ => 0)) 3 3 1 (by decide) 77

/-! ## Wallets (C33, C95) -/

def rcv : Tx Nat (ZMod 7) := { Tx.default with outputs := #v[UTXO.new 1 9, UTXO.dummy, UTXO.dummy, UTXO.dummy] }
def u0 : User Unit (ZMod 7) := ⟨(), 1, 0, 0, 0⟩
theorem wallet : runUser .debug u0 [.receive rcv, .spend toyTx] = .ok ⟨(), 1, 1, 1, 0⟩ := rfl

example := C33_bookkeeping u0 _ [.receive rcv, .spend toyTx]
  (by
    intro o ho
    simp only [List.mem_cons, List.not_mem_nil, or_false] at ho
    rcases ho with rfl | rfl <;> (unfold UserOp.Proper OwnedBy; decide)) wallet
example := C33_exact_debug u0 _ _ wallet
example := (C33_debug_decision u0 [.receive rcv, .spend toyTx] (by decide)).1.1 ⟨_, wallet⟩
example := C33_surplus u0 _ _ wallet
example := C33_exact_release u0 [.receive rcv, .spend toyTx] (by decide) (by decide)
  (by
    intro o ho
    simp only [List.mem_cons, List.not_mem_nil, or_false] at ho
    rcases ho with rfl | rfl <;> (unfold UserOp.FitsU64 Tx.U64Amounts; decide))

theorem user : ∃ u, runUser .debug (User.sample toyCurve2 4 9 3)
      [.receive ⟨Vector.replicate _ UTXO.dummy, #v[UTXO.new 1 6, UTXO.dummy, UTXO.dummy, UTXO.dummy]⟩] = .ok u ∧
    u.sign toyCurve2 (toyH 5) [1, 2] [2, 5] = .ok (some (5, 1)) :=
  ⟨⟨4, (4 : ZMod 7) • toyCurve2.gen, 6, 3, 9⟩, rfl, by decide⟩

example : ∃ u : User (ZMod 7) (ZMod 7), u.id = 9 ∧ Schnorr.verify toyCurve2 (toyH 5) u.pk [1, 2] (5, 1) = true := by
  obtain ⟨u, h1, h2⟩ := user
  obtain ⟨-, h3, h4⟩ := C95_user_signs .debug toyCurve2 (toyH 5) 4 9 3 _ u h1 [1, 2] [2, 5] (5, 1) h2
  exact ⟨u, h3, h4⟩
example := C95_new_user toyCurve2 4 9
example := C95_state_injective (q := grumpkinQ) (G := ZMod grumpkinQ) (by decide) ⟨4, 1, 6, 3, 9⟩ ⟨5, 2, 6, 3, 8⟩ 7 7 (by decide)
  (by decide) (by decide) (by decide) rfl

/-! ## Accumulators, registry and public inputs (C31–C37, C96) -/

example := C31_poseidon_accumulator (p := 101) (fun a b => a + b) 0 0 [1, 2] [2, 1] rfl (by decide)
example := C31_sha_accumulator (p := 101) (by decide) toySha 0 0 [1, 2] [1, 2] rfl rfl
example := (C32_gadgets_compute_native_bytes (p := bn254r) (by decide) toySha).2.2.2 (by rw [C32_bn254.1]; decide) 5 6
example := C32_points (by decide) toyCurve 3 5

theorem calls : ∃ s, run .release (Contract.new 10) toyCalls = .ok s := ⟨_, rfl⟩
example : ∃ s, run .release (Contract.new 10) toyCalls = .ok s ∧ s.accounts.sum = (joinedBalances toyCalls).sum ∧
    s.accounts[0]? = some (totalDeposited toyCalls) ∧ s.pks = 10 :: joinedKeys toyCalls := by
  obtain ⟨s, h⟩ := calls
  exact ⟨s, h, C34_l1_conserved .release 10 toyCalls s (Or.inr (by decide)) h,
    (C35_deposits_exact .release 10 toyCalls s (Or.inr (by decide)) h).1, (C36_registry .release 10 toyCalls s h).1⟩
/-- The history whose release build wraps. -/
example : ∃ s, run .release (Contract.new 10) [.join (2 ^ 64 - 1) 11, .join (2 ^ 64 - 1) 12, .deposit 1 (2 ^ 64 - 1),
    .deposit 2 (2 ^ 64 - 1)] = .ok s ∧ s.accounts.sum ≡ (2 ^ 64 - 1) + (2 ^ 64 - 1) [MOD 2 ^ 64] := by
  obtain ⟨s, h, -⟩ := C34_release_wraps
  exact ⟨s, h, C34_l1_conserved_mod .release 10 _ s h⟩

theorem amounts : BlockAmounts toyBlock := ⟨by decide, by decide⟩
/-- Two blocks that differ in their height only. -/
example : ∃ z, derivePublicInputs toyCurve toySha toyContract toyBlock = .ok z := ⟨_, rfl⟩
example := C37_public_inputs_bind (by decide) toyCurve toySha toyContract toyBlock { toyBlock with height := 9 } _ rfl
  (C37_height_not_bound toyCurve toySha toyContract toyBlock 9) amounts amounts
example := (C37_indices toyContract.pks (by decide) (by decide) [some 0, none, some 1] [some 0, none, some 1] [(1, 100)]
  [(1, 100)] (by intro i hi; simp at hi; rcases hi with rfl | rfl <;> decide) (by decide)).1 rfl
example := (C37_derivation_total toyCurve toySha toyContract toyBlock).1 ⟨_, rfl⟩
example := C96_derivation_ignores_funds toyCurve toySha toyContract { toyContract with accounts := [0, 0] } rfl toyBlock

/-! ## Deposits (C94) -/

def dep : Tx (ZMod 101) (ZMod 7) := ⟨#v[UTXO.new 1 5, UTXO.dummy, UTXO.dummy, UTXO.dummy],
  #v[UTXO.new 2 5, UTXO.dummy, UTXO.dummy, UTXO.dummy]⟩
example : txIsDeposit dep 1 = true :=
  (C94_deposit_iff_contract dep 1 1 ((enforceValid_iff _ _).2 (by decide)) (by decide)).2 rfl
example := C94_no_inputs (p := bn254r) (by decide) (Tx.default : Tx (ZMod bn254r) (ZMod 7)) 3 1
  ((enforceValid_iff _ _).2 ⟨by decide, rfl⟩) (by decide) (by decide)
example := C94_user_deposit (p := 101) (3 : ZMod 7) 1 2

/-! ## Grumpkin (C92): the generator's own key, and a signature with nonce 1 -/

example := C92_one_secret_per_key grumpkin.gen
example := (C92_sign (fun _ => 1) 5 [1, 2] 1 []).2 one_ne_zero

end PF.Cases.Data
