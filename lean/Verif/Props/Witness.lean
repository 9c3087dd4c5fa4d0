import Verif.Proof.Shapes
import Verif.Props.AggregatorProvable
import Verif.Props.ClientExamples

/-!
# C100, C101: what the prover computes

`x.Sat a`: the synthesis `x`, with every internal witness given the value the code computes for it, does not
panic, leaves all constraints satisfied and computes `a`. `x.Ends`: it does not panic.
-/

set_option linter.unusedSectionVars false

namespace PF.Props
open PF PF.MT PF.Agg PF.Spec PF.AggC PF.Contract PF.Circuit
open PF.Wit (Shaped UserShaped)

variable {p q : Nat} {G : Type} [AddCommGroup G] [Module (ZMod q) G] [DecidableEq G]

/-! ## C100 -/

/-- **C100** (comparison): the helper bits computed for `enforce_lt` satisfy it for every pair of integers with
`x < y`, whatever the chunk size and the lengths. -/
theorem C100_enforce_lt (W : Nat) (hW1 : 1 ≤ W) (hW : 2 ^ (W + 1) ≤ p) (x y : List Bool)
    (hx : x.length < p) (hy : y.length < p) :
    (Wit.enforceLt p W x y).Sat () ↔ bitsVal x < bitsVal y :=
  (Wit.sat_enforceLt W hW1 hW x y hx hy ()).trans (Schnorr.enforceLt_iff W hW1 hW x y hx hy)

/-- **C100** (`to_n_bits`): the computed bits satisfy the constraint exactly for the values below `2^n`. -/
theorem C100_to_n_bits (hp : 1 < p) (x : ZMod p) (n : Nat) (bits : List Bool) :
    (Wit.toNBits x n).Sat bits ↔ x.val < 2 ^ n ∧ bits = natBits n x.val := by
  have : NeZero p := ⟨by omega⟩
  rw [Wit.sat_toNBits]
  have key := C29_to_n_bits hp x n
  constructor
  · exact fun h => ⟨key.1.1 ⟨bits, h⟩, (key.2 bits h).1⟩
  · rintro ⟨h, rfl⟩
    obtain ⟨b', hb'⟩ := key.1.2 h
    rwa [(key.2 b' hb').1] at hb'

/-- **C100** (membership): the computed left/right bits satisfy `check_membership` whenever any bits do; the
check with an index has no free choice. -/
theorem C100_membership {L : Type} (cfg : Config L (ZMod p)) (path : List (ZMod p × ZMod p))
    (root : ZMod p) (leaf : L) (index : ZMod p) (on : Bool) :
    ((Wit.condCheckMembership cfg path root leaf on).Sat () ↔ condCheckMembership cfg path root leaf on) ∧
    ((Wit.condCheckMembershipIdx cfg path root leaf index on).Sat () ↔
      condCheckMembershipIdx cfg path root leaf index on) :=
  ⟨Wit.sat_condCheckMembership .., Wit.sat_condCheckMembershipIdx ..⟩

/-- **C100** (signatures): for every key, message and signature, the synthesis of `is_valid` on the allocated
signature is satisfied and computes what `verify` returns (base field no larger than the scalar field). -/
theorem C100_signature (h : Sizes p q) (hpq : p ≤ q) (cv : Curve p q G) (H : List (ZMod p) → ZMod p) (pk : G)
    (m : List (ZMod p)) (sig : ZMod q × ZMod q) :
    (Wit.isValidGadget 32 cv H pk m (Schnorr.allocSig sig).1 (Schnorr.allocSig sig).2).Sat
      (Schnorr.verify cv H pk m sig) := by
  have hW : 2 ^ (32 + 1) ≤ p := le_trans (by decide) h.large
  rw [Wit.sat_isValid 32 (by decide) hW h.modBits_lt]
  obtain ⟨out, ho⟩ := (C27_is_valid_gadget cv H 32 (by decide) hW h.pos h.bits h.modBits_lt pk m
    (Schnorr.allocSig sig).1 (Schnorr.allocSig sig).2 (natBits_length _ _)).2 hpq
  have := (C27_allocated_signatures cv H 32 (by decide) hW h.pos h.bits h.modBits_lt pk m sig).2 out ho
  rwa [this] at ho

/-- **C100** (aggregator): the synthesis of a sequence of steps is satisfied and computes `z'` exactly if some
assignment satisfies the constraints with final state `z'`. -/
theorem C100_aggregator (h : Sizes p q) (P : Params p G) (cv : Curve p q G) (z : CState p)
    (bs : List (List (CInputs p G))) (z' : CState p) :
    (Wit.runBatches P cv z bs).Sat z' ↔ runSteps P cv z bs z' :=
  Wit.sat_runBatches h P cv z bs z'

/-- **C100** (client): the same for the steps of a client. -/
theorem C100_client (P : Client.Params p) (cv : Curve p q G) (n : Nat) (z : Client.UState p)
    (l : List (Client.UserAuxVar p G)) (z' : Client.UState p) :
    (Wit.runUser P cv n z l).Sat z' ↔ Client.runSteps P cv n z l z' :=
  Wit.sat_runUser P cv n z l z'

/-- **C100** (honest aggregator): in the first epoch, synthesising the recorded inputs of an honest execution
in any batches is satisfied and computes the state the contract derives from the produced block. -/
theorem C100_honest_epoch (h : Sizes p q) (hpq : p ≤ q) (b : Build) (P : Params p G)
    (hfull : P.transferOnly = false) (cv : Curve p q G) (s1 s2 : Agg.State p q G)
    (txs : List (G × Tx Nat G)) (l : List (Pair q G)) (hcap : txs.length ≤ TX_CAP)
    (h1 : processTransactions b cv P.hs txs (Agg.new q cv P.hs) = (s1, .ok ()))
    (h2 : processSignatures b cv P.hs P.contract l s1 = (s2, .ok ()))
    (hon : HonestEpoch b P cv txs l (txRoot cv P.hs s1))
    (b' : Build) (k : G) (calls : List (Call G)) (st : Contract.State G)
    (hst : Contract.run b' (Contract.new k) calls = .ok st) (hpks : st.pks.length ≤ 2 ^ 32)
    (block : Block (ZMod p)) (hb : produceBlock st s2 = .ok block)
    (z : CState p) (hz : StartState cv P.hs (Agg.new q cv P.hs) (txRoot cv P.hs s1) z)
    (bs : List (List (CInputs p G))) (hbs : bs.flatten = s2.ivcInputs.map CInputs.alloc) :
    ∃ z', (Wit.runBatches P cv z bs).Sat z' ∧ derivePublicInputs cv P.sha st block = .ok z'.toList := by
  obtain ⟨z', hr, hd⟩ := C57_first_epoch h hpq b P hfull cv s1 s2 txs l hcap h1 h2 hon b' k calls st hst hpks
    block hb z hz bs hbs
  exact ⟨z', (C100_aggregator h P cv z bs z').2 hr, hd⟩

/-- Non-vacuity: a satisfied synthesis over the fields and the group order of the repository. -/
example : ∃ (z z' : CState bn254r) (is : List (CInputs bn254r (ZMod grumpkinQ))),
    (Wit.runBatches ⟨oneHs bn254r, toySha, ((1 : Nat) : ZMod grumpkinQ), false⟩ bnCurve z [is]).Sat z' := by
  obtain ⟨z, z', is, _, _, hr, _⟩ := example_run sizes_bn254 bn254_le bnCurve
    ⟨oneHs bn254r, toySha, ((1 : Nat) : ZMod grumpkinQ), false⟩ rfl rfl
    (a := ((2 : Nat) : ZMod grumpkinQ)) (b := ((3 : Nat) : ZMod grumpkinQ))
    (bn_ne (by decide)) (bn_ne (by decide)) (bn_ne (by decide))
  exact ⟨z, z', is, (C100_aggregator sizes_bn254 _ bnCurve z [is] z').2 hr⟩

/-- Non-vacuity: a satisfied synthesis of two client steps, after which the balance is seven. -/
example (h : Client.FieldOk p) (cv : Curve p q G) (k r : G) (hr : r ≠ k) (hr0 : r ≠ 0) :
    ∃ (a b : Client.UserAuxVar p G) (z' : Client.UState p),
      (Wit.runUser (demoParams p) cv 2 (demoUser cv r) [a, b]).Sat z' ∧ z'.balance = 7 := by
  obtain ⟨a, b, z', h1, h2, _⟩ := demo_run h cv k r hr hr0
  exact ⟨a, b, z', (C100_client _ cv 2 _ _ z').2 h1, h2⟩

/-- The hints are not vacuous: equal integers, and integers in the wrong order, leave the comparison
unsatisfied (and do not panic). -/
example : (Wit.enforceLt 101 2 [true, true, false, true, false] [false, false, true, true]).Sat () ∧
    ¬ (Wit.enforceLt 101 2 [false, false, true, true] [true, true, false, true, false]).Sat () ∧
    ¬ (Wit.enforceLt 101 2 [false, true, true] [false, true, true]).Sat () := by
  simp only [C100_enforce_lt 2 (by decide) (show 2 ^ (2 + 1) ≤ 101 by decide) [true, true, false, true, false]
      [false, false, true, true] (by decide) (by decide),
    C100_enforce_lt 2 (by decide) (show 2 ^ (2 + 1) ≤ 101 by decide) [false, false, true, true]
      [true, true, false, true, false] (by decide) (by decide),
    C100_enforce_lt 2 (by decide) (show 2 ^ (2 + 1) ≤ 101 by decide) [false, true, true] [false, true, true]
      (by decide) (by decide)]
  decide

/-! ## C101 -/

/-- **C101** (aggregator): the synthesis panics exactly if some transaction of the run is shown with a proof
of the wrong length, a wrong number of proofs or a signature of the wrong size; values do not matter. -/
theorem C101_aggregator_panic (P : Params p G) (cv : Curve p q G) (z : CState p)
    (bs : List (List (CInputs p G))) :
    (Wit.runBatches P cv z bs).Ends ↔ ∀ b ∈ bs, ∀ i ∈ b, Shaped q i :=
  Wit.ends_runBatches P cv z bs

/-- **C101** (client): the same for the client. -/
theorem C101_client_panic (h : Client.FieldOk p) (P : Client.Params p) (cv : Curve p q G) (n : Nat)
    (z : Client.UState p) (l : List (Client.UserAuxVar p G)) :
    (Wit.runUser P cv n z l).Ends ↔ ∀ a ∈ l, UserShaped n a :=
  Wit.ends_runUser (by
    unfold modBits
    exact le_of_lt (Nat.lt_size.2 (le_trans (by decide) h.large))) P cv n z l

/-- **C101** (recorded inputs): after any sequence of calls, with any outcomes and beyond any capacity, the
inputs the aggregator has recorded never make the synthesis panic. -/
theorem C101_recorded_inputs (b : Build) (P : Params p G) (cv : Curve p q G) (calls : List (Op q G))
    (s : Agg.State p q G)
    (hs : s = calls.foldl (fun s op => (op.run b cv P.hs s).1) (Agg.new q cv P.hs))
    (z : CState p) (bs : List (List (CInputs p G))) (hbs : bs.flatten = s.ivcInputs.map CInputs.alloc) :
    (Wit.runBatches P cv z bs).Ends := by
  have key : ∀ (calls : List (Op q G)) (s : Agg.State p q G), Shapes cv P.hs s →
      Shapes cv P.hs (calls.foldl (fun s op => (op.run b cv P.hs s).1) s) := by
    intro calls
    induction calls with
    | nil => exact fun s h => h
    | cons op calls ih =>
      intro s h
      refine ih _ ?_
      cases op with
      | newEpoch => exact h.reset
      | transactions l => exact (processTransactions_keeps l s h).1
      | signatures rollup l => exact (processFrom_keeps 0 l s h).1
  have h := key calls _ shapes_new
  rw [← hs] at h
  rw [C101_aggregator_panic]
  intro x hx i hi
  have : i ∈ s.ivcInputs.map CInputs.alloc := by
    rw [← hbs]; exact List.mem_flatten.2 ⟨x, hx, hi⟩
  obtain ⟨j, hj, rfl⟩ := List.mem_map.1 this
  exact h.inputs j hj

/-- **C101** (set-up): the default inputs, with which the two circuits are synthesised once to fix the
constraint system, never make it panic, from any state and for any batch size. -/
theorem C101_default_inputs (h : Client.FieldOk p) (P : Params p G) (PC : Client.Params p) (cv : Curve p q G)
    (z : CState p) (u : Client.UState p) (n : Nat) :
    (Wit.runBatches P cv z [List.replicate n (CInputs.alloc (Wit.defaultInputs p q G))]).Ends ∧
    (Wit.runUser PC cv n u [(Client.UserAux.default p G n).alloc]).Ends := by
  constructor
  · rw [C101_aggregator_panic]
    intro b hb i hi
    rw [List.mem_singleton] at hb
    subst hb
    rw [List.eq_of_mem_replicate hi]
    have hrep : ∀ d ∈ List.replicate TX_IO_SIZE ((0 : ZMod p), List.replicate (UTXO_TREE_HEIGHT - 1) (0 : ZMod p)),
        d.2.length = UTXO_TREE_HEIGHT - 1 := by
      intro d hd
      rw [List.eq_of_mem_replicate hd]
      exact List.length_replicate ..
    exact ⟨natBits_length _ _, natBits_length _ _, List.length_replicate .., List.length_replicate .., hrep,
      List.length_replicate .., hrep, List.length_replicate ..⟩
  · rw [C101_client_panic h]
    intro a ha
    rw [List.mem_singleton] at ha
    subst ha
    refine ⟨?_, List.length_replicate .., List.length_replicate .., ?_, ?_⟩
    · simp [Client.UserAux.alloc, Client.UserAux.default]
    · intro x hx
      rw [List.eq_of_mem_replicate hx]
      exact List.length_replicate ..
    · intro x hx
      rw [List.eq_of_mem_replicate hx]
      exact List.length_replicate ..

end PF.Props
