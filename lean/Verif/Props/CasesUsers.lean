import Verif.Props.Binding
import Verif.Props.CasesCircuit
import Verif.Props.CasesTrees
import Verif.Props.ClientExamples
import Verif.Props.EndToEndDemo
import Verif.Props.SignatureBinding

/-!
# Concrete cases for the theorems linking aggregator, blocks and clients (C39, C45, C47, C49, C76–C80, C88, C89, C99)

Over the fields and the group order used in the repository: an epoch in which the contract (key 1) deposits 5 for
the key 2 and 7 for the key 3; the block of the epoch; the client of the key 3.
-/
set_option linter.unusedSectionVars false

namespace PF.CasesUsers
open PF PF.Spec PF.MT PF.Circuit PF.Contract PF.Agg PF.Props PF.Client
open PF.AggC (grumpkinQ bnCurve)
open PF.Cases (F K k0 a b ha hb hab h0 ha0 hb0)

def Q : Client.Params F := demoParams F

theorem ex : ∃ (s : Agg.State F grumpkinQ K) (c : Nat → UTXO Nat K) (blk : Block (ZMod F)),
      SignerLeaves .debug bnCurve Q.hs s (depositSigners k0 2) ∧
      Spec.Executed .debug bnCurve Q.hs k0 s (([(a, 5), (b, 7)].take 2).map fun d => depositTx k0 d.1 d.2) ∧
      Represents bnCurve Q.hs s c ∧
      s.transactions = [depositTx k0 a 5, depositTx k0 b 7] ∧
      s.signers = List.replicate 2 (some k0) ∧
      s.deposits = [(a, 5), (b, 7)].take 2 ∧ s.withdrawals = [] ∧
      produceBlock (twoUsers k0 a b) s = .ok blk := by
  obtain ⟨s, c, blk, h1, h2, h3, h4, h5, h6, h7, h8, -⟩ :=
    two_deposits .debug bnCurve Q.hs k0 a b 5 7 ha hb (by decide) (by decide) 2 (by decide)
  exact ⟨s, c, blk, h1, h2, h3, h4, h5, h6, h7, h8⟩

noncomputable def s : Agg.State F grumpkinQ K := Classical.choose ex
noncomputable def c : Nat → UTXO Nat K := Classical.choose (Classical.choose_spec ex)
noncomputable def blk : Block (ZMod F) := Classical.choose (Classical.choose_spec (Classical.choose_spec ex))
theorem facts : SignerLeaves .debug bnCurve Q.hs s (depositSigners k0 2) ∧
      Spec.Executed .debug bnCurve Q.hs k0 s (([(a, 5), (b, 7)].take 2).map fun d => depositTx k0 d.1 d.2) ∧
      Represents bnCurve Q.hs s c ∧
      s.transactions = [depositTx k0 a 5, depositTx k0 b 7] ∧
      s.signers = List.replicate 2 (some k0) ∧
      s.deposits = [(a, 5), (b, 7)].take 2 ∧ s.withdrawals = [] ∧
      produceBlock (twoUsers k0 a b) s = .ok blk :=
  Classical.choose_spec (Classical.choose_spec (Classical.choose_spec ex))

theorem leaves : SignerLeaves .debug bnCurve Q.hs s (depositSigners k0 2) := facts.1
theorem produced : produceBlock (twoUsers k0 a b) s = .ok blk := facts.2.2.2.2.2.2.2
theorem second : s.transactions[1]? = some (depositTx k0 b 7) := by rw [facts.2.2.2.1]; rfl
theorem second_signer : (depositTx k0 b 7).getSigner = k0 := deposit_getSigner _ _ _
theorem second_signed : depositSigners k0 2 1 = (depositTx k0 b 7).getSigner := by rw [second_signer]; rfl
theorem reached : Reach .debug bnCurve Q.hs s := ((C58_signer_tree_over_epochs .debug bnCurve Q.hs).2 s).2 ⟨_, leaves⟩

/-! ## C76, C77 -/

/-- The key 3 holds the deposit of 7. -/
example := C76_balance .debug bnCurve Q.hs k0 s _ facts.2.1 b hb c facts.2.2.1

theorem client : ∃ s ts c as z', Spec.Executed .debug bnCurve Q.hs k0 s ts ∧ Books .debug bnCurve Q.hs k0 s true 12 0 ∧ ts.length = 2 ∧ Represents bnCurve Q.hs s c ∧
      (∀ a ∈ as, a.pk = b) ∧
      Client.runSteps Q bnCurve 3 (freshUser bnCurve Q.hs b) (as.map UserAux.alloc) z' ∧
      (∀ t ∈ shownTxs as, CleanTx t) ∧
      ((shownTxs as).filter (Involves b)).Perm (ts.filter (Involves b)) ∧
      heldBy c UTXO_CAP b = 7 ∧ z'.balance = 7 :=
  two_deposits_client fieldOk_bn254 .debug Q bnCurve k0 a b ha hb hab hb0

/-! ## C78, C79: the client of the key 3 shows the transaction at position 1, under the signer at position 1 -/

theorem ready : ReadyFor bnCurve Q.hs b blk.alloc.height (freshUser bnCurve Q.hs b) := fresh_ready _ _ _ _

example := C78_honest_client fieldOk_bn254 .debug Q bnCurve s _ leaves _ blk produced b hb0 (freshUser bnCurve Q.hs b) ready 2
  [(1, 1)] (by decide)
  (by
    intro x hx
    rw [List.mem_singleton.1 hx]
    refine ⟨?_, by show 1 < 4096; omega, _, second, second_signed⟩
    have : (freshUser bnCurve Q.hs b).prevTxIndex = 0 := rfl
    have e : (0 : ZMod F).val = 0 := ZMod.val_zero
    rw [this, e]; split <;> exact Nat.zero_lt_one)
  (List.pairwise_singleton _ _)

example := C78_accepted_transactions fieldOk_bn254 .debug Q bnCurve s _ leaves _ blk produced b hb0 (freshUser bnCurve Q.hs b)
  ready (fun _ => rfl) 2 [1] (by decide)
  (by
    intro x hx
    rw [List.mem_singleton.1 hx]
    exact ⟨by decide, _, second, by rw [facts.2.2.2.2.1, second_signer]; rfl⟩)
  (List.pairwise_singleton _ _)

example := C79_listed_countable fieldOk_bn254 .debug Q bnCurve s _ leaves _ blk produced b hb0 (freshUser bnCurve Q.hs b)
  ready (fun _ => rfl) 1 1 _ (by decide) second (by show 1 < 4096; omega) second_signed 2 (by decide)

theorem second_real : NotPadding bnCurve Q.hs ((depositTx k0 b 7).alloc F) := by
  have e1 : Q.hs.crh (txEncVar bnCurve ((depositTx k0 b 7).alloc F)) = ((7 : Nat) : ZMod F) := rfl
  have e3 : Q.hs.crh (txEncVar bnCurve (Tx.default : Tx (ZMod F) K)) = ((0 : Nat) : ZMod F) := rfl
  unfold NotPadding
  rw [e1, e3, Nat.cast_zero]
  exact natCast_ne fieldOk_bn254 (by decide) (by decide)

/-- A step that counts the deposit: every claim of C79 about what is counted applies to it. -/
theorem counted : ∃ (x : Shown F K) (aux : UserAuxVar F K) (z' : UState F), aux.block = blk.alloc ∧
    updateBalance Q bnCurve 2 (freshUser bnCurve Q.hs b) aux z' ∧ x ∈ aux.shown ∧ x.counts bnCurve Q.hs = true := by
  obtain ⟨aux, z', -, h2, -, h4, -, h6⟩ :=
    C79_listed_countable fieldOk_bn254 .debug Q bnCurve s _ leaves _ blk produced b hb0 (freshUser bnCurve Q.hs b)
      ready (fun _ => rfl) 1 1 _ (by decide) second (by show 1 < 4096; omega) second_signed 2 (by decide)
  obtain ⟨x, hx, -, -, hc⟩ := h6 second_real
  exact ⟨x, aux.alloc, z', by rw [← h2]; rfl, h4, hx, hc⟩

noncomputable def x := Classical.choose counted
noncomputable def aux := Classical.choose (Classical.choose_spec counted)
noncomputable def z1 := Classical.choose (Classical.choose_spec (Classical.choose_spec counted))
theorem counted_facts : aux.block = blk.alloc ∧
    updateBalance Q bnCurve 2 (freshUser bnCurve Q.hs b) aux z1 ∧ x ∈ aux.shown ∧ x.counts bnCurve Q.hs = true :=
  Classical.choose_spec (Classical.choose_spec (Classical.choose_spec counted))

example := C79_counted_listed fieldOk_bn254 .debug Q bnCurve s _ leaves _ blk produced 2 _ z1 aux counted_facts.1
  counted_facts.2.1 x counted_facts.2.2.1 counted_facts.2.2.2

example := C79_unexecuted_transaction_counted fieldOk_bn254 .debug Q bnCurve k0 a b 5 7 ha hb hab hb0 (by decide) (by decide)
  2 (by decide)

example := C80_balance_out_of_nothing fieldOk_bn254 .debug Q bnCurve k0 a k0 ha0 1000 1 (by decide)

/-! ## C77, C80: the balance of the client of the key 3 is the 7 the ledger holds for it -/

example : ∃ (c : Nat → UTXO Nat K) (z' : UState F), heldBy c UTXO_CAP b = 7 ∧ z'.balance = (heldBy c UTXO_CAP b : ZMod F) := by
  obtain ⟨s, ts, c, as, z', h1, -, -, h4, h5, h6, h7, h8, h9, -⟩ := client
  exact ⟨c, z', h9, (C77_balance_is_ledger fieldOk_bn254 .debug Q bnCurve k0 s ts h1 c h4 b hb 3 _ z' rfl as h5 h6 h7 h8).1⟩

/-! ## C99: an aggregator that has done nothing, and one that lists the default transaction, produce one block -/

theorem twins : ∃ (s' : Agg.State F grumpkinQ K) (block : Block (ZMod F)),
      processTransactions .debug bnCurve Q.hs [(a, Tx.default)] (Agg.new grumpkinQ bnCurve Q.hs) = (s', .ok ()) ∧
      SignerLeaves .debug bnCurve Q.hs (Agg.new grumpkinQ bnCurve Q.hs) (fun _ => 0) ∧ SignerLeaves .debug bnCurve Q.hs s' (fun _ => 0) ∧
      s'.transactions = [Tx.default] ∧ (Agg.new grumpkinQ bnCurve Q.hs).transactions = [] ∧
      produceBlock (Contract.new k0) (Agg.new grumpkinQ bnCurve Q.hs) = .ok block ∧ produceBlock (Contract.new k0) s' = .ok block :=
  C99_default_transaction_invisible .debug bnCurve Q.hs a (Contract.new k0)

example := C99_equal_roots toy (by decide) _ _ _ _ PF.Cases.Trees.built PF.Cases.Trees.built rfl

/-- The theorem applies to the twins: they agree on all contents, or there is a collision. -/
example : ∃ (s' : Agg.State F grumpkinQ K) (c c' : Nat → UTXO Nat K), s'.transactions = [Tx.default] ∧
    (SameContents (Agg.new grumpkinQ bnCurve Q.hs) s' ∨ RootClash Q.hs (utxoEnc bnCurve) 32 c c' ∨
      RootClash Q.hs (txEnc bnCurve) 13
        (fun i => ((Agg.new grumpkinQ bnCurve Q.hs).transactions)[i]?.getD Tx.default)
        (fun i => s'.transactions[i]?.getD Tx.default) ∨
      RootClash Q.hs (pkEnc bnCurve) 13 (fun _ => (0 : K)) (fun _ => 0)) := by
  obtain ⟨s', block, h1, h2, h3, h4, h5, h6, h7⟩ := twins
  have r' := ((C58_signer_tree_over_epochs .debug bnCurve Q.hs).2 s').2 ⟨_, h3⟩
  obtain ⟨c, hc, -⟩ := (C38_utxo_tree_mirrors .debug bnCurve Q.hs _ Reach.new).1
  obtain ⟨c', hc', -⟩ := (C38_utxo_tree_mirrors .debug bnCurve Q.hs _ r').1
  have hl : ∀ u, live s' u = 0 := by
    obtain ⟨s1, e1, -, -, e4, -⟩ := tx_one (Reach.new (b := .debug) (cv := bnCurve) (hs := Q.hs)) a Tx.default
      (by show 0 < 4096; omega) (default_valid _ _)
    rw [h1] at e1
    have e := (Prod.mk.inj e1).1
    intro u; unfold live positions; rw [e, e4]; rfl
  have hz : ∀ t ∈ s'.transactions, t.U64Amounts := by
    intro t ht
    rw [h4] at ht
    rw [List.mem_singleton.1 ht]
    intro u hu
    simp [Tx.ios, Tx.default, UTXO.dummy] at hu
    rcases hu with ⟨-, rfl⟩ <;> decide
  rcases C99_equal_blocks (by rw [show (2 : Nat) ^ 64 = 18446744073709551616 from rfl]; decide) .debug .debug bnCurve Q.hs
    _ s' _ _ h2 h3 c c' hc hc' (fun u hu => absurd rfl hu) (fun u hu => absurd (hl u) hu)
    (fun t ht => by rw [h5] at ht; cases ht) hz .debug k0 [] _ rfl (by show 1 ≤ 4294967296; omega) block h6 h7 with h | h
  · exact ⟨s', c, c', h4, Or.inl h.1⟩
  · exact ⟨s', c, c', h4, Or.inr h⟩

/-! ## C88, C89 -/

section Toy
variable (b : Build) (hs : Hashes 5)

/-- The payment of `toy_payment`, replayed on the same ledger. -/
example : ∃ (s t : Agg.State 5 7 (ZMod 7)) (l : List (Pair 7 (ZMod 7))), s.transactions = [payTx 3 2 5] ∧
    processSignatures b toyCurve2 hs 1 l s = (t, .ok ()) ∧
    (∃ t', processSignatures b toyCurve2 hs 1 l s = (t', .ok ()) ∧
      ∀ v, (live t' v : Int) - live s v = (live t v : Int) - live s v) := by
  obtain ⟨s3, s4, sig, r3, r4, t3, g3, f3, ap, q4, l3, l3', l4, l4', _⟩ := toy_payment b hs
  exact ⟨s3, s4, _, t3, q4, C89_replay b toyCurve2 hs s3 s3 s4 r3 r3 rfl (fun _ => le_refl _) 1 _ (f3 _ (by simp))
    (f3 _ (by simp)) q4⟩

/-- C45: the second spend of the deposit fails; the theorem tells what was done before the failure. -/
example : ∃ (s s' : Agg.State 5 7 (ZMod 7)) (x : Pair 7 (ZMod 7)) (e : AggError),
    Reach b toyCurve2 hs s ∧ (Op.signatures 1 [x]).Fits s ∧ processSignatures b toyCurve2 hs 1 [x] s = (s', .err e) ∧
    s'.ledger.next = s.ledger.next := by
  have n1 : (1 : ZMod 7) • toyCurve2.gen ≠ 1 := by decide
  have n2 : (2 : ZMod 7) ≠ 1 := by decide
  have n3 : (2 : ZMod 7) ≠ (1 : ZMod 7) • toyCurve2.gen := by decide
  have hq : Fact (Nat.Prime 7) := ⟨by decide⟩
  obtain ⟨s3, s4, sig, sig', -, -, -, -, -, s5, o, -, r5, hf, he⟩ := refused_double_spend b toyCurve2 hs (by decide) (by decide)
    1 2 (1 : ZMod 7) n1 n2 n3
  have hr : processSignatures b toyCurve2 hs 1 [((1 : ZMod 7) • toyCurve2.gen, some sig')] s5 =
      ((processSignatures b toyCurve2 hs 1 [((1 : ZMod 7) • toyCurve2.gen, some sig')] s5).1, .err o) := by rw [← he]
  obtain ⟨done, x, rest, s1, tx, us, u, vs, l', t', e1, e2, -, -, -, -, -, -, e3, -⟩ :=
    C45_signatures_failed b toyCurve2 hs s5 _ r5 1 _ hf o hr
  refine ⟨s5, _, _, o, r5, hf, hr, ?_⟩
  rw [e3]
  cases done with
  | nil => have e : s5 = s1 := congrArg Prod.fst e2; rw [e]
  | cons y ys => simp at e1

/-- C47, C49: two calls on the payment after a reset; a split of the answers. -/
example : ∃ (s : Agg.State 5 7 (ZMod 7)), Reach b toyCurve2 hs s ∧ live s (UTXO.new 2 5) = 1 ∧
    (Op.runAll b toyCurve2 hs (reset toyCurve2 hs s) [.transactions [(2, payTx 2 3 5)], .newEpoch]).2 =
      (Op.runAll b toyCurve2 hs (freshWith toyCurve2 hs s.ledger) [.transactions [(2, payTx 2 3 5)], .newEpoch]).2 := by
  obtain ⟨s3, s4, sig, r3, r4, t3, g3, f3, ap, q4, l3, l3', l4, l4', _⟩ := toy_payment b hs
  obtain ⟨s5, q5, _⟩ := tx_one (reach_reset r4) (2 : ZMod 7) (payTx 2 3 5) (by show 0 < 4096; omega)
    (payTx_valid b _ _ _ (by decide))
  refine ⟨s4, r4, l4', (C47_epoch_like_fresh b toyCurve2 hs s4 r4 [.transactions [(2, payTx 2 3 5)], .newEpoch] ?_).1⟩
  refine ⟨by show 0 + 1 ≤ 4096; omega, ?_, trivial, ?_, trivial⟩
  · simp [Op.run, q5]
  · simp [Op.run]

/-- C88: the block binding of a signature that was accepted once. -/
example : ∃ (s : Agg.State 5 7 (ZMod 7)) (sig : ZMod 7 × ZMod 7), s.transactions = [payTx 3 2 5] ∧
    Schnorr.verify toyCurve2 hs.crh 3 (txEnc toyCurve2 (payTx 3 2 5) ++ [txRoot toyCurve2 hs s]) sig = true := by
  obtain ⟨s3, s4, sig, r3, r4, t3, g3, f3, ap, _⟩ := toy_payment b hs
  have n : ¬ (3 : ZMod 7) = 1 := by decide
  refine ⟨s3, sig, t3, ?_⟩
  simpa [Approves, n] using ap

end Toy
end PF.CasesUsers
