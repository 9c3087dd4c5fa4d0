import Verif.Props.ClientClaims
import Verif.Props.CasesUsers

/-!
# Concrete case for C71 and C111: two epochs of one aggregator

An aggregator executes two deposits, produces a block, starts a new epoch and produces a block without
transactions. The receiver of the second deposit counts it twice.
-/
set_option linter.unusedSectionVars false

namespace PF.CasesOwnBlocks
open PF PF.Spec PF.MT PF.Circuit PF.Contract PF.Agg PF.Props PF.Client
open PF.AggC (grumpkinQ bnCurve)
open PF.Cases (F K k0 a b ha hb hab h0 ha0 hb0)

/-- Blocks hash to their transaction root, everything else to its element 20 (of a transaction: the amount of its
first output). -/
def hs : Hashes F := ⟨fun l => if l.length = 4 then l.getD 1 0 else l.getD 20 0, fun x y => x + 2 * y⟩
def Q : Client.Params F := poseidonParams hs

theorem node_zero (f : Nat → ZMod F) (l j : Nat) (h : ∀ i, 2 ^ l * j ≤ i → f i = 0) : nodeAt hs.h2 f l j = 0 := by
  induction l generalizing j with
  | zero => exact h j (by simp)
  | succ l ih =>
    show nodeAt hs.h2 f l (2 * j) + 2 * nodeAt hs.h2 f l (2 * j + 1) = 0
    rw [ih (2 * j) (fun i hi => h i (by rw [Nat.pow_succ]; rwa [Nat.mul_assoc])),
      ih (2 * j + 1) (fun i hi => h i (by rw [Nat.pow_succ, Nat.mul_assoc]; exact le_trans (Nat.mul_le_mul_left _ (by omega)) hi))]
    ring

theorem node_two (f : Nat → ZMod F) (h : ∀ i, 2 ≤ i → f i = 0) (l : Nat) :
    nodeAt hs.h2 f (l + 1) 0 = f 0 + 2 * f 1 := by
  induction l with
  | zero => rfl
  | succ l ih =>
    show nodeAt hs.h2 f (l + 1) (2 * 0) + 2 * nodeAt hs.h2 f (l + 1) (2 * 0 + 1) = _
    rw [Nat.mul_zero, ih, node_zero f (l + 1) (0 + 1) (fun i hi => h i ?_)]
    · ring
    · have : 2 ^ 1 ≤ 2 ^ (l + 1) := Nat.pow_le_pow_right (by decide) (by omega)
      omega

theorem ex : ∃ (s : Agg.State F grumpkinQ K) (blk : Block (ZMod F)),
    SignerLeaves .debug bnCurve hs s (depositSigners k0 2) ∧
    s.transactions = [depositTx k0 a 5, depositTx k0 b 7] ∧ produceBlock (twoUsers k0 a b) s = .ok blk := by
  obtain ⟨s, c, blk, h1, -, -, h4, -, -, -, h8, -⟩ :=
    two_deposits .debug bnCurve hs k0 a b 5 7 ha hb (by decide) (by decide) 2 (by decide)
  exact ⟨s, blk, h1, h4, h8⟩

noncomputable def s : Agg.State F grumpkinQ K := Classical.choose ex
noncomputable def blk : Block (ZMod F) := Classical.choose (Classical.choose_spec ex)
theorem facts : SignerLeaves .debug bnCurve hs s (depositSigners k0 2) ∧
    s.transactions = [depositTx k0 a 5, depositTx k0 b 7] ∧ produceBlock (twoUsers k0 a b) s = .ok blk :=
  Classical.choose_spec (Classical.choose_spec ex)

/-- The next epoch. -/
theorem leaves' : SignerLeaves .debug bnCurve hs (reset bnCurve hs s)
    (overlay (depositSigners k0 2) (reset bnCurve hs s).signers) :=
  SignerLeaves.call s .newEpoch _ facts.1 trivial (by simp [Op.run])

/-- What a produced block says its transaction root is. -/
theorem block_root {s : Agg.State F grumpkinQ K} {sc : Nat → K} (hl : SignerLeaves .debug bnCurve hs s sc)
    {ct : Contract.State K} {blk : Block (ZMod F)} (hb : produceBlock ct s = .ok blk) :
    blk.txRoot = txRoot bnCurve hs s := by
  obtain ⟨hR, -, c, hi⟩ := signerLeaves_inv hl
  have h48 := C48_produce_block .debug bnCurve hs s hR ct
  by_cases hreg : ∀ pk, (some pk ∈ s.signers ∨ pk ∈ s.deposits.map (·.1) ∨ pk ∈ s.withdrawals.map (·.1)) →
      Registered ct pk
  · obtain ⟨ur, sr, h1, h2, h3⟩ := h48.1 hreg
    rw [hb] at h3
    cases h3
    rfl
  · rw [h48.2 hreg] at hb
    cases hb

theorem ex' : ∃ blk' : Block (ZMod F), produceBlock (twoUsers k0 a b) (reset bnCurve hs s) = .ok blk' := by
  obtain ⟨hR, -⟩ := signerLeaves_inv leaves'
  obtain ⟨ur, sr, -, -, h⟩ := (C48_produce_block .debug bnCurve hs _ hR (twoUsers k0 a b)).1 (by
    intro pk hpk
    rcases hpk with h | h | h
    · exact absurd h (by simp [reset])
    · exact absurd h (by simp [reset])
    · exact absurd h (by simp [reset]))
  exact ⟨_, h⟩

noncomputable def blk' : Block (ZMod F) := Classical.choose ex'
theorem produced' : produceBlock (twoUsers k0 a b) (reset bnCurve hs s) = .ok blk' := Classical.choose_spec ex'

theorem deposit_hash (k : K) (m : Nat) : txCRH bnCurve hs.crh (depositTx k0 k m) = ((m : Nat) : ZMod F) := rfl
theorem default_hash : txCRH bnCurve hs.crh (Tx.default : Tx Nat K) = ((0 : Nat) : ZMod F) := rfl

theorem root : blk.txRoot = ((19 : Nat) : ZMod F) := by
  rw [block_root facts.1 facts.2.2]
  unfold txRoot
  rw [facts.2.1]
  unfold merkleRoot
  rw [node_two]
  · show txCRH bnCurve hs.crh (depositTx k0 a 5) + 2 * txCRH bnCurve hs.crh (depositTx k0 b 7) = _
    rw [deposit_hash, deposit_hash]
    push_cast; ring
  · intro i hi
    show txCRH bnCurve hs.crh ([depositTx k0 a 5, depositTx k0 b 7][i]?.getD Tx.default) = 0
    rw [List.getElem?_eq_none (show [depositTx k0 a 5, depositTx k0 b 7].length ≤ i from hi), Option.getD_none,
      default_hash, Nat.cast_zero]

theorem root' : blk'.txRoot = 0 := by
  rw [block_root leaves' produced']
  unfold txRoot merkleRoot
  refine node_zero _ _ _ fun i _ => ?_
  show txCRH bnCurve hs.crh ((([] : List (Tx Nat K)))[i]?.getD Tx.default) = 0
  rw [List.getElem?_nil, Option.getD_none, default_hash, Nat.cast_zero]

theorem hash_block (B : Block (ZMod F)) : Q.hs.crh (blockEncVar B.alloc) = B.txRoot := rfl

theorem nineteen : ((19 : Nat) : ZMod F) ≠ 0 := natCast_ne fieldOk_bn254 (by decide) (by decide)

theorem real : NotPadding bnCurve Q.hs ((depositTx k0 b 7).alloc F) := by
  have e1 : Q.hs.crh (txEncVar bnCurve ((depositTx k0 b 7).alloc F)) = ((7 : Nat) : ZMod F) := rfl
  have e3 : Q.hs.crh (txEncVar bnCurve (Tx.default : Tx (ZMod F) K)) = ((0 : Nat) : ZMod F) := rfl
  unfold NotPadding
  rw [e1, e3, Nat.cast_zero]
  exact natCast_ne fieldOk_bn254 (by decide) (by decide)

/-- Fourteen from a deposit of seven. -/
theorem fourteen : ∃ (x y : UserAuxVar F K) (z' : UState F), x.block = blk.alloc ∧ y.block = blk'.alloc ∧
    Client.runSteps Q bnCurve 1 (freshUser bnCurve Q.hs b) [x, y, x] z' ∧ z'.balance = 14 := by
  obtain ⟨x, y, z', e1, e2, e3, -, -, e6⟩ := C71_own_blocks fieldOk_bn254 .debug Q bnCurve s _ _ _ facts.1 leaves' _ _ _ _ facts.2.2
    produced' (by rw [hash_block, hash_block, root, root']; exact nineteen) b hb0
    (by rw [hash_block, root]; exact nineteen) 1 1 (depositTx k0 b 7) (by decide) (by rw [facts.2.1]; rfl) (by decide)
    real (by rw [deposit_getSigner]; rfl)
  refine ⟨x, y, z', e1, e2, e3, ?_⟩
  have hd : delta b ((depositTx k0 b 7).alloc F) = 7 := by
    show received b _ - spent b _ = 7
    rw [received_alloc, spent_alloc, receivedNat_deposit, spentNat_deposit hb]
    norm_num
  rw [e6, hd]; norm_num

/-- Every list of the two blocks is as C111 asks. -/
example := C111_produced_blocks fieldOk_bn254 .debug bnCurve hs [producedAs F s (depositSigners k0 2) blk]
  (by intro x hx; rw [List.mem_singleton.1 hx]; exact ⟨s, _, _, blk, facts.1, facts.2.2, rfl⟩)

end PF.CasesOwnBlocks
