import Verif.Props.ClientExamples
import Verif.Props.ClientAccept
import Verif.Props.Wallet
import Verif.Props.StateVector
import Verif.Props.CasesCircuit

/-!
# Concrete cases for the theorems about the client's circuit (C61–C73, C75, C84–C86, C90)

Over the fields and the group order used in the repository: the block of `ClientExamples`, of height one, with
the transfer of seven from the key 1 to the key 2 at position 3 and the key 1 at position 5 of its signer tree.
The key 2 processes it in two steps of two transactions.
-/
set_option linter.unusedSectionVars false

namespace PF.CasesClient
open PF PF.Contract PF.Spec PF.MT PF.Circuit PF.Client PF.Props
open PF.AggC (grumpkinQ bnCurve)

abbrev F := bn254r
abbrev K := ZMod grumpkinQ
def k : K := ((1 : Nat) : K)
def r : K := ((2 : Nat) : K)

theorem hr : r ≠ k := bn_ne (by decide)
theorem hr0 : r ≠ 0 := by have := bn_ne (i := 2) (j := 0) (by decide); rwa [Nat.cast_zero] at this
theorem hk0 : k ≠ 0 := by have := bn_ne (i := 1) (j := 0) (by decide); rwa [Nat.cast_zero] at this

/-- The payment of seven, its block, the circuit constants and the state before the block. -/
def t7 : Tx (ZMod F) K := seven F k r
def blk : BlockVar (ZMod F) := demoBlk bnCurve 1 t7 k
def P : Client.Params F := demoParams F
def z : UState F := demoUser bnCurve r

theorem ex : ∃ (a b : UserAuxVar F K) (z' : UState F),
    Client.runSteps P bnCurve 2 z [a, b] z' ∧ z'.balance = 7 ∧
    (∃ x ∈ a.shown, x.tx = t7 ∧ x.index = 3 ∧ x.counts bnCurve P.hs = true) ∧
    a.block = blk ∧ b.block = a.block := demo_run fieldOk_bn254 bnCurve k r hr hr0

/-- External inputs of the two steps, and the end state. -/
noncomputable def s1 : UserAuxVar F K := Classical.choose ex
noncomputable def s2 : UserAuxVar F K := Classical.choose (Classical.choose_spec ex)
noncomputable def zEnd : UState F := Classical.choose (Classical.choose_spec (Classical.choose_spec ex))
theorem facts : Client.runSteps P bnCurve 2 z [s1, s2] zEnd ∧ zEnd.balance = 7 ∧
    (∃ x ∈ s1.shown, x.tx = t7 ∧ x.index = 3 ∧ x.counts bnCurve P.hs = true) ∧
    s1.block = blk ∧ s2.block = s1.block := Classical.choose_spec (Classical.choose_spec (Classical.choose_spec ex))

theorem run : Client.runSteps P bnCurve 2 z [s1, s2] zEnd := facts.1
theorem balance : zEnd.balance = 7 := facts.2.1
theorem shows : ∃ x ∈ s1.shown, x.tx = t7 ∧ x.index = 3 ∧ x.counts bnCurve P.hs = true := facts.2.2.1
theorem block1 : s1.block = blk := facts.2.2.2.1
theorem block2 : s2.block = s1.block := facts.2.2.2.2

/-- The first step alone. -/
theorem step : ∃ z1, updateBalance P bnCurve 2 z s1 z1 ∧ Client.runSteps P bnCurve 2 z1 [s2] zEnd := run

theorem hyps : Commits bnCurve P.hs blk (demoTxs t7) (demoSigners k) ∧
    ReadyFor bnCurve P.hs r blk.height z ∧ P.hs.crh (blockEncVar blk) ≠ z.prevBlockHash ∧
    NotPadding bnCurve P.hs (demoTxs t7 3) ∧ demoSigners k 5 = (demoTxs t7 3).getSigner :=
  demo_hypotheses fieldOk_bn254 bnCurve k r

/-! ## C61, C63–C66 -/

example := C61_balance_and_nonce fieldOk_bn254 P bnCurve 2 z zEnd _ run
example := C63_heights fieldOk_bn254 P bnCurve 2 z zEnd _ run

/-- C64: the first step with one more padding transaction at the end. -/
example := C64_state_condition fieldOk_bn254 P bnCurve 2 z zEnd _ run (by show (0 : ZMod F).val ≤ _; rw [ZMod.val_zero]; exact Nat.zero_le _)
example (z' : UState F) := C64_padding_inert fieldOk_bn254 P bnCurve 1 blk r hr0
  [honestShown bnCurve P.hs (demoTxs t7) (demoSigners k) t7 3 5] []
  (honestShown bnCurve P.hs (demoTxs t7) (demoSigners k) Tx.default 0 0) rfl
  (by show ((0 : Nat) : ZMod F).val ≤ _; rw [Nat.cast_zero, ZMod.val_zero]; exact Nat.zero_le _)
  (pathFrom_length _ _ _ _ _) (pathFrom_length _ _ _ _ _) z z'
  (by show (0 : ZMod F).val ≤ _; rw [ZMod.val_zero]; exact Nat.zero_le _)

/-- C64: the identity key processes a block of one padding transaction; its nonce grows. -/
example : ∃ (a : UserAuxVar F K) (z' : UState F), updateBalance P bnCurve 1 (demoUser bnCurve (0 : K)) a z' ∧
    z'.nonce = 1 ∧ z'.balance = 0 := by
  have hnr : ¬ (⟨Tx.default, 0, 0⟩ : Pick F K).real bnCurve P.hs := fun hh => hh rfl
  obtain ⟨z', h1, -⟩ := picks_step fieldOk_bn254 P bnCurve blk _ _ hyps.1 (0 : K) (demoUser bnCurve 0)
    (demo_ready bnCurve 0 _) [⟨Tx.default, 0, 0⟩] (by
      refine ⟨?_, ?_, ?_, ?_, List.pairwise_singleton _ _⟩ <;> simp only [List.mem_singleton, forall_eq]
      · exact Nat.zero_le _
      · exact fun hh => absurd hh hnr
      · exact fun hh => absurd hh hnr
      · exact fun hh => absurd hh hnr)
  obtain ⟨e1, e2⟩ := C64_identity_key fieldOk_bn254 P bnCurve 1 _ z' _ rfl
    (by intro t ht; rw [List.mem_singleton.1 ht]; rfl) h1
  exact ⟨_, z', h1, by rw [e1]; simp [demoUser], by rw [e2]; rfl⟩

/-- C65: two runs of the same user. -/
example := C65_identity fieldOk_bn254 P bnCurve 2 2 z zEnd z zEnd _ _ run run rfl

/-- C66, C67: the first step counts the transfer. -/
example : ∃ x ∈ s1.shown, x.counts bnCurve P.hs = true ∧
    (x.tx = demoTxs t7 x.position ∨
      Collides P.hs.crh (txEncVar bnCurve x.tx) (txEncVar bnCurve (demoTxs t7 x.position)) ∨
      PathCollision P.hs.h2 x.txPath
        (truePath (fun t => P.hs.crh (txEncVar bnCurve t)) P.hs.h2 13 (demoTxs t7) x.position)) ∧
    ∃ j, j < CAP ∧ (demoSigners k j = x.tx.getSigner ∨
      Collides P.hs.crh (pkEncVar bnCurve x.tx.getSigner) (pkEncVar bnCurve (demoSigners k j)) ∨
      PathCollision P.hs.h2 x.signerPath
        (truePath (fun k => P.hs.crh (pkEncVar bnCurve k)) P.hs.h2 13 (demoSigners k) j)) := by
  obtain ⟨z1, h1, -⟩ := step
  obtain ⟨x, hx, -, -, hc⟩ := shows
  exact ⟨x, hx, hc, (C66_inclusion fieldOk_bn254 P bnCurve 2 z z1 s1 h1).2.2 (demoTxs t7)
      (by rw [block1]; exact hyps.1.txs) x hx hc,
    C67_signer_somewhere fieldOk_bn254 P bnCurve 2 z z1 s1 h1 _ (by rw [block1]; exact hyps.1.signers) x hx hc⟩

/-! ## C62, C69–C71 -/

/-- C62: both steps are about the one block. -/
example := C62_within_block fieldOk_bn254 P bnCurve 2 z zEnd [] [s1, s2] [] run (s1.hash P.hs) (by
  intro a ha
  simp only [List.mem_cons, List.not_mem_nil, or_false] at ha
  rcases ha with rfl | rfl
  · rfl
  · unfold UserAuxVar.hash; rw [block2])

example := C62_counted_twice fieldOk_bn254 P bnCurve 2 z zEnd _ run

/-- C69: a counted transaction of the first step, and the exact condition for it. -/
example : ∃ x ∈ s1.shown, x.counts bnCurve P.hs = true ∧ 0 < x.index.val ∧ x.index.val ≤ (F - 1) / 2 ∧
    x.index ≠ 0 ∧ (x.position = 0 → CAP ≤ x.index.val) := by
  obtain ⟨z1, h1, -⟩ := step
  obtain ⟨x, hx, -, -, hc⟩ := shows
  obtain ⟨e1, e2⟩ := C69_index_range fieldOk_bn254 P bnCurve 2 z z1 s1 h1 x hx hc
  rw [block1, if_neg hyps.2.2.1] at e1
  obtain ⟨e3, e4⟩ := C70_first_position_never fieldOk_bn254 P bnCurve 2 z zEnd _ run s1 (by simp) x hx hc
  exact ⟨x, hx, hc, e1, e2, e3, e4⟩

example (l : ZMod F) := C69_exact fieldOk_bn254 P bnCurve _ _ _ hyps.1 r z hyps.2.1 hyps.2.2.1 t7 hyps.2.2.2.1 l

/-- C70 (and C69, C86 on the step it yields): position 3, signer at position 5. -/
example : ∃ (a : UserAuxVar F K) (z' : UState F), updateBalance P bnCurve 1 z a z' ∧ z'.balance = z.balance + delta r t7 ∧
    ∀ z'', Client.runSteps P bnCurve 1 z [a] z'' → z'' = z' := by
  obtain ⟨h1, h2, h3, h4, h5⟩ := hyps
  obtain ⟨a, z', -, -, e1, -, -, e2, -⟩ := C70_every_position fieldOk_bn254 P bnCurve blk _ _ h1 r z h2 h3 3 5
    (by decide) (by decide) (by decide) h4 h5
  exact ⟨a, z', e1, e2, fun z'' h => C86_client_deterministic fieldOk_bn254 P bnCurve 1 z z'' z' [a] h ⟨z', e1, rfl⟩⟩

theorem two_ne_one : P.hs.crh (blockEncVar blk) ≠ P.hs.crh (blockEncVar (demoBlk bnCurve 2 t7 k)) := by
  show (1 : ZMod F) ≠ 2
  intro e
  have e2 : (2 : ZMod F) = 1 + 1 := by norm_num
  rw [e2] at e
  exact one_ne fieldOk_bn254 (left_eq_add.1 e)

/-- C62, C71: a run that comes back to its first block; between them a block of the same height. -/
example : ∃ (a b : UserAuxVar F K) (z' : UState F), Client.runSteps P bnCurve 1 z [a, b, a] z' ∧
    b.block.height.val = a.block.height.val ∧
    ∀ x ∈ a.shown, x.index.val < x.index.val ∨
      (∃ m ∈ [b], m.hash P.hs ≠ a.hash P.hs ∧ m.block.height.val = a.block.height.val) ∨
      Collides P.hs.crh (blockEncVar a.block) (blockEncVar a.block) := by
  obtain ⟨h1, h2, h3, h4, h5⟩ := hyps
  obtain ⟨a, b, z', -, -, e1, -, e3, -⟩ := C71_replay fieldOk_bn254 P bnCurve blk (demoBlk bnCurve 2 t7 k) _ _ _ _
    h1 (demo_commits fieldOk_bn254 bnCurve 2 t7 k) rfl two_ne_one r hr0 z h2 h3 3 5 (by decide) (by decide)
    (by decide) h4 h5
  refine ⟨a, b, z', e1, ?_, fun x hx => ?_⟩
  · rcases C71_between fieldOk_bn254 P bnCurve 1 z z' [] [b] [] a a e1 rfl with h | h
    · exact h b (by simp)
    · exact absurd rfl h.1
  · exact C62_reentry fieldOk_bn254 P bnCurve 1 z z' [] [b] [] a a e1 rfl x x hx hx (e3 x hx) (e3 x hx)

/-- C71: padding shown for blocks of heights one, two and two; the first block has been left for good. -/
def blkAt (u : ZMod F) (n : Nat) : BlockVar (ZMod F) := { demoBlk bnCurve u t7 k with height := ((n : Nat) : ZMod F) }

theorem commits_at (u : ZMod F) (n : Nat) (hn : n < 1000) :
    Commits bnCurve P.hs (blkAt u n) (demoTxs t7) (demoSigners k) where
  txs := (demo_commits fieldOk_bn254 bnCurve u t7 k).txs
  signers := (demo_commits fieldOk_bn254 bnCurve u t7 k).signers
  height := by
    show ((n : Nat) : ZMod F).val + 1 ≤ _
    have hF : 2 ^ 67 ≤ bn254r := fieldOk_bn254.large
    have hlt : n < F := show n < bn254r by omega
    rw [ZMod.val_natCast_of_lt hlt]; omega

theorem pad_step (u : ZMod F) (n : Nat) (hn : n < 1000) (z : UState F) (hz : ReadyFor bnCurve P.hs r (blkAt u n).height z) :
    ∃ (a : UserAuxVar F K) (z' : UState F), a.block = blkAt u n ∧ updateBalance P bnCurve 1 z a z' ∧
      z'.pkHash = z.pkHash ∧ z'.prevBlockNumber = ((n : Nat) : ZMod F) ∧ z'.prevTxIndex.val ≤ (F - 1) / 2 := by
  have hnr : ¬ (⟨Tx.default, 0, 0⟩ : Pick F K).real bnCurve P.hs := fun hh => hh rfl
  obtain ⟨z', h1, -, -, h4, -, h6, h7⟩ := picks_step fieldOk_bn254 P bnCurve _ _ _ (commits_at u n hn) r z hz
    [⟨Tx.default, 0, 0⟩] (by
      refine ⟨?_, ?_, ?_, ?_, List.pairwise_singleton _ _⟩ <;> simp only [List.mem_singleton, forall_eq]
      · exact Nat.zero_le _
      · exact fun hh => absurd hh hnr
      · exact fun hh => absurd hh hnr
      · exact fun hh => absurd hh hnr)
  exact ⟨_, z', rfl, h1, h4, h6, h7⟩

theorem height_val (n : Nat) (hn : n < 1000) : (((n : Nat) : ZMod F)).val = n := by
  have hF : 2 ^ 67 ≤ F := fieldOk_bn254.large
  exact ZMod.val_natCast_of_lt (by omega)

theorem three_blocks : ∃ (a m b : UserAuxVar F K) (z' : UState F), Client.runSteps P bnCurve 1 z [a, m, b] z' ∧
    a.block = blkAt 1 1 ∧ m.block = blkAt 1 2 ∧ b.block = blkAt 2 2 := by
  obtain ⟨a, z1, ea, ua, k1, n1, i1⟩ := pad_step 1 1 (by decide) z (demo_ready bnCurve r _)
  obtain ⟨m, z2, em, um, k2, n2, i2⟩ := pad_step 1 2 (by decide) z1
    ⟨by rw [k1]; rfl, by rw [n1]; show (((1 : Nat) : ZMod F)).val ≤ (((2 : Nat) : ZMod F)).val
                         rw [height_val 1 (by decide), height_val 2 (by decide)]; decide, i1⟩
  obtain ⟨b, z3, eb, ub, -⟩ := pad_step 2 2 (by decide) z2
    ⟨by rw [k2, k1]; rfl, by rw [n2]; exact le_refl _, i2⟩
  exact ⟨a, m, b, z3, ⟨z1, ua, z2, um, z3, ub, rfl⟩, ea, em, eb⟩

example : ∃ (a m b : UserAuxVar F K) (z' : UState F), Client.runSteps P bnCurve 1 z [a, m, b] z' ∧
    a.block.height.val < m.block.height.val ∧
    (a.hash P.hs ≠ b.hash P.hs ∨ Collides P.hs.crh (blockEncVar a.block) (blockEncVar b.block)) := by
  obtain ⟨a, m, b, z', h, ea, em, eb⟩ := three_blocks
  have hlt : a.block.height.val < m.block.height.val := by
    rw [ea, em]
    show (((1 : Nat) : ZMod F)).val < (((2 : Nat) : ZMod F)).val
    rw [height_val 1 (by decide), height_val 2 (by decide)]; decide
  exact ⟨a, m, b, z', h, hlt, C71_left_for_good fieldOk_bn254 P bnCurve 1 z z' [] [m] [] a b m h (by simp) hlt⟩

/-! ## C68, C72, C73, C75 -/

example := C68_exact fieldOk_bn254 P bnCurve 2 z zEnd _ run

/-- A run of one step that counts the transfer. -/
theorem one_run : ∃ (a : UserAuxVar F K) (z' : UState F), Client.runSteps P bnCurve 1 z [a] z' ∧
    a.transactions = [(t7, ((3 : Nat) : ZMod F))] ∧ ∀ x ∈ a.shown, x.counts bnCurve P.hs = true := by
  obtain ⟨h1, h2, h3, h4, h5⟩ := hyps
  obtain ⟨a, z', -, -, e1, e2, e3, -⟩ := C70_every_position fieldOk_bn254 P bnCurve blk _ _ h1 r z h2 h3 3 5
    (by decide) (by decide) (by decide) h4 h5
  exact ⟨a, z', ⟨z', e1, rfl⟩, e2, e3⟩

theorem shown_mem (a : UserAuxVar F K) (x : Shown F K) (hx : x ∈ a.shown) : (x.tx, x.index) ∈ a.transactions := by
  unfold UserAuxVar.shown at hx
  obtain ⟨y, hy, rfl⟩ := List.mem_map.1 hx
  exact (List.of_mem_zip (List.of_mem_zip hy).1).1

/-- C62: the transfer is counted once. -/
example : ∃ (a : UserAuxVar F K) (z' : UState F), Client.runSteps P bnCurve 1 z [a] z' ∧
    (((counted bnCurve P.hs [a]).Pairwise fun e f =>
      ¬ (e.1.hash P.hs = f.1.hash P.hs ∧ e.2.position = f.2.position)) ∨
    ∃ x ∈ [a], ∃ y ∈ [a], Collides P.hs.crh (blockEncVar x.block) (blockEncVar y.block)) := by
  obtain ⟨a, z', h, ht, -⟩ := one_run
  refine ⟨a, z', h, C62_counted_once fieldOk_bn254 P bnCurve 1 z z' [a] h ?_ ?_⟩
  · intro x hx y hy _
    rw [List.mem_singleton.1 hx, List.mem_singleton.1 hy]
  · intro x hx y hy _
    rw [List.mem_singleton.1 hx] at hy
    have := shown_mem a y hy
    rw [ht, List.mem_singleton, Prod.mk.injEq] at this
    rw [this.2, height_val 3 (by decide)]; decide

/-- C68: the dummies of the transfer carry no amount. -/
example : ∃ (a : UserAuxVar F K) (z' : UState F), Client.runSteps P bnCurve 1 z [a] z' ∧
    z'.balance = z.balance + ([a].map fun a => (a.transactions.map fun t => realDelta a.pk t.1).sum).sum := by
  obtain ⟨a, z', h, ht, -⟩ := one_run
  refine ⟨a, z', h, C68_clean_transactions fieldOk_bn254 P bnCurve 1 z z' [a] h ?_⟩
  intro x hx t hm
  rw [List.mem_singleton.1 hx, ht, List.mem_singleton] at hm
  rw [hm]
  intro u hu hd
  simp [t7, seven, transferTx, Tx.alloc, vmap, UTXO.alloc, UTXO.dummy, Tx.ios] at hu
  rcases hu with hu | hu | hu | hu <;> rw [hu] at hd ⊢ <;> first | rfl | simp at hd

/-- C73: a payment of eight with two back as change, over the keys it names. -/
example : ∑ x ∈ ([r, k, 0] : List K).toFinset,
    (received x ((changeTx k r).alloc F) - spent x ((changeTx k r).alloc F)) = 0 := by
  refine C73_deltas_sum_to_zero ((changeTx k r).alloc F) k ?_ ?_ _ ?_
  · rw [enforceValid_iff]
    simp [changeTx, Tx.alloc, vmap, UTXO.alloc, UTXO.new, UTXO.dummy]
    rfl
  · intro u hu hd
    simp [changeTx, Tx.alloc, vmap, UTXO.alloc, UTXO.new, UTXO.dummy, Tx.ios] at hu
    rcases hu with hu | hu | hu | hu | hu <;> rw [hu] at hd ⊢ <;> first | rfl | simp at hd
  · intro u hu
    simp [changeTx, Tx.alloc, vmap, UTXO.alloc, UTXO.new, UTXO.dummy, Tx.ios] at hu
    rcases hu with hu | hu | hu | hu | hu <;> rw [hu] <;> simp

/-- C72: the same run twice, and against the run of no steps. -/
example := C72_accumulator fieldOk_bn254 P bnCurve 2 2 z zEnd z zEnd _ _ run run rfl rfl
example := C72_accumulator_any_length fieldOk_bn254 P bnCurve 2 2 z zEnd z zEnd _ _ run run rfl rfl
example := C72_poseidon fieldOk_bn254 (demoHs F) bnCurve 2 2 z zEnd z zEnd _ _ run run rfl rfl
example := C72_poseidon_value fieldOk_bn254 (demoHs F) bnCurve 2 z zEnd _ run
example := C72_blocks (demoHs F) s1 s2 (by unfold UserAuxVar.hash; rw [block2])

/-- C72 with the SHA-256 accumulator: position 3, signer at position 5. -/
theorem sha_run : ∃ (a : UserAuxVar F K) (z' : UState F),
    Client.runSteps (shaParams (demoHs F) toySha) bnCurve 1 z [a] z' ∧ a.block = blk ∧
    a.transactions = [(demoTxs t7 3, ((3 : Nat) : ZMod F))] := by
  obtain ⟨h1, h2, h3, h4, h5⟩ := hyps
  obtain ⟨a, z', e0, -, e1, e2, -⟩ := C70_every_position fieldOk_bn254 (shaParams (demoHs F) toySha) bnCurve blk
    _ _ h1 r z h2 h3 3 5 (by decide) (by decide) (by decide) h4 h5
  exact ⟨a, z', ⟨z', e1, rfl⟩, e0, e2⟩

example : ∃ (a : UserAuxVar F K) (z' : UState F),
    z'.acc = shaAccNative toySha z.acc ((demoHs F).crh (blockEncVar a.block)) := by
  obtain ⟨a, z', h, -⟩ := sha_run
  exact ⟨a, z', C72_sha_value fieldOk_bn254 (by show 249 ≤ modBits bn254r; rw [C32_bn254.1]; decide) (demoHs F) toySha bnCurve 1 z z' [a] h⟩

example : ∃ (a : UserAuxVar F K) (z' : UState F), Client.runSteps (shaParams (demoHs F) toySha) bnCurve 1 z [a] z' ∧
    (z.acc = z.acc ∧ [a].map (·.hash (demoHs F)) = [a].map (·.hash (demoHs F)) ∨
    TranscriptCollision (truncated F toySha)
      (chainInputs (shaField F toySha) (fun a v => fBytes a ++ fBytes v) z.acc ([a].map (·.hash (demoHs F))))
      (chainInputs (shaField F toySha) (fun a v => fBytes a ++ fBytes v) z.acc ([a].map (·.hash (demoHs F))))) := by
  obtain ⟨a, z', h, -⟩ := sha_run
  exact ⟨a, z', h, C72_sha fieldOk_bn254 (demoHs F) toySha bnCurve 1 1 z z' z z' [a] [a] h h rfl rfl⟩

example (d : ZMod F) := C75_funds_not_checked fieldOk_bn254 P bnCurve 2 z zEnd _ run d

/-! ## C61, C75, C84, C85 on native inputs: the change payment of `Wallet` -/

example : ∃ (a : UserAux F K) (z z' : UState F), shownTxs [a] = [changeTx k r] ∧
    Client.runSteps P bnCurve 1 z ([a].map UserAux.alloc) z' ∧
    z'.balance = ((exactBalance z.balance.val [a] : Int) : ZMod F) ∧
    (z'.balance.val : Int) = exactBalance z.balance.val [a] % F := by
  obtain ⟨a, z, z', u', h1, -, -, -, h5, -⟩ := C84_change_credited_too_much fieldOk_bn254 bnCurve k r hr
  exact ⟨a, z, z', h5, h1, (C61_exact_integers fieldOk_bn254 P bnCurve 1 z z' [a] h1).1,
    (C75_recorded_balance fieldOk_bn254 P bnCurve 1 z z' [a] h1).1⟩

example : ∃ (a : UserAux F K) (z z' : UState F) (u' : User Unit K), shownTxs [a] = [changeTx k r] ∧
    (u'.balance : ZMod F) = z'.balance + (((shownTxs [a]).map (toOthers k)).sum : Nat) ∧
    (z'.balance = (u'.balance : ZMod F) ↔ ∀ t ∈ shownTxs [a], toOthers k t = 0) := by
  obtain ⟨a, z, z', u', h1, h2, h3, h4, h5, h6, h7, -⟩ := C84_change_credited_too_much fieldOk_bn254 bnCurve k r hr
  have hb : z.balance = ((8 : Nat) : ZMod F) := by rw [h3]; norm_num
  have hn : z.nonce = ((0 : Nat) : ZMod F) := by rw [h4]; norm_num
  have hpk : ∀ x ∈ [a], x.pk = (⟨(), k, 8, 0, 0⟩ : User Unit K).pk := by
    intro x hx; rw [List.mem_singleton.1 hx]; exact h2
  refine ⟨a, z, z', u', h5, (C84_wallet_drift fieldOk_bn254 P bnCurve 1 z z' [a] ⟨(), k, 8, 0, 0⟩ u' hpk h1
      (fun t ht => (h6 t ht).1) (fun t ht => (h6 t ht).2) h7 hb hn).1,
    C84_agree_iff fieldOk_bn254 P bnCurve 1 z z' [a] ⟨(), k, 8, 0, 0⟩ u' hpk h1
      (fun t ht => (h6 t ht).1) (fun t ht => (h6 t ht).2) h7 hb hn ?_⟩
  rw [h5]
  have h : ((([changeTx k r]).map (toOthers k)).sum) = 6 := by
    simp [toOthers, pays, changeTx, totalOf, UTXO.new, UTXO.dummy, hr, hk0, List.filter_cons, Ne.symm hk0]
  show (([changeTx k r]).map (toOthers k)).sum < F
  rw [h]; decide

/-! ## C86 and C90 -/

example (mode : Bool) := C86_aggregator_deterministic AggC.sizes_bn254 (Cases.P mode) bnCurve Cases.z _ _ Cases.bs
  (Cases.run mode) (Cases.run mode)

theorem step_vec : ∃ v, Client.stepVec P bnCurve 2 0 z.toList s1 v := by
  obtain ⟨z1, h1, -⟩ := step
  exact ⟨_, z, z1, rfl, h1, rfl⟩

/-- C90: one step on the state as a vector. -/
example : ∃ v, Client.stepVec P bnCurve 2 0 z.toList s1 v ∧ v.length = 7 := by
  obtain ⟨v, h⟩ := step_vec
  have := (C90_client_step fieldOk_bn254 P bnCurve 2 0 _ _ _ _ _ _ _ [] v s1 h).1
  exact ⟨v, h, by rw [this]; rfl⟩

/-- C90: the two steps on the state as a vector of seven elements. -/
theorem run_vec : Client.runVec P bnCurve 2 0 z.toList ([s1] ++ [s2]) zEnd.toList := by
  obtain ⟨z1, h1, z2, h2, rfl⟩ := run
  exact ⟨_, ⟨z, z1, rfl, h1, rfl⟩, _, ⟨z1, _, rfl, h2, rfl⟩, rfl⟩

example := C90_client_run fieldOk_bn254 P bnCurve 2 0 _ _ _ _ _ _ _ [] zEnd.toList s2 [s1] run_vec

/-- C90: the aggregator run of `CasesCircuit` on the state as a vector. -/
theorem agg_vec (mode : Bool) : AggC.runVec (Cases.P mode) bnCurve 0 Cases.z.toList Cases.bs (Cases.zEnd mode).toList :=
  (agg_runVec_toList (Cases.P mode) bnCurve 0 Cases.z Cases.bs _).2 ⟨_, Cases.run mode, rfl⟩

example (mode : Bool) := C90_aggregator_run AggC.sizes_bn254 (Cases.P mode) bnCurve 0 _ _ _ _ _ _ _ _
  (Cases.zEnd mode).toList Cases.bs (agg_vec mode)

end PF.CasesClient
