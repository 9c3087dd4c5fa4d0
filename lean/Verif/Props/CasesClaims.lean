import Verif.Props.ClientClaims
import Verif.Props.CasesClient
import Verif.Props.CasesChain

/-!
# Concrete cases for C111

Two published blocks of heights one and two, each listing the transfer of seven from the key 1 to the key 2 at
position 3; and the block of the accepted epoch of `CasesChain`.
-/
set_option linter.unusedSectionVars false

namespace PF.CasesClaims
open PF PF.Contract PF.Spec PF.MT PF.Circuit PF.Client PF.Props PF.CasesClient
open PF.AggC (grumpkinQ bnCurve)

/-- Published block of height `n`. -/
def pub (u : ZMod F) (n : Nat) : Published F K := ⟨blkAt u n, demoTxs t7, demoSigners k⟩

theorem lists (u : ZMod F) (n : Nat) (hn : n < 1000) : (pub u n).Lists bnCurve P.hs :=
  ⟨(commits_at u n hn).txs, (commits_at u n hn).signers⟩

theorem all_list : ∀ b ∈ [pub 1 1, pub 2 2], b.Lists bnCurve P.hs := by
  intro b hb
  simp only [List.mem_cons, List.not_mem_nil, or_false] at hb
  rcases hb with rfl | rfl
  · exact lists 1 1 (by decide)
  · exact lists 2 2 (by decide)

theorem countable (u : ZMod F) (n : Nat) : (pub u n).Countable bnCurve P.hs 3 :=
  ⟨by decide, hyps.2.2.2.1, 5, by decide, hyps.2.2.2.2⟩

theorem height_pub (u : ZMod F) (n : Nat) (hn : n < 1000) : (pub u n).block.height.val = n := height_val n hn

theorem rising : Rising z.prevBlockNumber [pub 1 1, pub 2 2] := by
  refine ⟨?_, ?_⟩
  · have h0 : z.prevBlockNumber.val = 0 := ZMod.val_zero
    simp only [List.map_cons, List.map_nil, h0, height_pub 1 1 (by decide), height_pub 2 2 (by decide)]
    decide
  · intro b hb
    simp only [List.mem_cons, List.not_mem_nil, or_false] at hb
    rcases hb with rfl | rfl
    · exact (commits_at 1 1 (by decide)).height
    · exact (commits_at 2 2 (by decide)).height

/-- The transfer of the first block twice, that of the second once. -/
theorem choice : Selection bnCurve P.hs 2 [pub 1 1, pub 2 2] [[3, 3], [3]] := by
  refine .cons ⟨by decide, ?_⟩ (.cons ⟨by decide, ?_⟩ .nil) <;> intro j hj <;>
    simp only [List.mem_cons, List.not_mem_nil, or_false, or_self] at hj <;> rw [hj]
  · exact countable 1 1
  · exact countable 2 2

theorem size : CAP * ([pub 1 1, pub 2 2].length * (2 + 1)) ≤ (F - 1) / 2 := by
  show 4096 * (2 * 3) ≤ (F - 1) / 2
  decide

/-- Twenty-one out of two transfers of seven, with the accumulator of the two blocks. -/
theorem twenty_one : ∃ (as : List (UserAuxVar F K)) (z' : UState F), Client.runSteps P bnCurve 2 z as z' ∧
    z'.acc = accOf P z.acc [pub 1 1, pub 2 2] ∧ z'.balance = 21 := by
  obtain ⟨as, z', h1, -, h3, h4, -⟩ := C111_every_selection fieldOk_bn254 P bnCurve 2 r hr0 z rfl rfl _ all_list rising
    size _ choice
  refine ⟨as, z', h1, h3, h4.trans ?_⟩
  have hd : delta r t7 = 7 := by
    simp [delta, received, spent, t7, seven, transferTx, Tx.alloc, UTXO.alloc, UTXO.new, UTXO.dummy, hr, hr.symm, hr0, hr0.symm]
  have hs : selected [pub 1 1, pub 2 2] [[3, 3], [3]] = [t7, t7, t7] := rfl
  rw [hs]
  simp only [List.map_cons, List.map_nil, hd, List.sum_cons, List.sum_nil]
  show (0 : ZMod F) + _ = 21
  norm_num

/-- Any such run is a selection. -/
example (as : List (UserAuxVar F K)) (z' : UState F) (h : Client.runSteps P bnCurve 2 z as z')
    (ha : z'.acc = accOf P z.acc [pub 1 1, pub 2 2]) :=
  C111_claims fieldOk_bn254 P bnCurve 2 r z z' as h rfl _ all_list ha

example := C111_spending_omitted fieldOk_bn254 P bnCurve 2 r hr0 z rfl rfl _ all_list rising size
example := C111_income_multiplied fieldOk_bn254 P bnCurve 2 r hr0 z rfl rfl [pub 1 1] (pub 2 2) all_list rising size 3
  (countable 2 2) 2 (by decide)

end PF.CasesClaims

namespace PF.Cases
open PF PF.Contract PF.Spec PF.MT PF.Circuit PF.Props PF.AggC

theorem fromProver : Client.Published.FromProver (P false) bnCurve (e0, fun _ => (0 : K)) :=
  ⟨⟨z.utxoRoot, e0_accepted⟩, three, tx_start, signer_start⟩

/-- The accepted block with what it lists. -/
def pub0 : Client.Published F K := Client.published (P false) bnCurve e0 fun _ => 0

/-- The step in which the key 3 counts five, held against the list with that one accepted block, under an index
that is a position. -/
theorem five_claimed : ∃ (s : Client.UserAuxVar F K) (z' : Client.UState F), Client.runSteps Q bnCurve 1 zb [s] z' ∧
    z'.acc = Client.accOf Q zb.acc [pub0] ∧ z'.balance = 5 ∧
    ∀ a ∈ [s], ∀ x ∈ a.shown, x.counts bnCurve Q.hs = true → x.index.val < Client.CAP := by
  obtain ⟨s, z', e1, e2, e3, e4, e5⟩ := counts_five
  have hacc := (C66_inclusion fieldOk_bn254 Q bnCurve 1 zb z' s e2).1
  have hp : Client.accOf Q zb.acc [pub0] = Q.acc zb.acc (Q.hs.crh (blockEncVar pub0.block)) := by
    simp only [Client.accOf, List.map_cons, List.map_nil, List.foldl_cons, List.foldl_nil, Client.Published.hash]
  have hb : s.block = pub0.block := e1
  refine ⟨s, z', ⟨z', e2, rfl⟩, ?_, e5, ?_⟩
  · rw [hacc, hp, hb]
  · intro a ha x hx _
    rw [List.mem_singleton.1 ha] at hx
    have : (x.tx, x.index) ∈ s.transactions := by
      unfold Client.UserAuxVar.shown at hx
      obtain ⟨y, hy, hyx⟩ := List.mem_map.1 hx
      rw [← hyx]
      exact (List.of_mem_zip (List.of_mem_zip hy).1).1
    rw [e3, List.mem_singleton] at this
    rw [(Prod.mk.inj this).2, CasesClient.height_val 1 (by decide)]
    decide

theorem five_lists : ∀ c ∈ [pub0], c.Lists bnCurve Q.hs := by
  intro c hc; rw [List.mem_singleton.1 hc]; exact e0_lists

theorem five_from : ∀ x ∈ [((e0, fun _ => (0 : K)) : Epoch F K × (Nat → K))], Client.Published.FromProver (P false) bnCurve x := by
  intro x hx; rw [List.mem_singleton.1 hx]; exact fromProver

theorem zb_key : zb.pkHash = Q.hs.crh (pkEncVar bnCurve b) := rfl

example (s : Client.UserAuxVar F K) (z' : Client.UState F) (h : Client.runSteps Q bnCurve 1 zb [s] z')
    (ha : z'.acc = Client.accOf Q zb.acc [pub0])
    (hi : ∀ a ∈ [s], ∀ x ∈ a.shown, x.counts bnCurve Q.hs = true → x.index.val < Client.CAP) :=
  C111_own_positions fieldOk_bn254 Q bnCurve 1 b zb z' [s] h zb_key [pub0] five_lists ha hi

theorem five_acc : Client.accOf Q zb.acc [pub0] = Client.accOf Q zb.acc ([((e0, fun _ => (0 : K)) : Epoch F K × (Nat → K))].map fun x => Client.published (P false) bnCurve x.1 x.2) := by
  rw [List.map_cons, List.map_nil, pub0]
example (s : Client.UserAuxVar F K) (z' : Client.UState F) (h : Client.runSteps Q bnCurve 1 zb [s] z')
    (ha : z'.acc = Client.accOf Q zb.acc [pub0]) :=
  C111_chain sizes_bn254 fieldOk_bn254 (P false) Q rfl bnCurve 1 b zb z' [s] h zb_key _ five_from (ha.trans five_acc)

end PF.Cases
