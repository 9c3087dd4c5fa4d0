import Verif.Props.CasesCircuit
import Verif.Props.BlockChain
import Verif.Props.ChainBalances
import Verif.Props.ClientChain
import Verif.Props.CasesClient

/-!
# Concrete cases for the theorems about chains of blocks (C102, C105, C108)

The chain has two blocks: the one of `CasesCircuit` (a deposit of 5 for the key 2, its payment to the key 3 and
the withdrawal), whose trees exhibit no collision, and one without transactions.
-/
set_option linter.unusedSectionVars false

namespace PF.Cases
open PF PF.Spec PF.MT PF.AggC PF.Circuit PF.Contract PF.Agg PF.Props

/-- The first block. -/
def e0 : Epoch F K where
  reg := Clean.reg k0 a b
  block := Clean.block bnCurve k0 a b toySha
  batches := bs
  final := z.txRootFinal
  tx0 := z.txRoot
  signer0 := z.signerRoot

theorem e0_accepted : e0.Accepted (P false) bnCurve z.utxoRoot := ⟨amounts, zEnd false, run false, public_inputs⟩

/-- The second block. -/
def e1 : Epoch F K := idleEpoch (Clean.reg k0 a b) e0.block.utxoRoot 0 0

theorem chain : Chain (P false) bnCurve z.utxoRoot [e0, e1] e0.block.utxoRoot :=
  ⟨e0_accepted, idle_accepted _ _ _ _ _ _, rfl⟩

theorem chainUpds_eq : chainUpds (P false) bnCurve [e0, e1] = ledgerUpds (P false) bnCurve z.txRootFinal bs.flatten := by
  have e : ledgerUpds (P false) bnCurve e1.final e1.txs = [] := rfl
  unfold chainUpds
  rw [List.flatMap_cons, List.flatMap_cons, List.flatMap_nil, e, List.append_nil, List.append_nil]
  rfl

theorem chain_clean : ¬ Collision (P false).hs (utxoEncVar bnCurve) 32 Clean.c0 (chainUpds (P false) bnCurve [e0, e1]) := by
  rw [chainUpds_eq]; exact clean_utxo false

example := (C102_ledger sizes_bn254 (P false) bnCurve [e0, e1] _ _ chain Clean.c0 (root0 false)).resolve_right chain_clean

example := (C102_no_double_spend sizes_bn254 (P false) bnCurve [e0, e1] _ _ chain Clean.c0 (root0 false) _ rfl).resolve_right
  chain_clean

example := (C102_copies sizes_bn254 (P false) bnCurve [e0, e1] _ _ chain Clean.c0 (root0 false)).resolve_right chain_clean

example := (C102_removed_only_by_owner sizes_bn254 (P false) bnCurve [e0, e1] _ _ chain Clean.c0
  (root0 false)).resolve_right chain_clean

example := (C102_every_removal sizes_bn254 (P false) bnCurve [e0, e1] _ _ chain Clean.c0 (root0 false) _ rfl).resolve_right
  chain_clean

/-- The deposit of 5 was withdrawn: the value left is what the blocks say, unless the toy digest is broken. -/
example := (C102_value sizes_bn254 (P false) rfl bnCurve [e0, e1] _ _ chain Clean.c0 (root0 false)
  (Clean.healthy0 _)).imp_right (fun h => h.resolve_left chain_clean)

example := (C102_solvency sizes_bn254 (P false) rfl bnCurve [e0, e1] _ _ chain (root0 false)).imp_right
  (fun h => h.resolve_left chain_clean)

theorem totals : chainDeposits [e0, e1] = 5 ∧ chainWithdrawals [e0, e1] = 5 := ⟨rfl, rfl⟩

/-- Three blocks withdrawing 7 each from nothing, on top of the empty ledger. -/
example := C102_insolvency sizes_bn254 bn254_le (P false) rfl bnCurve z.utxoRoot Clean.c0 (root0 false)
  (Clean.reg k0 a b) 1 a rfl ha 7 (by decide) (by decide) 3

/-- C105: the key 3 was paid 5 and paid 5 out. -/
example := (C105_key_balance sizes_bn254 (P false) bnCurve [e0, e1] _ _ chain Clean.c0 (root0 false)).resolve_right
  chain_clean

example (Q : Client.Params F) := (C105_client_balance sizes_bn254 fieldOk_bn254 (P false) Q bnCurve [e0, e1] _ _ chain
  (root0 false)).resolve_right chain_clean

/-- C105: the balance of a client that was shown exactly the transactions of a chain, and its backing. -/
example : ∃ (P : AggC.Params F K) (Q : Client.Params F) (e : Epoch F K) (u u' : ZMod F) (z' : Client.UState F),
    Chain P bnCurve u [e] u' ∧ FaithfulTo Q bnCurve 3 (chainTxs P bnCurve [e]) b z' ∧ z'.balance = 7 ∧
    chainDeposits [e] = 12 ∧
    ((([(b, z')] : List (K × Client.UState F)).map fun x => x.2.balance.val).sum + chainPaidOut P bnCurve [e] ≤
        chainDeposits [e] ∨
      Collision P.hs (utxoEncVar bnCurve) 32 (fun _ => UTXO.dummy) (chainUpds P bnCurve [e]) ∨
      ShaBroken P bnCurve [e]) := by
  obtain ⟨e, u, u', z', h1, h2, h3, h4, h5⟩ := example_chain_client sizes_bn254 fieldOk_bn254 bn254_le bnCurve
    ⟨Agg.oneHs F, toySha, k0, false⟩ rfl rfl (Client.poseidonParams (Agg.oneHs F)) rfl ha hb hab hb0
  refine ⟨⟨Agg.oneHs F, toySha, k0, false⟩, Client.poseidonParams (Agg.oneHs F), e, u, u', z', h1, h3, h4, h5,
    C105_backed sizes_bn254 fieldOk_bn254 _ rfl (Client.poseidonParams (Agg.oneHs F)) bnCurve [e] u u' h1 h2 3 [(b, z')] (by simp) ?_ ?_⟩
  · intro x hx; rw [List.mem_singleton.1 hx]; exact hb
  · intro x hx; rw [List.mem_singleton.1 hx]; exact h3

/-! ## C108 -/

theorem e0_txs : e0.txs = is := rfl

theorem tx_start : RootOf (P false).hs (txEncVar bnCurve) 13 (fun _ => Tx.default) e0.tx0 :=
  (Clean.z_open (cv := bnCurve) (k0 := k0) (a := a) (b := b) toySha false).tx

theorem signer_start : RootOf (P false).hs (pkEncVar bnCurve) 13 (fun _ => 0) e0.signer0 :=
  (Clean.z_open (cv := bnCurve) (k0 := k0) (a := a) (b := b) toySha false).signer

theorem three : e0.txs.length ≤ TX_CAP := by show 3 ≤ 4096; omega

theorem clean_tx' : ¬ Collision (P false).hs (txEncVar bnCurve) 13 (fun _ => Tx.default) (txUpds 0 e0.txs) := clean_tx false
theorem clean_signer' : ¬ Collision (P false).hs (pkEncVar bnCurve) 13 (fun _ => 0)
    (signerUpds (P false) bnCurve e0.final 0 e0.txs) := clean_signer false

/-- What the block lists, without collision alternative. -/
theorem e0_lists : RootOf (P false).hs (txEncVar bnCurve) 13 e0.txAt e0.block.txRoot ∧
    RootOf (P false).hs (pkEncVar bnCurve) 13 (e0.signerAt (P false) bnCurve (fun _ => 0)) e0.block.signerRoot := (C108_block_lists sizes_bn254 (P false) bnCurve z.utxoRoot e0 e0_accepted three tx_start (fun _ => 0)
  signer_start).resolve_right (fun h => h.elim clean_tx' clean_signer')

/-- A client with the same hashes. -/
def Q : Client.Params F := Client.poseidonParams (P false).hs

/-- The key 3 before the block. -/
def zb : Client.UState F :=
  ⟨0, 0, Q.hs.crh (pkEncVar bnCurve b), 0, Q.hs.crh (blockEncVar e0.block.alloc) + 1, 0, 0⟩

theorem zb_ready : ReadyFor bnCurve Q.hs b e0.block.alloc.height zb where
  key := rfl
  height := by simp [zb]
  index := by simp [zb]

theorem height_one : ((e0.block.height : ZMod F)).val + 1 ≤ (F - 1) / 2 := by
  show (((1 : Nat) : ZMod F)).val + 1 ≤ _
  rw [CasesClient.height_val 1 (by decide)]; decide

theorem i1_real : NotPadding bnCurve Q.hs (Clean.i1 bnCurve k0 a b).tx := by
  show Clean.lhT bnCurve k0 a b (Clean.tx0 F a b) ≠ Clean.lhT bnCurve k0 a b Tx.default
  rw [Clean.lhT_1 hp ha, Clean.lhT_default hp]
  exact Clean.dig_ne hp (by decide) (by decide) (by decide)

/-- The key 3 can count the payment of 5 made to it by the key 2. -/
theorem counts_five : ∃ (s : Client.UserAuxVar F K) (z' : Client.UState F), s.block = e0.block.alloc ∧
    Client.updateBalance Q bnCurve 1 zb s z' ∧ s.transactions = [((Clean.i1 bnCurve k0 a b).tx, ((1 : Nat) : ZMod F))] ∧
    (∀ x ∈ s.shown, x.counts bnCurve Q.hs = true) ∧ z'.balance = 5 := by
  have h := C108_countable sizes_bn254 fieldOk_bn254 (P false) Q rfl bnCurve z.utxoRoot e0 e0_accepted three tx_start
    (fun _ => 0) signer_start height_one 1 (by decide) (Clean.i1 bnCurve k0 a b) rfl i1_real 1 (by decide)
    (Or.inl ⟨Clean.i1 bnCurve k0 a b, rfl, ?_, ?_⟩) b zb zb_ready ?_
  · obtain ⟨s, z', e1, -, e3, e4, e5, e6⟩ := h.resolve_right (fun h => h.elim clean_tx' clean_signer')
    refine ⟨s, z', e1, e3, e4, e5, ?_⟩
    rw [e6]
    show (0 : ZMod F) + Client.delta b (Clean.tx0 F a b) = 5
    simp [Client.delta, Client.received, Client.spent, Clean.tx0, UTXO.new, UTXO.dummy, List.filter_cons, hab, hb0.symm]
  · exact Clean.authorised_all (by decide) hq toySha false _ _ (by simp [Clean.is])
  · simp [Clean.i1, Clean.tx0, Tx.getSigner, UTXO.new, UTXO.dummy, select]
  · show Q.hs.crh (blockEncVar e0.block.alloc) ≠ Q.hs.crh (blockEncVar e0.block.alloc) + 1
    intro h
    exact one_ne fieldOk_bn254 (left_eq_add.1 h)

/-- What it counted is what the block lists (the alternatives left are collisions between what it showed and
the tree of the block). -/
example : ∃ (s : Client.UserAuxVar F K) (z' : Client.UState F), Client.updateBalance Q bnCurve 1 zb s z' ∧
    z'.balance = 5 ∧ ∀ x ∈ s.shown,
    (∃ i, e0.txs[x.position]? = some i ∧ x.tx = i.tx ∧
      ((∃ i' ∈ e0.txs, i'.authorised (P false) bnCurve e0.final = true ∧ i'.senderPk = i.tx.getSigner) ∨
        ∃ j, j < Client.CAP ∧ (0 : K) = i.tx.getSigner)) ∨
    Collides Q.hs.crh (txEncVar bnCurve x.tx) (txEncVar bnCurve (e0.txAt x.position)) ∨
    PathCollision Q.hs.h2 x.txPath
      (truePath (fun t => Q.hs.crh (txEncVar bnCurve t)) Q.hs.h2 13 e0.txAt x.position) ∨
    ∃ j, j < Client.CAP ∧
      (Collides Q.hs.crh (pkEncVar bnCurve x.tx.getSigner)
        (pkEncVar bnCurve (e0.signerAt (P false) bnCurve (fun _ => 0) j)) ∨
      PathCollision Q.hs.h2 x.signerPath (truePath (fun k => Q.hs.crh (pkEncVar bnCurve k)) Q.hs.h2 13
        (e0.signerAt (P false) bnCurve (fun _ => 0)) j)) := by
  obtain ⟨s, z', e1, e2, e3, e4, e5⟩ := counts_five
  refine ⟨s, z', e2, e5, fun x hx => ?_⟩
  rcases C108_counted_listed sizes_bn254 fieldOk_bn254 (P false) Q rfl bnCurve z.utxoRoot e0 e0_accepted three tx_start
    (fun _ => 0) signer_start 1 zb z' s e1 e2 x hx (e4 x hx) with h | h | h | h
  · exact Or.inl h
  · exact absurd h clean_tx'
  · exact absurd h clean_signer'
  · exact Or.inr h

/-- A balance of 7 out of nothing, from a block on top of the empty ledger. -/
example := C108_balance_out_of_nothing sizes_bn254 fieldOk_bn254 bn254_le (P false) Q rfl bnCurve h0 z.utxoRoot Clean.c0
  (root0 false) (Clean.reg k0 a b) b hb0 hb 7 (by decide)

end PF.Cases
