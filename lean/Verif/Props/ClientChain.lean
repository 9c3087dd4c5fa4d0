import Verif.Spec.ClientChain
import Verif.Props.BlockChain
import Verif.Props.ClientExamples
import Verif.Props.EndToEnd

/-!
# Clients and blocks accepted from any prover (C108)

C79 and C80 are about blocks made by the aggregator of the repository. Here the block only has to be accepted:
its prover may be anyone and may have run the aggregator circuit on any transactions, signatures and trees.
-/
set_option linter.unusedSectionVars false

namespace PF.Props
open PF PF.Spec PF.AggC PF.Contract PF.Client
variable {p q : Nat} {G : Type} [AddCommGroup G] [Module (ZMod q) G] [DecidableEq G]

/-- All roots of an accepted block are those its run ends with. -/
theorem accepted_roots {P : AggC.Params p G} {cv : Curve p q G} {u : ZMod p} {e : Epoch p G}
    (ha : e.Accepted P cv u) : ∃ z', AggC.runSteps P cv (initState u e.tx0 e.final e.signer0) e.batches z' ∧
      e.block.utxoRoot = z'.utxoRoot ∧ e.block.txRoot = z'.txRoot ∧ e.block.txRoot = z'.txRootFinal ∧
      e.block.signerRoot = z'.signerRoot := by
  obtain ⟨hb, z', hr, hd⟩ := ha
  refine ⟨z', hr, ?_⟩
  unfold derivePublicInputs at hd
  rcases h1 : signerAcc cv P.sha e.reg.pks e.block.signers 0 with sa | x | _ <;> rw [h1] at hd <;> simp at hd
  rcases h2 : amountAcc cv P.sha e.reg.pks e.block.deposits 0 with da | x | _ <;> rw [h2] at hd <;> simp at hd
  rcases h3 : amountAcc cv P.sha e.reg.pks e.block.withdrawals 0 with wa | x | _ <;> rw [h3] at hd <;>
    simp at hd
  simp only [CState.toList, List.cons.injEq, and_true] at hd
  obtain ⟨-, a, b, c, d, -⟩ := hd
  exact ⟨a, b, c, d⟩

/-- **C108**: the roots of a block accepted from any prover stand for what the prover ran. If it started from
the empty transaction tree and ran at most as many transactions as the tree can hold, the transaction root
commits to the list of them, padded; and if it started from a signer tree with leaves `g`, the signer root
commits to the senders of the authorised ones, each at its position, over `g`. -/
theorem C108_block_lists (hS : Sizes p q) (Q : AggC.Params p G) (cv : Curve p q G) (u : ZMod p)
    (e : Epoch p G) (ha : e.Accepted Q cv u) (hlen : e.txs.length ≤ TX_CAP)
    (ht0 : RootOf Q.hs (txEncVar cv) 13 (fun _ => Tx.default) e.tx0)
    (g : Nat → G) (hs0 : RootOf Q.hs (pkEncVar cv) 13 g e.signer0) :
    (RootOf Q.hs (txEncVar cv) 13 e.txAt e.block.txRoot ∧
      RootOf Q.hs (pkEncVar cv) 13 (e.signerAt Q cv g) e.block.signerRoot) ∨
    Collision Q.hs (txEncVar cv) 13 (fun _ => Tx.default) (txUpds 0 e.txs) ∨
    Collision Q.hs (pkEncVar cv) 13 g (signerUpds Q cv e.final 0 e.txs) := by
  have hl := hS.large
  have hp : TX_CAP < p := by unfold TX_CAP; omega
  obtain ⟨z', hr, -, h2, -, h4⟩ := accepted_roots ha
  rcases tx_sound hS Q cv _ z' _ hr _ ht0 with ⟨-, r1⟩ | k
  · rcases signer_sound hS Q cv _ z' _ hr _ hs0 with ⟨-, r2⟩ | k
    · left
      have z0 : ((0 : ZMod p)).val = 0 := ZMod.val_zero
      constructor
      · rw [h2]
        have e1 : applied (fun _ => Tx.default) (txUpds 0 e.txs) = e.txAt := by
          obtain ⟨a1, a2⟩ := tx_applied hp e.txs 0 (by rw [z0]; omega) (fun _ => Tx.default)
          funext j
          unfold Epoch.txAt
          rcases hj : e.txs[j]? with _ | i
          · rw [a2 j (Or.inr (by rw [z0, Nat.zero_add]; exact List.getElem?_eq_none_iff.1 hj))]; rfl
          · have := a1 j i hj
            rw [z0, Nat.zero_add] at this
            rw [this]; rfl
        rw [← e1]; exact r1
      · rw [h4]
        have e1 : applied g (signerUpds Q cv e.final 0 e.txs) = e.signerAt Q cv g := by
          obtain ⟨a1, a2⟩ := signer_applied hp Q cv e.final e.txs 0 (by rw [z0]; omega) g
          funext j
          unfold Epoch.signerAt
          rcases hj : e.txs[j]? with _ | i
          · rw [a2 j (Or.inr (by rw [z0, Nat.zero_add]; exact List.getElem?_eq_none_iff.1 hj))]
          · have := a1 j i hj
            rw [z0, Nat.zero_add] at this
            rw [this]
        rw [← e1]; exact r2
    · exact Or.inr (Or.inr k)
  · exact Or.inr (Or.inl k)

theorem signerAt_cases (Q : AggC.Params p G) (cv : Curve p q G) (e : Epoch p G) (g : Nat → G) (j : Nat) :
    (∃ i ∈ e.txs, i.authorised Q cv e.final = true ∧ e.signerAt Q cv g j = i.senderPk) ∨
      e.signerAt Q cv g j = g j := by
  unfold Epoch.signerAt
  rcases hj : e.txs[j]? with _ | i
  · exact Or.inr rfl
  · by_cases hau : i.authorised Q cv e.final = true
    · exact Or.inl ⟨i, List.mem_of_getElem? hj, hau, by simp [hau]⟩
    · exact Or.inr (by simp [hau])

/-- **C108** (soundness): whatever a client counts from an accepted block is a transaction its prover ran at
that very position, and its signer is the sender of some authorised transaction of the epoch, or a key the
signer tree held before the epoch. -/
theorem C108_counted_listed (hS : Sizes p q) (h : FieldOk p) (Q : AggC.Params p G) (P : Client.Params p)
    (hh : Q.hs = P.hs) (cv : Curve p q G) (u : ZMod p) (e : Epoch p G) (ha : e.Accepted Q cv u)
    (hlen : e.txs.length ≤ TX_CAP) (ht0 : RootOf Q.hs (txEncVar cv) 13 (fun _ => Tx.default) e.tx0)
    (g : Nat → G) (hs0 : RootOf Q.hs (pkEncVar cv) 13 g e.signer0)
    (n : Nat) (z z' : UState p) (a : UserAuxVar p G) (hb : a.block = e.block.alloc)
    (hstep : updateBalance P cv n z a z') (x : Shown p G) (hx : x ∈ a.shown)
    (hcnt : x.counts cv P.hs = true) :
    (∃ i, e.txs[x.position]? = some i ∧ x.tx = i.tx ∧
      ((∃ i' ∈ e.txs, i'.authorised Q cv e.final = true ∧ i'.senderPk = i.tx.getSigner) ∨
        ∃ j, j < CAP ∧ g j = i.tx.getSigner)) ∨
    Collision Q.hs (txEncVar cv) 13 (fun _ => Tx.default) (txUpds 0 e.txs) ∨
    Collision Q.hs (pkEncVar cv) 13 g (signerUpds Q cv e.final 0 e.txs) ∨
    Collides P.hs.crh (txEncVar cv x.tx) (txEncVar cv (e.txAt x.position)) ∨
    PathCollision P.hs.h2 x.txPath
      (truePath (fun t => P.hs.crh (txEncVar cv t)) P.hs.h2 13 e.txAt x.position) ∨
    ∃ j, j < CAP ∧ (Collides P.hs.crh (pkEncVar cv x.tx.getSigner) (pkEncVar cv (e.signerAt Q cv g j)) ∨
      PathCollision P.hs.h2 x.signerPath
        (truePath (fun k => P.hs.crh (pkEncVar cv k)) P.hs.h2 13 (e.signerAt Q cv g) j)) := by
  rcases C108_block_lists hS Q cv u e ha hlen ht0 g hs0 with ⟨r1, r2⟩ | k | k
  · rw [hh] at r1 r2
    have r1' : RootOf P.hs (txEncVar cv) 13 e.txAt a.block.txRoot := by rw [hb]; exact r1
    have r2' : RootOf P.hs (pkEncVar cv) 13 (e.signerAt Q cv g) a.block.signerRoot := by rw [hb]; exact r2
    obtain ⟨-, -, hinc⟩ := C66_inclusion h P cv n z z' a hstep
    rcases hinc _ r1' x hx hcnt with f | f | f
    · obtain ⟨j, hj, f'⟩ := C67_signer_somewhere h P cv n z z' a hstep _ r2' x hx hcnt
      rcases f' with f' | f' | f'
      · left
        rcases hi : e.txs[x.position]? with _ | i
        · exfalso
          have : e.txAt x.position = Tx.default := by unfold Epoch.txAt; rw [hi]; rfl
          rw [this] at f
          unfold Shown.counts at hcnt
          rw [f] at hcnt
          simp at hcnt
        · have fi : x.tx = i.tx := by rw [f]; unfold Epoch.txAt; rw [hi]; rfl
          refine ⟨i, rfl, fi, ?_⟩
          rw [fi] at f'
          rcases signerAt_cases Q cv e g j with ⟨i', m, au, s⟩ | s
          · exact Or.inl ⟨i', m, au, by rw [← s]; exact f'⟩
          · exact Or.inr ⟨j, hj, by rw [← s]; exact f'⟩
      · right; right; right; right; right; exact ⟨j, hj, Or.inl f'⟩
      · right; right; right; right; right; exact ⟨j, hj, Or.inr f'⟩
    · right; right; right; left; exact f
    · right; right; right; right; left; exact f
  · exact Or.inr (Or.inl k)
  · exact Or.inr (Or.inr (Or.inl k))

/-- **C108** (completeness): every transaction after the first that the prover ran, signed or not, can be
counted by everyone as soon as its signer is the sender of some authorised transaction of the epoch, or a key
left in the signer tree at a position the epoch does not overwrite. -/
theorem C108_countable (hS : Sizes p q) (h : FieldOk p) (Q : AggC.Params p G) (P : Client.Params p)
    (hh : Q.hs = P.hs) (cv : Curve p q G) (u : ZMod p) (e : Epoch p G) (ha : e.Accepted Q cv u)
    (hlen : e.txs.length ≤ TX_CAP) (ht0 : RootOf Q.hs (txEncVar cv) 13 (fun _ => Tx.default) e.tx0)
    (g : Nat → G) (hs0 : RootOf Q.hs (pkEncVar cv) 13 g e.signer0)
    (hheight : ((e.block.height : ZMod p)).val + 1 ≤ (p - 1) / 2)
    (i : Nat) (hi : 0 < i) (x : CInputs p G) (hx : e.txs[i]? = some x)
    (hreal : NotPadding cv P.hs x.tx) (j : Nat) (hj : j < CAP)
    (hsig : (∃ y, e.txs[j]? = some y ∧ y.authorised Q cv e.final = true ∧ y.senderPk = x.tx.getSigner) ∨
      ((∀ y, e.txs[j]? = some y → y.authorised Q cv e.final = false) ∧ g j = x.tx.getSigner))
    (k : G) (z : UState p) (hz : ReadyFor cv P.hs k e.block.alloc.height z)
    (hnew : P.hs.crh (blockEncVar e.block.alloc) ≠ z.prevBlockHash) :
    (∃ (a : UserAuxVar p G) (z' : UState p), a.block = e.block.alloc ∧ a.pk = k ∧
      updateBalance P cv 1 z a z' ∧ a.transactions = [(x.tx, (i : ZMod p))] ∧
      (∀ s ∈ a.shown, s.counts cv P.hs = true) ∧ z'.balance = z.balance + delta k x.tx) ∨
    Collision Q.hs (txEncVar cv) 13 (fun _ => Tx.default) (txUpds 0 e.txs) ∨
    Collision Q.hs (pkEncVar cv) 13 g (signerUpds Q cv e.final 0 e.txs) := by
  rcases C108_block_lists hS Q cv u e ha hlen ht0 g hs0 with ⟨r1, r2⟩ | c
  · left
    rw [hh] at r1 r2
    have hti : e.txAt i = x.tx := by unfold Epoch.txAt; rw [hx]; rfl
    have hsj : e.signerAt Q cv g j = x.tx.getSigner := by
      unfold Epoch.signerAt
      rcases hsig with ⟨y, h1, h2, h3⟩ | ⟨h1, h2⟩
      · rw [h1]; simp [h2, h3]
      · rcases hj' : e.txs[j]? with _ | y
        · exact h2
        · simp [h1 y hj', h2]
    have hic : i < CAP := by
      have := (List.getElem?_eq_some_iff.1 hx).1
      have h' : TX_CAP = 4096 := rfl
      show i < 4096
      omega
    obtain ⟨a, z', b1, b2, b3, b4, b5, b6, -⟩ := C70_every_position h P cv e.block.alloc e.txAt
      (e.signerAt Q cv g) ⟨r1, r2, hheight⟩ k z hz hnew i j hi hic hj (by rw [hti]; exact hreal)
      (by rw [hsj, hti])
    rw [hti] at b4 b6
    exact ⟨a, z', b1, b2, b3, b4, b5, b6⟩
  · exact Or.inr c

/-- One transaction without valid signature, accepted: nothing but the transaction root moves. -/
theorem inert_step (hS : Sizes p q) (hpq : p ≤ q) (Q : AggC.Params p G) (cv : Curve p q G) (z : CState p)
    (c : Nat → UTXO (ZMod p) G) (ct : Nat → Tx (ZMod p) G) (cs : Nat → G)
    (hc : RootOf Q.hs (utxoEncVar cv) 32 c z.utxoRoot) (hct : RootOf Q.hs (txEncVar cv) 13 ct z.txRoot)
    (hcs : RootOf Q.hs (pkEncVar cv) 13 cs z.signerRoot) (pk : G) (hpk : pk ≠ Q.contract) (tx : Tx (ZMod p) G)
    (owned : OwnedBy pk tx.inputs.toList)
    (sums : ((totalVal tx.inputs.toList : Nat) : ZMod p) = (totalVal tx.outputs.toList : Nat))
    (range : ∀ u ∈ tx.outputs.toList, u.amount.val < 2 ^ 64)
    (noContract : totalVal (tx.outputs.toList.filter fun u => u.pk = Q.contract) = 0)
    (len : tx.inputs.toList.length = 4 ∧ tx.outputs.toList.length = 4)
    (ht0 : ct (z.step.val % TX_CAP) = Tx.default) :
    ∃ i z', i.tx = tx ∧ i.authorised Q cv z.txRootFinal = false ∧ AggC.stepOne Q cv z i z' ∧
      z'.utxoRoot = z.utxoRoot ∧ z'.signerRoot = z.signerRoot ∧ z'.depositAcc = z.depositAcc ∧
      z'.withdrawalAcc = z.withdrawalAcc ∧
      z'.signerAcc = shaField p Q.sha (signerInput cv z.signerAcc 0) ∧ z'.step = z.step + 1 ∧
      z'.txRootFinal = z.txRootFinal ∧
      RootOf Q.hs (txEncVar cv) 13 (write ct (z.step.val % TX_CAP) tx) z'.txRoot := by
  have fit0 : ∀ (on : UTXO (ZMod p) G → Bool) (o n : UTXO (ZMod p) G → UTXO (ZMod p) G)
      (l : List (UTXO (ZMod p) G)) (c : Nat → UTXO (ZMod p) G), (∀ u, on u = false) → l.length = 4 →
      fits on o n c l [0, 0, 0, 0] := by
    intro on o n l c hon hl
    rcases l with _ | ⟨a, _ | ⟨b, _ | ⟨d, _ | ⟨e, _ | ⟨f, l⟩⟩⟩⟩⟩ <;> simp at hl
    simp [fits, hon]
  obtain ⟨i, z', h1, h2, h3, h4, h5, h6, h7, h8⟩ := one_complete_tx hS hpq Q cv z c ct cs hc hct hcs tx pk
    (List.replicate (Circuit.modBits q) true) (List.replicate (Circuit.modBits q) true) (by simp) (by simp)
    [0, 0, 0, 0] [0, 0, 0, 0] owned sums (fun _ => ⟨range, by rw [noContract]; norm_num⟩)
    false (by simp [ones_not_lt]) (fit0 _ _ _ _ _ (by simp) len.1) (fit0 _ _ _ _ _ (by simp [hpk]) len.2)
    ht0 (by simp [hpk])
  have hna : i.authorised Q cv z.txRootFinal = false := by
    simp [CInputs.authorised, h5, h2, hpk]
  obtain ⟨n1, n2, n3, n4⟩ := C52_unauthorised_is_inert hS Q cv z z' i h6 hna
  have fs := (AggC.stepOne_iff hS Q cv z i z').1 h6
  refine ⟨i, z', h1, hna, h6, n1, n2, n3, ?_, n4, fs.step, fs.final, h8⟩
  rcases fs.books with ⟨_, _, b⟩ | ⟨_, _, _, _, b⟩
  · exact b
  · have ew : i.withdrawn Q = 0 := by unfold CInputs.withdrawn; rw [h1, noContract]
    rw [b]
    simp [withdrawalList, ew, chain]

/-- **C108** (finding): balances out of nothing. On top of any ledger, with nothing deposited, withdrawn,
signed or written to the ledger, there is an accepted block (two transactions, from the empty transaction and
signer trees) from which every user `k` counts any 64-bit amount. It lists an unsigned transaction paying `k`
out of a UTXO of the identity key, which every unused leaf of the signer tree stands for. -/
theorem C108_balance_out_of_nothing (hS : Sizes p q) (h : FieldOk p) (hpq : p ≤ q) (Q : AggC.Params p G)
    (P : Client.Params p) (hh : Q.hs = P.hs) (cv : Curve p q G) (hc0 : Q.contract ≠ 0) (u : ZMod p)
    (c : Nat → UTXO (ZMod p) G) (hc : RootOf Q.hs (utxoEncVar cv) 32 c u) (st : Contract.State G)
    (k : G) (hk : k ≠ 0) (hkc : k ≠ Q.contract) (m : Nat) (hm : m < 2 ^ 64) :
    ∃ e : Epoch p G, e.Accepted Q cv u ∧ e.reg = st ∧ e.block.utxoRoot = u ∧ e.block.deposits = [] ∧
      e.block.withdrawals = [] ∧ e.block.signers = [none, none] ∧
      e.txs.map (·.tx) = [Tx.default, smallTx (UTXO.new 0 (m : ZMod p)) (UTXO.new k (m : ZMod p)) UTXO.dummy] ∧
      (∀ i ∈ e.txs, i.authorised Q cv e.final = false) ∧
      RootOf Q.hs (txEncVar cv) 13 (fun _ => Tx.default) e.tx0 ∧
      RootOf Q.hs (pkEncVar cv) 13 (fun _ => 0) e.signer0 ∧
      ∀ z : UState p, ReadyFor cv P.hs k e.block.alloc.height z →
        (P.hs.crh (blockEncVar e.block.alloc) = z.prevBlockHash → z.prevTxIndex = 0) →
        ∃ (a : UserAuxVar p G) (z' : UState p), a.block = e.block.alloc ∧ a.pk = k ∧
          updateBalance P cv 1 z a z' ∧ z'.balance = z.balance + (m : ZMod p) ∧
          (NotPadding cv P.hs (smallTx (UTXO.new 0 (m : ZMod p)) (UTXO.new k (m : ZMod p)) UTXO.dummy) →
            ∃ s ∈ a.shown, s.counts cv P.hs = true) := by
  have hl := hS.large
  have hva : ((m : ZMod p)).val = m := by rw [ZMod.val_natCast, Nat.mod_eq_of_lt (by omega)]
  have hP0 : ((UTXO.dummy : UTXO (ZMod p) G).amount).val = 0 := by simp [UTXO.dummy]
  have hd0 : (UTXO.dummy : UTXO (ZMod p) G).pk = 0 := rfl
  have hdi : (Tx.default : Tx (ZMod p) G).inputs.toList = List.replicate 4 UTXO.dummy := rfl
  have hdo : (Tx.default : Tx (ZMod p) G).outputs.toList = List.replicate 4 UTXO.dummy := rfl
  let tx : Tx (ZMod p) G := smallTx (UTXO.new 0 (m : ZMod p)) (UTXO.new k (m : ZMod p)) UTXO.dummy
  let ct : Nat → Tx (ZMod p) G := write (fun _ => Tx.default) 1 tx
  let t0 : ZMod p := merkleRoot (fun l => Q.hs.crh (txEncVar cv l)) Q.hs.h2 13 (fun _ => Tx.default)
  let f : ZMod p := merkleRoot (fun l => Q.hs.crh (txEncVar cv l)) Q.hs.h2 13 ct
  let s0 : ZMod p := merkleRoot (fun l => Q.hs.crh (pkEncVar cv l)) Q.hs.h2 13 (fun _ => (0 : G))
  let z : CState p := initState u t0 f s0
  have hz0 : z.step.val % TX_CAP = 0 := by simp [z, initState]
  obtain ⟨i1, z1, a1, a2, a3, a4, a5, a6, a7, a8, a9, a10, a11⟩ := inert_step hS hpq Q cv z c
    (fun _ => Tx.default) (fun _ => 0) hc rfl rfl 0 (Ne.symm hc0) Tx.default
    (by intro u hu hd; rw [hdi, List.mem_replicate] at hu; rw [hu.2] at hd; cases hd)
    (by rw [hdi, hdo])
    (by intro u hu; rw [hdo, List.mem_replicate] at hu; rw [hu.2, hP0]; norm_num)
    (by rw [hdo]; simp [hd0, Ne.symm hc0, totalVal]) (by simp) rfl
  have hw : write (fun _ => (Tx.default : Tx (ZMod p) G)) (z.step.val % TX_CAP) Tx.default = fun _ => Tx.default := by
    funext j; unfold write; split <;> rfl
  rw [hw] at a11
  have hz1 : z1.step.val % TX_CAP = 1 := by
    have : Fact (1 < p) := ⟨by omega⟩
    have : z1.step = 1 := by rw [a9]; simp [z, initState]
    rw [this, ZMod.val_one]; rfl
  obtain ⟨i2, z2, b1, b2, b3, b4, b5, b6, b7, b8, b9, b10, b11⟩ := inert_step hS hpq Q cv z1 c
    (fun _ => Tx.default) (fun _ => 0) (by rw [a4]; exact hc) a11 (by rw [a5]; rfl) 0 (Ne.symm hc0) tx
    (by intro u hu hd; rw [smallTx_inputs] at hu; simp at hu; rcases hu with rfl | rfl <;> first | rfl | cases hd)
    (by simp [tx, smallTx_inputs, smallTx_outputs, totalVal, UTXO.new, dummy_isDummy])
    (by
      intro u hu
      simp only [tx, smallTx_outputs, List.mem_cons, List.not_mem_nil, or_false] at hu
      rcases hu with rfl | rfl | rfl | rfl
      · show ((m : ZMod p)).val < _; rw [hva]; exact hm
      all_goals rw [hP0]; norm_num)
    (by
      simp [tx, smallTx_outputs, UTXO.new, hkc, hd0, Ne.symm hc0, totalVal])
    (by simp) rfl
  rw [hz1] at b11
  let e : Epoch p G :=
    { reg := st
      block := { utxoRoot := u, txRoot := f, signerRoot := s0, signers := [none, none], height := 0,
                 deposits := [], withdrawals := [] }
      batches := [[i1, i2]], final := f, tx0 := t0, signer0 := s0 }
  have ht : z2.txRoot = f := b11
  have hacc : e.Accepted Q cv u := by
    refine ⟨⟨by simp [e], by simp [e]⟩, z2, ?_, ?_⟩
    · exact ⟨z2, ⟨z1, a3, z2, b3, rfl⟩, rfl⟩
    · have hs : signerAcc cv Q.sha st.pks [none, none] 0 =
          .ok (chain (shaField p Q.sha) (signerInput cv) 0 [0, 0]) :=
        (signerAcc_ok cv Q.sha st.pks _ _ _).2 ⟨[0, 0], rfl, rfl⟩
      have hd : amountAcc cv Q.sha st.pks [] 0 = .ok 0 := rfl
      show derivePublicInputs cv Q.sha st _ = _
      unfold derivePublicInputs
      simp only [e, hs, hd]
      congr 1
      simp only [CState.toList, b4, b5, b6, b7, b8, b9, b10, a4, a5, a6, a7, a8, a9, a10, ht]
      simp [z, initState, chain]
      norm_num
  refine ⟨e, hacc, rfl, rfl, rfl, rfl, rfl, ?_, ?_, rfl, rfl, ?_⟩
  · show [i1.tx, i2.tx] = _
    rw [a1, b1]
  · intro i hi
    simp only [e, Epoch.txs, List.flatten_cons, List.flatten_nil, List.append_nil, List.mem_cons,
      List.not_mem_nil, or_false] at hi
    rcases hi with rfl | rfl
    · exact a2
    · have : z1.txRootFinal = f := a10
      rw [this] at b2; exact b2
  · intro w hw' hnew
    have hcm : Commits cv P.hs e.block.alloc ct (fun _ => 0) := by
      refine ⟨?_, ?_, ?_⟩
      · rw [← hh]; rfl
      · rw [← hh]; rfl
      · show (((0 : Nat) : ZMod p)).val + 1 ≤ _
        rw [Nat.cast_zero, ZMod.val_zero]; omega
    have hct : ct 1 = tx := by simp [ct, write]
    obtain ⟨w', e1, e2, -⟩ := picks_step h P cv e.block.alloc ct (fun _ => 0) hcm k w hw' [⟨tx, 1, 0⟩]
      { half := by simp; omega
        included := by intro x hx _; rw [List.mem_singleton.1 hx]; exact hct
        signer := by
          intro x hx _; rw [List.mem_singleton.1 hx]
          refine ⟨by norm_num, ?_⟩
          simp [tx, smallTx, Tx.getSigner, UTXO.new, UTXO.dummy, Circuit.select]
        above := by
          intro x hx _; rw [List.mem_singleton.1 hx]
          show _ < 1
          split
          · next he => rw [hnew he, ZMod.val_zero]; norm_num
          · norm_num
        ordered := List.pairwise_singleton _ _ }
    refine ⟨_, w', rfl, rfl, e1, ?_, fun hnp => ⟨Pick.shown cv P.hs ct (fun _ => 0) ⟨tx, 1, 0⟩, ?_, ?_⟩⟩
    rotate_left
    · rw [mkAux_shown]; simp
    · rw [shown_counts]; exact hnp
    rw [e2]
    simp [delta, received, spent, tx, smallTx_inputs, smallTx_outputs, UTXO.new, UTXO.dummy, List.filter_cons,
      Ne.symm hk]

/-- Hashes that tell padding from other transactions and nothing else. -/
noncomputable def padHs (cv : Curve p q G) : Hashes p :=
  ⟨fun l => by classical exact if l = txEncVar cv (Tx.default : Tx (ZMod p) G) then 0 else 1, fun _ _ => 0⟩

/-- Non-vacuity of C108, over the fields and the group order used in the repository: an accepted block, and a
client that counts a transaction of it that is not padding (so the hypotheses of `C108_block_lists`,
`C108_counted_listed` and `C108_countable` are met together). -/
example (P : Client.Params bn254r) (hP : P.hs = padHs bnCurve) :
    ∃ (e : Epoch bn254r (ZMod grumpkinQ)) (u : ZMod bn254r) (x : CInputs bn254r (ZMod grumpkinQ))
      (a : UserAuxVar bn254r (ZMod grumpkinQ)) (z z' : UState bn254r) (s : Shown bn254r (ZMod grumpkinQ)),
    e.Accepted ⟨P.hs, toySha, ((1 : Nat) : ZMod grumpkinQ), false⟩ bnCurve u ∧ e.txs.length ≤ TX_CAP ∧
    RootOf P.hs (txEncVar bnCurve) 13 (fun _ => Tx.default) e.tx0 ∧
    RootOf P.hs (pkEncVar bnCurve) 13 (fun _ => 0) e.signer0 ∧
    e.txs[1]? = some x ∧ x.tx.getSigner = 0 ∧ NotPadding bnCurve P.hs x.tx ∧
    a.block = e.block.alloc ∧ updateBalance P bnCurve 1 z a z' ∧ s ∈ a.shown ∧
    s.counts bnCurve P.hs = true := by
  have h2 : ((2 : Nat) : ZMod grumpkinQ) ≠ 0 := by
    have := bn_ne (i := 2) (j := 0) (by decide); rwa [Nat.cast_zero] at this
  have h1 : ((1 : Nat) : ZMod grumpkinQ) ≠ 0 := by
    have := bn_ne (i := 1) (j := 0) (by decide); rwa [Nat.cast_zero] at this
  obtain ⟨e, g1, -, -, -, -, -, g7, -, g9, g10, g11⟩ := C108_balance_out_of_nothing sizes_bn254 fieldOk_bn254 bn254_le
    ⟨P.hs, toySha, ((1 : Nat) : ZMod grumpkinQ), false⟩ P rfl bnCurve
    h1
    _ (fun _ => UTXO.dummy) rfl (Contract.new ((1 : Nat) : ZMod grumpkinQ)) ((2 : Nat) : ZMod grumpkinQ) h2 (bn_ne (by decide)) 7 (by norm_num)
  have hnp : NotPadding bnCurve P.hs (smallTx (UTXO.new 0 ((7 : Nat) : ZMod bn254r))
      (UTXO.new ((2 : Nat) : ZMod grumpkinQ) ((7 : Nat) : ZMod bn254r)) UTXO.dummy) := by
    rw [hP]
    have hx : txEncVar bnCurve (smallTx (UTXO.new 0 ((7 : Nat) : ZMod bn254r))
        (UTXO.new ((2 : Nat) : ZMod grumpkinQ) ((7 : Nat) : ZMod bn254r)) UTXO.dummy) ≠
        txEncVar bnCurve (Tx.default : Tx (ZMod bn254r) (ZMod grumpkinQ)) := by
      intro hx
      have := congrArg (fun t => t.inputs.toList.map (·.isDummy)) (txEncVar_inj bnCurve (one_lt_p sizes_bn254) hx)
      simp only [smallTx_inputs] at this
      cases this
    unfold NotPadding padHs
    simp only [hx, if_true, if_false]
    have : Fact (1 < bn254r) := ⟨one_lt_p sizes_bn254⟩
    exact one_ne_zero
  obtain ⟨i1, i2, hi⟩ : ∃ i1 i2, e.txs = [i1, i2] := by
    rcases ht : e.txs with _ | ⟨i1, _ | ⟨i2, _ | ⟨i3, l⟩⟩⟩ <;> rw [ht] at g7 <;> simp at g7
    exact ⟨i1, i2, rfl⟩
  rw [hi] at g7
  have g7' : i2.tx = _ := (List.cons.inj (List.cons.inj g7).2).1
  obtain ⟨a, z', k1, -, k3, -, k5⟩ := g11 (freshUser bnCurve P.hs ((2 : Nat) : ZMod grumpkinQ))
    (fresh_ready _ _ _ _) (fun _ => rfl)
  obtain ⟨s, s1, s2⟩ := k5 hnp
  refine ⟨e, _, i2, a, _, z', s, g1, by rw [hi]; show 2 ≤ 4096; norm_num, g9, g10, by rw [hi]; rfl, ?_, ?_, k1, k3, s1, s2⟩
  · rw [g7']; rfl
  · rw [g7']; exact hnp

end PF.Props
