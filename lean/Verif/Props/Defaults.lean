import Verif.Props.Witness
import Verif.Props.AggregatorExact
import Verif.Props.Client

/-!
# Property C107: default proofs and default witnesses
-/

set_option linter.unusedSectionVars false

namespace PF.Props
open PF PF.MT PF.Spec PF.Circuit
variable {L D G : Type} {p q : Nat} [AddCommGroup G] [Module (ZMod q) G] [DecidableEq G]

/-! ## default proofs -/

theorem verifyLoop_default [DecidableEq D] (h2 : D → D → D) (d : D) (n : Nat) (prev x : D) :
    verifyLoop h2 (List.replicate (n + 1) (d, d)) prev = some x ↔
      prev = d ∧ (1 ≤ n → h2 d d = d) ∧ x = h2 d d := by
  induction n generalizing prev with
  | zero =>
    simp only [List.replicate, verifyLoop, and_self]
    by_cases h : prev = d
    · simp [h, eq_comm]
    · simp [h]
  | succ n ih =>
    rw [List.replicate_succ, verifyLoop]
    by_cases h : prev = d
    · rw [if_neg (by simp [h]), ih]
      constructor
      · rintro ⟨a, b, c⟩; exact ⟨h, fun _ => a, c⟩
      · rintro ⟨_, b, c⟩; exact ⟨b (by omega), fun _ => b (by omega), c⟩
    · rw [if_pos (by simp [h])]; simp [h]

/-- **C107** (membership): a default path has the length verification asks for, and is accepted for a leaf and a
root exactly if the leaf digest is the default digest, the default digest is its own compression (trees with inner
levels), and the root is the compression of two default digests. -/
theorem C107_default_membership [DecidableEq D] (cfg : MT.Config L D) (hH : 2 ≤ cfg.height) (d root : D) (leaf : L) :
    (MT.defaultPath d cfg).length = cfg.height - 1 ∧
    (MT.verify cfg (MT.defaultPath d cfg) root leaf = true ↔
      cfg.leafHash leaf = d ∧ (3 ≤ cfg.height → cfg.h2 d d = d) ∧ root = cfg.h2 d d) := by
  refine ⟨by simp [MT.defaultPath], ?_⟩
  obtain ⟨n, hn⟩ : ∃ n, cfg.height = n + 2 := ⟨cfg.height - 2, by omega⟩
  have hp : MT.defaultPath d cfg = List.replicate (n + 1) (d, d) := by simp [MT.defaultPath, hn]
  rw [hp]
  unfold MT.verify
  rw [if_neg (by simp [hn])]
  rw [List.replicate_succ]
  dsimp only
  rw [← List.replicate_succ]
  by_cases h : cfg.leafHash leaf = d
  · rw [if_neg (by simp [h])]
    cases hv : verifyLoop cfg.h2 (List.replicate (n + 1) (d, d)) (cfg.leafHash leaf) with
    | none =>
      simp only [Bool.false_eq_true, false_iff]
      rintro ⟨a, b, c⟩
      have := (verifyLoop_default cfg.h2 d n (cfg.leafHash leaf) (cfg.h2 d d)).2 ⟨a, fun hh => b (by omega), rfl⟩
      rw [hv] at this; cases this
    | some x =>
      obtain ⟨a, b, rfl⟩ := (verifyLoop_default cfg.h2 d n _ x).1 hv
      simp only [ne_eq, ite_not]
      constructor
      · intro hr
        exact ⟨a, fun hh => b (by omega), by by_contra hc; simp [hc] at hr⟩
      · rintro ⟨_, _, hr⟩; simp [hr]
  · rw [if_pos (by simp [h])]; simp [h]

/-- **C107** (gadgets switched off): with a default proof every conditional check is satisfied when its condition is
false, whatever root, leaf and position. -/
theorem C107_default_switched_off (cfg : MT.Config L (ZMod p)) (hH : 2 ≤ cfg.height) (hb : cfg.height - 1 ≤ modBits p)
    (root root' : ZMod p) (leaf leaf' : L) (index : ZMod p) :
    condCheckMembership cfg (MT.defaultPath 0 cfg) root leaf false ∧
    condCheckMembershipIdx cfg (MT.defaultPath 0 cfg) root leaf index false ∧
    condCheckUpdate cfg (defaultTwoPaths 0 cfg) root root' leaf leaf' index false := by
  obtain ⟨n, hn⟩ : ∃ n, cfg.height = n + 2 := ⟨cfg.height - 2, by omega⟩
  refine ⟨⟨by simp [MT.defaultPath], ⟨0, 0, List.replicate n (0, 0), by simp [MT.defaultPath, hn, List.replicate_succ],
    true, by simp [condEq]⟩, ?_⟩, ⟨by simp [MT.defaultPath], ?_⟩, by simp [defaultTwoPaths], by simp [condEq], by simp [condEq]⟩
  · have key : ∀ (m : Nat) (prev : ZMod p), memGadgetLoop cfg.h2 false root (List.replicate m (0, 0)) prev := by
      intro m
      induction m with
      | zero => intro prev; simp [memGadgetLoop, condEq]
      | succ m ih =>
        intro prev
        rw [List.replicate_succ, memGadgetLoop]
        exact ⟨⟨true, by simp [condEq]⟩, ih _⟩
    exact key _ _
  · have key : ∀ (m : Nat) (bits : List Bool) (prev : ZMod p), m ≤ bits.length →
        memIdxGadgetLoop cfg.h2 false root (List.replicate m (0, 0)) bits prev := by
      intro m
      induction m with
      | zero => intro bits prev _; simp [memIdxGadgetLoop, condEq]
      | succ m ih =>
        intro bits prev hl
        cases bits with
        | nil => simp at hl
        | cons b bits =>
          rw [List.replicate_succ, memIdxGadgetLoop]
          exact ⟨by simp [condEq], ih bits _ (by simpa using hl)⟩
    refine key _ _ _ ?_
    simpa [toBitsLe, natBits_length] using hb

/-! ## default witnesses -/

/-- **C107** (client): a step with the default witness is accepted exactly if the state belongs to the identity key, has
seen no block above height zero and carries a small index (when the step has transactions at all). It leaves the
balance, folds in the hash of the all-zero block, and adds one to the nonce for each of its `n` padding transactions
(whose signer is the identity key). -/
theorem C107_default_user_step (h : Client.FieldOk p) (P : Client.Params p) (cv : Curve p q G) (n : Nat)
    (z z' : Client.UState p) :
    Client.updateBalance P cv n z (Client.UserAux.default p G n).alloc z' ↔
      (P.hs.crh (pkEnc cv (0 : G)) = z.pkHash ∧ z.prevBlockNumber = 0 ∧
        (1 ≤ n → P.hs.crh [0, 0, 0, 0] = z.prevBlockHash → z.prevTxIndex.val ≤ (p - 1) / 2)) ∧
      z' = { balance := z.balance
             nonce := z.nonce + n
             pkHash := z.pkHash
             acc := P.acc z.acc (P.hs.crh [0, 0, 0, 0])
             prevBlockHash := P.hs.crh [0, 0, 0, 0]
             prevBlockNumber := 0
             prevTxIndex := if P.hs.crh [0, 0, 0, 0] = z.prevBlockHash then z.prevTxIndex else 0 } := by
  have hp5 := h.large
  have hNZ : NeZero p := ⟨by omega⟩
  have hblk : (Client.UserAux.default p G n).alloc.block = ⟨0, 0, 0, 0⟩ := by
    simp [Client.UserAux.alloc, Client.UserAux.default, Block.alloc]
  have hpk : (Client.UserAux.default p G n).alloc.pk = 0 := rfl
  have hhash : (Client.UserAux.default p G n).alloc.hash P.hs = P.hs.crh [0, 0, 0, 0] := by
    unfold Client.UserAuxVar.hash; rw [hblk]; rfl
  have hsh : (Client.UserAux.default p G n).alloc.shown =
      List.replicate n ⟨Tx.default, 0, Client.defaultPath p TX_TREE_HEIGHT, Client.defaultPath p SIGNER_TREE_HEIGHT⟩ := by
    simp [Client.UserAuxVar.shown, Client.UserAux.alloc, Client.UserAux.default, AggC.default_alloc]
  rw [Client.step_iff h]
  have hloop : ∀ (m : Nat) (s : Client.Loop p),
      (Client.LoopFacts P cv ⟨0, 0, 0, 0⟩ (0 : G) s (List.replicate m
        ⟨Tx.default, 0, Client.defaultPath p TX_TREE_HEIGHT, Client.defaultPath p SIGNER_TREE_HEIGHT⟩) ↔
        (1 ≤ m → s.prevTxIndex.val ≤ (p - 1) / 2)) ∧
      Client.loopAt cv P.hs (0 : G) s (List.replicate m
        ⟨Tx.default, 0, Client.defaultPath p TX_TREE_HEIGHT, Client.defaultPath p SIGNER_TREE_HEIGHT⟩) =
        { s with nonce := s.nonce + m } := by
    intro m
    induction m with
    | zero => intro s; simp [Client.LoopFacts, Client.loopAt]
    | succ m ih =>
      intro s
      have hc := default_counts cv P.hs (⟨Tx.default, 0, Client.defaultPath p TX_TREE_HEIGHT,
        Client.defaultPath p SIGNER_TREE_HEIGHT⟩ : Client.Shown p G) rfl
      have haf : s.after cv P.hs (0 : G) ⟨Tx.default, 0, Client.defaultPath p TX_TREE_HEIGHT,
          Client.defaultPath p SIGNER_TREE_HEIGHT⟩ = { s with nonce := s.nonce + 1 } := by
        unfold Client.Loop.after
        rw [hc]
        simp [default_delta, default_getSigner]
      rw [List.replicate_succ, Client.LoopFacts, Client.loopAt_cons, haf]
      obtain ⟨i1, i2⟩ := ih { s with nonce := s.nonce + 1 }
      refine ⟨?_, ?_⟩
      · rw [i1]
        constructor
        · rintro ⟨a, _⟩ _; exact a.prevHalf
        · intro a
          refine ⟨⟨a (by omega), by simp, by simp [Client.defaultPath, TX_TREE_HEIGHT],
            by simp [Client.defaultPath, SIGNER_TREE_HEIGHT], ?_, ?_, ?_⟩, fun _ => a (by omega)⟩ <;>
          · intro hh; rw [hc] at hh; cases hh
      · rw [i2]; simp only; congr 1; push_cast; ring
  obtain ⟨l1, l2⟩ := hloop n (Client.loopStart P.hs z (Client.UserAux.default p G n).alloc)
  constructor
  · rintro ⟨f, rfl⟩
    have hl := f.loop
    rw [hblk, hpk, hsh] at hl
    have hl' := l1.1 hl
    refine ⟨⟨?_, ?_, ?_⟩, ?_⟩
    · rw [← f.key, hpk, pkEncVar_eq]
    · have := f.height
      rw [hblk] at this
      rw [← ZMod.val_eq_zero]; simpa using this
    · intro hn he
      have := hl' hn
      unfold Client.loopStart Client.startIndex at this
      rw [hhash, if_pos he] at this
      exact this
    · unfold Client.UState.after
      rw [hsh, hpk, l2, hhash, hblk]
      simp [Client.loopStart, Client.startIndex, hhash]
  · rintro ⟨⟨a, b, c⟩, rfl⟩
    refine ⟨⟨by simp [Client.UserAux.alloc, Client.UserAux.default], by simp [Client.UserAux.alloc, Client.UserAux.default],
      by simp [Client.UserAux.alloc, Client.UserAux.default], ?_, ?_, ?_, ?_⟩, ?_⟩
    · rw [← a, hpk, pkEncVar_eq]
    · rw [hblk, b]
    · rw [hblk]; simp; omega
    · rw [hblk, hpk, hsh]
      apply l1.2
      intro hn
      unfold Client.loopStart Client.startIndex
      rw [hhash]
      by_cases he : P.hs.crh [0, 0, 0, 0] = z.prevBlockHash
      · rw [if_pos he]; exact c hn he
      · rw [if_neg he]; simp
    · unfold Client.UState.after
      rw [hsh, hpk, l2, hhash, hblk]
      simp [Client.loopStart, Client.startIndex, hhash]

/-- **C107** (aggregator): a step with the default inputs is accepted, for a contract key other than the identity and
when the empty signature does not verify, exactly if the transaction root is the one computed upwards from the default
transaction with zero digests as neighbours; it then changes nothing except the counter and the signer accumulator,
which records the identity key. -/
theorem C107_default_aggregator_step (h : AggC.Sizes p q) (hpq : p ≤ q) (P : AggC.Params p G) (cv : Curve p q G)
    (z z' : AggC.CState p) (hc : P.contract ≠ 0)
    (hsig : Schnorr.verify cv P.hs.crh (0 : G) (txEnc cv Tx.default ++ [z.txRootFinal]) (0, 0) = false) :
    AggC.stepOne P cv z (AggC.CInputs.alloc (Wit.defaultInputs p q G)) z' ↔
      z.txRoot = climb P.hs.h2 (List.replicate 12 0) (P.hs.crh (txEnc cv (Tx.default : Tx Nat G))) (z.step.val % 4096) ∧
      z' = { z with
             step := z.step + 1
             signerAcc := shaField p P.sha (fBytes z.signerAcc ++ pkBytes cv (0 : G)) } := by
  have hauth : (AggC.CInputs.alloc (Wit.defaultInputs p q G)).signed cv P.hs z.txRootFinal = false := by
    rw [AggC.signed_alloc h.pos]; exact hsig
  have hau : (AggC.CInputs.alloc (Wit.defaultInputs p q G)).authorised P cv z.txRootFinal = false := by
    unfold AggC.CInputs.authorised
    rw [hauth]
    exact decide_eq_false hc.symm
  have hne : (AggC.CInputs.alloc (Wit.defaultInputs p q G)).senderPk ≠ P.contract := hc.symm
  have htx : (AggC.CInputs.alloc (Wit.defaultInputs p q G)).tx = Tx.default := AggC.default_alloc
  have her : (AggC.CInputs.alloc (Wit.defaultInputs p q G)).erases cv P.hs z.txRootFinal = [] := by
    unfold AggC.CInputs.erases; simp [hauth]
  have hin : (AggC.CInputs.alloc (Wit.defaultInputs p q G)).inserts P cv z.txRootFinal = [] := by
    unfold AggC.CInputs.inserts; simp [hau]
  have hsl : AggC.signerList P cv z.txRootFinal [AggC.CInputs.alloc (Wit.defaultInputs p q G)] = [0] := by
    simp [AggC.signerList, hau]
  have hsu : AggC.signerUpds P cv z.txRootFinal z.step [AggC.CInputs.alloc (Wit.defaultInputs p q G)] = [] := by
    simp [AggC.signerUpds, hau]
  have hwd : (AggC.CInputs.alloc (Wit.defaultInputs p q G)).withdrawn P = 0 := by
    unfold AggC.CInputs.withdrawn; rw [htx]
    simp [Tx.default, totalVal, UTXO.dummy, hc.symm, List.filter_replicate]
  have hdl : AggC.depositList P [AggC.CInputs.alloc (Wit.defaultInputs p q G)] = [] := by
    simp [AggC.depositList, hne]
  have hwl : AggC.withdrawalList P [AggC.CInputs.alloc (Wit.defaultInputs p q G)] = [] := by
    simp [AggC.withdrawalList, hwd]
  have htu : AggC.txUpds z.step [AggC.CInputs.alloc (Wit.defaultInputs p q G)] =
      [{ idx := z.step.val % 4096, old := Tx.default, new := Tx.default, sibs := List.replicate 12 0 }] := by
    simp only [AggC.txUpds, htx]; rfl
  have henc : txEncVar cv (Tx.default : Tx (ZMod p) G) = txEnc cv (Tx.default : Tx Nat G) := by
    rw [← AggC.default_alloc, AggC.txEncVar_alloc]
  rw [AggC.stepOne_iff h]
  constructor
  · intro f
    obtain ⟨_, t1, t2⟩ := htu ▸ f.tx
    have hu := f.utxo
    rw [her, hin] at hu
    have hsr := f.signer
    rw [hsu] at hsr
    have hsa := f.signerAcc
    rw [hsl] at hsa
    refine ⟨by rw [t1]; simp only [henc], ?_⟩
    have hb : z'.depositAcc = z.depositAcc ∧ z'.withdrawalAcc = z.withdrawalAcc := by
      rcases f.books with ⟨_, a, b⟩ | ⟨_, _, _, a, b⟩
      · exact ⟨a, b⟩
      · rw [hdl] at a; rw [hwl] at b; exact ⟨a, b⟩
    have e1 : z'.utxoRoot = z.utxoRoot := hu
    have e2 : z'.txRoot = z.txRoot := by rw [t2, t1]
    have e3 : z'.signerRoot = z.signerRoot := hsr
    have e4 : z'.signerAcc = shaField p P.sha (fBytes z.signerAcc ++ pkBytes cv (0 : G)) := hsa
    have e5 := f.step
    have e6 := f.final
    obtain ⟨_, _, _, _, _, _, _, _⟩ := z'
    simp only at e1 e2 e3 e4 e5 e6 hb
    rw [e1, e2, e3, e4, e5, e6, hb.1, hb.2]
  · rintro ⟨t1, rfl⟩
    refine ⟨⟨?_, ?_, ?_, ?_, ?_, ?_⟩, ?_, ?_, ?_, ?_, ?_, ?_, ?_, ?_, rfl, rfl⟩
    · simp [AggC.CInputs.alloc, Wit.defaultInputs, Schnorr.allocSig, natBits_length]
    · simp [AggC.CInputs.alloc, Wit.defaultInputs, Schnorr.allocSig, natBits_length]
    · rw [htx]
      refine ⟨by simp [AggC.CInputs.alloc, Wit.defaultInputs, TX_IO_SIZE], ?_⟩
      intro d hd
      rw [List.eq_of_mem_replicate hd]
      simp [UTXO_TREE_HEIGHT]
    · rw [htx]
      refine ⟨by simp [AggC.CInputs.alloc, Wit.defaultInputs, TX_IO_SIZE], ?_⟩
      intro d hd
      rw [List.eq_of_mem_replicate hd]
      simp [UTXO_TREE_HEIGHT]
    · rfl
    · rfl
    · rw [htx]; intro u hu; simp [Tx.default] at hu; simp [hu, UTXO.dummy]
    · rw [htx]; simp [Tx.default]
    · exact AggC.sigDefined_of_le h hpq cv P.hs _ _ (by
        simp [AggC.CInputs.alloc, Wit.defaultInputs, Schnorr.allocSig, natBits_length])
    · rw [her, hin]; rfl
    · rw [htu]
      refine ⟨by simp, by rw [t1]; simp only [henc], ?_⟩
      show z.txRoot = _
      rw [t1]; simp only [henc]
    · rw [hsu]; rfl
    · rw [hsl]; rfl
    · cases ht : P.transferOnly with
      | true => exact Or.inl ⟨rfl, rfl, rfl⟩
      | false =>
        refine Or.inr ⟨rfl, ?_, by rw [hwd]; exact (by decide : 0 < 2 ^ 64), by rw [hdl]; rfl, by rw [hwl]; rfl⟩
        rw [htx]; intro u hu; simp [Tx.default] at hu
        rw [hu]
        show (0 : ZMod p).val < 2 ^ 64
        simp

/-- Non-vacuity: hash functions under which a default path is accepted, and others under which it is not. -/
example : MT.verify (⟨id, fun a b => a + b, 0, 4⟩ : MT.Config Nat Nat) (MT.defaultPath 0 ⟨id, fun a b => a + b, 0, 4⟩) 0 0 = true ∧
    MT.verify (⟨id, fun a b => a + b + 1, 0, 4⟩ : MT.Config Nat Nat) (MT.defaultPath 0 ⟨id, fun a b => a + b + 1, 0, 4⟩) 0 0
      = false := by decide

/-- Non-vacuity: a state of the client from which the default step is accepted, for any parameters. -/
example (h : Client.FieldOk p) (P : Client.Params p) (cv : Curve p q G) :
    ∃ z z', Client.updateBalance P cv 3 z (Client.UserAux.default p G 3).alloc z' ∧ z'.nonce = 3 :=
  ⟨⟨0, 0, P.hs.crh (pkEnc cv (0 : G)), 0, 0, 0, 0⟩, _,
    (C107_default_user_step h P cv 3 _ _).2 ⟨⟨rfl, rfl, fun _ _ => by simp⟩, rfl⟩, by simp⟩

/-- Non-vacuity: a state from which a default step of the aggregator is accepted, and one from which it is not. -/
example (h : AggC.Sizes p q) (hpq : p ≤ q) (cv : Curve p q G) (P : AggC.Params p G) (hP : P.hs = Agg.oneHs p)
    (hc : P.contract ≠ 0) :
    ∃ z y, (∃ z', AggC.stepOne P cv z (AggC.CInputs.alloc (Wit.defaultInputs p q G)) z') ∧
      ¬ ∃ y', AggC.stepOne P cv y (AggC.CInputs.alloc (Wit.defaultInputs p q G)) y' := by
  have hp : 1 < p := lt_of_lt_of_le (by norm_num) h.large
  have hs : ∀ m, Schnorr.verify cv P.hs.crh (0 : G) m (0, 0) = false := by
    intro m; rw [hP]; exact (Agg.oneHs_verify hp (by omega) cv 0 m 0).2
  have : Fact (1 < p) := ⟨hp⟩
  let r := climb P.hs.h2 (List.replicate 12 0) (P.hs.crh (txEnc cv (Tx.default : Tx Nat G))) ((0 : ZMod p).val % 4096)
  refine ⟨⟨0, 0, r, 0, 0, 0, 0, 0⟩, ⟨0, 0, r + 1, 0, 0, 0, 0, 0⟩, ⟨_,
    (C107_default_aggregator_step h hpq P cv _ _ hc (hs _)).2 ⟨rfl, rfl⟩⟩, ?_⟩
  rintro ⟨y', hy⟩
  have := ((C107_default_aggregator_step h hpq P cv _ _ hc (hs _)).1 hy).1
  have h2 : r + 1 = r := this
  exact one_ne_zero (add_eq_left.1 h2)

end PF.Props
