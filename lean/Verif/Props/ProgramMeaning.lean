import Verif.Proof.ProgramComplete
import Verif.Props.Program
import Verif.Props.AggregatorCircuitRuns

/-!
# C120: what the constraint program says

The program emitted at set-up is read as a constraint system, with any assignment of values to its variables
(`Satisfies`). It relates the variables that hold the old state to the operands that hold the new one exactly as the
relations of the circuits do, which all other theorems about the circuits are about.
-/

set_option linter.unusedSectionVars false

namespace PF.Props
open PF PF.MT PF.Agg PF.Spec PF.AggC PF.Contract PF.Circuit
open PF.Wit (Shaped UserShaped)
open PF.Prog (Emits Computes Lib Assignment Satisfies Folded firstVars ForAgg ForClient)

variable {p q : Nat} {G : Type} [AddCommGroup G] [Module (ZMod q) G] [DecidableEq G]

theorem refs_read (e : Assignment p G) (a : Prog.StateW p) : a.refs.map e.f = (a.read e).toList := rfl

theorem urefs_read (e : Assignment p G) (a : Prog.UStateW p) : a.refs.map e.f = (a.read e).toList := rfl

theorem cstate_toList {z z' : CState p} (h : z.toList = z'.toList) : z = z' := by
  cases z; cases z'
  simpa [CState.toList] using h

theorem ustate_toList {z z' : Client.UState p} (h : z.toList = z'.toList) : z = z' := by
  cases z; cases z'
  simpa [Client.UState.toList] using h

/-- Any satisfying assignment of the program of an aggregator step. -/
theorem sound_aggregator {P : Params p G} {cv : Curve p q G} {L : Lib p q G} (hL : ForAgg L P cv) {z0 : CState p}
    {is0 : List (CInputs p G)} {prog : List (Prog.Instr p G)} {out : List (Prog.Ref (ZMod p))}
    (hp : Emits Prog.StateW.refs (Prog.aggregatorStep P cv z0 is0) prog out) {e : Assignment p G} (he : Satisfies L e 0 prog)
    {z z' : CState p} (hz : (firstVars 8).map e.f = z.toList) (hz' : out.map e.f = z'.toList) :
    ∃ is, is.length = is0.length ∧ stepBatch P cv z is z' := by
  obtain ⟨a, o, h1, rfl, rfl⟩ := hp
  obtain ⟨w, o1, o2, g1, g2, g3, -⟩ := Prog.bind_some h1
  have hw : w.read e = z := by
    cases g1
    exact cstate_toList hz
  rw [g3, List.map_append, Prog.satisfies_append, Prog.width_results] at he
  have key : Prog.Snd L e (Prog.each Prog.allocInputs is0 >>= fun iw => Prog.stepBatch P cv w iw) fun a =>
      ∃ vs, vs.length = is0.length ∧ stepBatch P cv (w.read e) vs (a.read e) := by
    refine Prog.snd_bind (Prog.snd_each Prog.snd_allocInputs _) fun iw hiw => ?_
    obtain ⟨vs, h1, h2⟩ := Prog.forall₂_exists hiw
    exact Prog.snd_weaken (Prog.snd_stepBatch hL w iw vs h2) fun a ha => ⟨vs, h1, ha⟩
  obtain ⟨vs, h2, h3⟩ := key _ a o2 g2 he.2
  have e1 : a.read e = z' := cstate_toList hz'
  rw [hw, e1] at h3
  exact ⟨vs, h2, h3⟩

/-- Any satisfying assignment of the program of a client step. -/
theorem sound_client {hs : Hashes p} {A : Prog.AccKind} {cv : Curve p q G} {L : Lib p q G}
    (hL : ForClient L hs A cv) {n : Nat}
    {z0 : Client.UState p} {a0 : Client.UserAuxVar p G} {prog : List (Prog.Instr p G)} {out : List (Prog.Ref (ZMod p))}
    (hp : Emits Prog.UStateW.refs (Prog.clientStep hs A cv n z0 a0) prog out) {e : Assignment p G} (he : Satisfies L e 0 prog)
    {z z' : Client.UState p} (hz : (firstVars 7).map e.f = z.toList) (hz' : out.map e.f = z'.toList) :
    ∃ a, Client.updateBalance (A.params hs) cv n z a z' := by
  obtain ⟨b, o, h1, rfl, rfl⟩ := hp
  obtain ⟨w, o1, o2, g1, g2, g3, -⟩ := Prog.bind_some h1
  have hw : w.read e = z := by
    cases g1
    exact ustate_toList hz
  rw [g3, List.map_append, Prog.satisfies_append, Prog.width_results] at he
  have key : Prog.Snd L e (Prog.allocAux a0 >>= fun aw => Prog.updateBalance hs A cv n w aw) fun b =>
      ∃ a, Client.updateBalance (A.params hs) cv n (w.read e) a (b.read e) := by
    refine Prog.snd_bind (Prog.snd_allocAux _) fun aw haw => ?_
    obtain ⟨a, ha⟩ := haw
    exact Prog.snd_weaken (Prog.snd_updateBalance hL n w aw a ha) fun b hb => ⟨a, hb⟩
  obtain ⟨a, h3⟩ := key _ b o2 g2 he.2
  have e1 : b.read e = z' := ustate_toList hz'
  rw [hw, e1] at h3
  exact ⟨a, h3⟩

/-- **C120** (aggregator): let `prog` be the program of the set-up with batch size `n`, whose first eight variables
hold the old state and whose operands `out` hold the new one. There are values for the other variables that satisfy
`prog` exactly if some `n` inputs take the old state to the new one in the relation of the aggregator's circuit. -/
theorem C120_aggregator (h : Sizes p q) (P : Params p G) (cv : Curve p q G) (L : Lib p q G) (hL : ForAgg L P cv) (n : Nat)
    (z0 : CState p) (prog : List (Prog.Instr p G)) (out : List (Prog.Ref (ZMod p)))
    (hp : Emits Prog.StateW.refs
      (Prog.aggregatorStep P cv z0 (List.replicate n (CInputs.alloc (Wit.defaultInputs p q G)))) prog out)
    (z z' : CState p) :
    (∃ e : Assignment p G, Satisfies L e 0 prog ∧ (firstVars 8).map e.f = z.toList ∧ out.map e.f = z'.toList) ↔
      ∃ is : List (CInputs p G), is.length = n ∧ stepBatch P cv z is z' := by
  constructor
  · rintro ⟨e, h1, h2, h3⟩
    obtain ⟨is, h4, h5⟩ := sound_aggregator hL hp h1 h2 h3
    exact ⟨is, by rw [h4, List.length_replicate], h5⟩
  · rintro ⟨is, hn, hs⟩
    obtain ⟨a, o, g1, g2, g3⟩ := (C119_aggregator_values h P cv z z' is).2 hs
    have hsh : ∀ i ∈ is, Shaped q i := by
      rw [← stepBatch_ends P cv z is, (Wit.sat_stepBatch h P cv z is z').2 hs]
      exact fun e => by cases e
    obtain ⟨prog1, out1, hq⟩ := C119_aggregator_program h P cv n
    obtain ⟨a1, o1, q1, q2, q3⟩ := ((hq z0 _ List.length_replicate).1).2 fun i hi => by
      rw [List.eq_of_mem_replicate hi]
      exact default_shaped
    obtain ⟨a2, o2, q4, q5, q6⟩ := ((hq z is hn).1).2 hsh
    obtain ⟨a3, o3, q7, q8, q9⟩ := hp
    rw [q1] at q7
    cases q7
    rw [g1] at q4
    cases q4
    rw [q2] at q8
    rw [q3] at q9
    subst q8 q9
    obtain ⟨e, he⟩ := Prog.exists_assigned o.log
    have hh := Prog.hon_aggregatorStep (e := e) hL z is 0 a o g1 he
    refine ⟨e, q5 ▸ hh.2 g2, ?_, ?_⟩
    · obtain ⟨w, o1, o2, r1, r2, r3, -⟩ := Prog.bind_some g1
      rw [r3, Prog.assigned_append] at he
      have hw := (Prog.hon_allocState (L := L) z 0 w o1 r1 he.1).1
      cases r1
      rw [show (firstVars 8).map e.f = [e.field 0, e.field 1, e.field 2, e.field 3, e.field 4, e.field 5, e.field 6, e.field 7]
        from rfl]
      have w0 : e.field 0 = z.step := hw.step
      have w1 : e.field 1 = z.utxoRoot := hw.utxoRoot
      have w2 : e.field 2 = z.txRoot := hw.txRoot
      have w3 : e.field 3 = z.txRootFinal := hw.txRootFinal
      have w4 : e.field 4 = z.signerRoot := hw.signerRoot
      have w5 : e.field 5 = z.signerAcc := hw.signerAcc
      have w6 : e.field 6 = z.depositAcc := hw.depositAcc
      have w7 : e.field 7 = z.withdrawalAcc := hw.withdrawalAcc
      rw [w0, w1, w2, w3, w4, w5, w6, w7]
      rfl
    · rw [← q6, refs_read, ← g3]
      have hw := hh.1
      unfold Prog.StateW.read Prog.StateW.val
      rw [hw.step, hw.utxoRoot, hw.txRoot, hw.txRootFinal, hw.signerRoot, hw.signerAcc, hw.depositAcc, hw.withdrawalAcc]

/-- **C120** (client): the same for the client's circuit, whose first seven variables hold the old state. -/
theorem C120_client (h : Client.FieldOk p) (hs : Hashes p) (A : Prog.AccKind) (cv : Curve p q G)
    (L : Lib p q G) (hL : ForClient L hs A cv) (n : Nat) (z0 : Client.UState p) (prog : List (Prog.Instr p G)) (out : List (Prog.Ref (ZMod p)))
    (hp : Emits Prog.UStateW.refs (Prog.clientStep hs A cv n z0 (Client.UserAux.default p G n).alloc) prog out)
    (z z' : Client.UState p) :
    (∃ e : Assignment p G, Satisfies L e 0 prog ∧ (firstVars 7).map e.f = z.toList ∧ out.map e.f = z'.toList) ↔
      ∃ a : Client.UserAuxVar p G, Client.updateBalance (A.params hs) cv n z a z' := by
  constructor
  · rintro ⟨e, h1, h2, h3⟩
    exact sound_client hL hp h1 h2 h3
  · rintro ⟨b, hb⟩
    obtain ⟨a, o, g1, g2, g3⟩ := (C119_client_values hs A cv n z z' b).2 hb
    obtain ⟨prog1, out1, ⟨a1, o1, q1, q2, q3⟩, ⟨a2, o2, q4, q5, q6⟩⟩ := C119_client_setup h hs A cv n z z0 z' b hb
    obtain ⟨a3, o3, q7, q8, q9⟩ := hp
    rw [q1] at q7
    cases q7
    rw [g1] at q4
    cases q4
    rw [q2] at q8
    rw [q3] at q9
    subst q8 q9
    obtain ⟨e, he⟩ := Prog.exists_assigned o.log
    have hh := Prog.hon_clientStep (e := e) hL n z b 0 a o g1 he
    refine ⟨e, q5 ▸ hh.2 g2, ?_, ?_⟩
    · obtain ⟨w, o1, o2, r1, r2, r3, -⟩ := Prog.bind_some g1
      rw [r3, Prog.assigned_append] at he
      have hw := (Prog.hon_allocUState (L := L) z 0 w o1 r1 he.1).1
      cases r1
      rw [show (firstVars 7).map e.f = [e.field 0, e.field 1, e.field 2, e.field 3, e.field 4, e.field 5, e.field 6] from rfl]
      have w0 : e.field 0 = z.balance := hw.balance
      have w1 : e.field 1 = z.nonce := hw.nonce
      have w2 : e.field 2 = z.pkHash := hw.pkHash
      have w3 : e.field 3 = z.acc := hw.acc
      have w4 : e.field 4 = z.prevBlockHash := hw.prevBlockHash
      have w5 : e.field 5 = z.prevBlockNumber := hw.prevBlockNumber
      have w6 : e.field 6 = z.prevTxIndex := hw.prevTxIndex
      rw [w0, w1, w2, w3, w4, w5, w6]
      rfl
    · rw [← q6, urefs_read, ← g3]
      have hw := hh.1
      unfold Prog.UStateW.read Prog.UStateW.val
      rw [hw.balance, hw.nonce, hw.pkHash, hw.acc, hw.prevBlockHash, hw.prevBlockNumber, hw.prevTxIndex]

/-- **C120** (folded steps of the aggregator): a run of `m` steps with the program of the set-up leads from one state
to another exactly if some `m` batches of `n` inputs do. -/
theorem C120_aggregator_folded (h : Sizes p q) (P : Params p G) (cv : Curve p q G) (L : Lib p q G) (hL : ForAgg L P cv)
    (n m : Nat) (z0 : CState p) (prog : List (Prog.Instr p G)) (out : List (Prog.Ref (ZMod p)))
    (hp : Emits Prog.StateW.refs
      (Prog.aggregatorStep P cv z0 (List.replicate n (CInputs.alloc (Wit.defaultInputs p q G)))) prog out)
    (z z' : CState p) :
    (∃ es : List (Assignment p G), es.length = m ∧ Folded L prog 8 out es z.toList z'.toList) ↔
      ∃ bs : List (List (CInputs p G)), bs.length = m ∧ (∀ b ∈ bs, b.length = n) ∧ runSteps P cv z bs z' := by
  induction m generalizing z with
  | zero =>
    constructor
    · rintro ⟨es, h1, h2⟩
      rw [List.length_eq_zero_iff.1 h1] at h2
      exact ⟨[], rfl, by simp, cstate_toList h2⟩
    · rintro ⟨bs, h1, -, h2⟩
      rw [List.length_eq_zero_iff.1 h1] at h2
      exact ⟨[], rfl, congrArg _ (show z' = z from h2)⟩
  | succ m ih =>
    have hout : ∀ e : Assignment p G, ∃ z1 : CState p, out.map e.f = z1.toList := by
      obtain ⟨a, o, -, -, rfl⟩ := hp
      exact fun e => ⟨a.read e, rfl⟩
    constructor
    · rintro ⟨es, h1, h2⟩
      match es, h1, h2 with
      | e :: es, h1, ⟨g1, g2, g3⟩ =>
        obtain ⟨z1, hz1⟩ := hout e
        obtain ⟨is, k1, k2⟩ := (C120_aggregator h P cv L hL n z0 prog out hp z z1).1 ⟨e, g1, g2, hz1⟩
        obtain ⟨bs, k3, k4, k5⟩ := (ih z1).1 ⟨es, by simpa using h1, hz1 ▸ g3⟩
        exact ⟨is :: bs, by simp [k3], by simpa using ⟨k1, k4⟩, z1, k2, k5⟩
    · rintro ⟨bs, h1, h2, h3⟩
      match bs, h1, h2, h3 with
      | b :: bs, h1, h2, ⟨z1, g1, g2⟩ =>
        obtain ⟨e, k1, k2, k3⟩ := (C120_aggregator h P cv L hL n z0 prog out hp z z1).2 ⟨b, h2 b List.mem_cons_self, g1⟩
        obtain ⟨es, k4, k5⟩ := (ih z1).2 ⟨bs, by simpa using h1, fun b hb => h2 b (List.mem_cons_of_mem _ hb), g2⟩
        exact ⟨e :: es, by simp [k4], k1, k2, k3 ▸ k5⟩

/-- **C120** (folded steps of the client). -/
theorem C120_client_folded (h : Client.FieldOk p) (hs : Hashes p) (A : Prog.AccKind) (cv : Curve p q G)
    (L : Lib p q G) (hL : ForClient L hs A cv) (n m : Nat) (z0 : Client.UState p) (prog : List (Prog.Instr p G)) (out : List (Prog.Ref (ZMod p)))
    (hp : Emits Prog.UStateW.refs (Prog.clientStep hs A cv n z0 (Client.UserAux.default p G n).alloc) prog out)
    (z z' : Client.UState p) :
    (∃ es : List (Assignment p G), es.length = m ∧ Folded L prog 7 out es z.toList z'.toList) ↔
      ∃ as : List (Client.UserAuxVar p G), as.length = m ∧ Client.runSteps (A.params hs) cv n z as z' := by
  induction m generalizing z with
  | zero =>
    constructor
    · rintro ⟨es, h1, h2⟩
      rw [List.length_eq_zero_iff.1 h1] at h2
      exact ⟨[], rfl, ustate_toList h2⟩
    · rintro ⟨bs, h1, h2⟩
      rw [List.length_eq_zero_iff.1 h1] at h2
      exact ⟨[], rfl, congrArg _ (show z' = z from h2)⟩
  | succ m ih =>
    have hout : ∀ e : Assignment p G, ∃ z1 : Client.UState p, out.map e.f = z1.toList := by
      obtain ⟨a, o, -, -, rfl⟩ := hp
      exact fun e => ⟨a.read e, rfl⟩
    constructor
    · rintro ⟨es, h1, h2⟩
      match es, h1, h2 with
      | e :: es, h1, ⟨g1, g2, g3⟩ =>
        obtain ⟨z1, hz1⟩ := hout e
        obtain ⟨a, k2⟩ := (C120_client h hs A cv L hL n z0 prog out hp z z1).1 ⟨e, g1, g2, hz1⟩
        obtain ⟨as, k3, k5⟩ := (ih z1).1 ⟨es, by simpa using h1, hz1 ▸ g3⟩
        exact ⟨a :: as, by simp [k3], z1, k2, k5⟩
    · rintro ⟨bs, h1, h3⟩
      match bs, h1, h3 with
      | b :: bs, h1, ⟨z1, g1, g2⟩ =>
        obtain ⟨e, k1, k2, k3⟩ := (C120_client h hs A cv L hL n z0 prog out hp z z1).2 ⟨b, g1⟩
        obtain ⟨es, k4, k5⟩ := (ih z1).2 ⟨bs, by simpa using h1, g2⟩
        exact ⟨e :: es, by simp [k4], k1, k2, k3 ▸ k5⟩

/-- **C120** (accepted blocks): whatever values a prover assigns, if its run of the program of the set-up ends in the
public inputs the contract derives for a block, the value of the UTXO tree in the block is that of the tree the run
started from plus the deposits in the block minus withdrawals that the block lists, unless a hash function breaks. -/
theorem C120_block_value (h : Sizes p q) (P : Params p G) (hfull : P.transferOnly = false) (cv : Curve p q G)
    (L : Lib p q G) (hL : ForAgg L P cv) (n : Nat) (z0 : CState p) (prog : List (Prog.Instr p G))
    (out : List (Prog.Ref (ZMod p)))
    (hp : Emits Prog.StateW.refs
      (Prog.aggregatorStep P cv z0 (List.replicate n (CInputs.alloc (Wit.defaultInputs p q G)))) prog out)
    (s : State G) (b : Block (ZMod p)) (hb : BlockAmounts b) (u0 t0 f s0 : ZMod p) (es : List (Assignment p G))
    (v : List (ZMod p)) (hrun : Folded L prog 8 out es (initState u0 t0 f s0).toList v)
    (hpub : derivePublicInputs cv P.sha s b = .ok v)
    (c : Nat → UTXO (ZMod p) G) (hc : RootOf P.hs (utxoEncVar cv) 32 c u0) (hh : Healthy P.contract c) :
    ∃ txs : List (CInputs p G), txs.length = es.length * n ∧
      ((∃ c' w, RootOf P.hs (utxoEncVar cv) 32 c' b.utxoRoot ∧ Healthy P.contract c' ∧
        valueOf c' UTXO_CAP + w = valueOf c UTXO_CAP + sumAmounts b.deposits ∧ w ≤ sumAmounts b.withdrawals) ∨
      Collision P.hs (utxoEncVar cv) 32 c (ledgerUpds P cv f txs) ∨
      ∃ es es', ChainBreak (shaField p P.sha) (truncated p P.sha) (amountInput cv) 0 es es' ∧
        (b.deposits.map (entryOf s.pks) = es.map some ∧ es' = depositList P txs ∨
         b.withdrawals.map (entryOf s.pks) = es.map some ∧ es' = withdrawalList P txs)) := by
  have hv : ∀ (es : List (Assignment p G)) (z : CState p), Folded L prog 8 out es z.toList v → ∃ z' : CState p, v = z'.toList := by
    obtain ⟨a, o, -, -, rfl⟩ := hp
    intro es
    induction es with
    | nil => exact fun z h => ⟨z, h⟩
    | cons e es ih => exact fun z h => ih (a.read e) h.2.2
  obtain ⟨z', rfl⟩ := hv es _ hrun
  obtain ⟨bs, k1, k2, k3⟩ := (C120_aggregator_folded h P cv L hL n es.length z0 prog out hp _ z').1 ⟨es, rfl, hrun⟩
  refine ⟨bs.flatten, ?_, ?_⟩
  · rw [List.length_flatten, List.map_congr_left k2, List.map_const', List.sum_replicate, k1, smul_eq_mul]
  · rcases C74_block_value h P hfull cv s b hb u0 t0 f s0 bs z' k3 hpub c hc hh with ⟨c', h1, h2, h3, h4⟩ | h1 | h1
    · exact Or.inl ⟨c', _, h1, h2, h3, h4⟩
    · exact Or.inr (Or.inl h1)
    · exact Or.inr (Or.inr h1)

end PF.Props
