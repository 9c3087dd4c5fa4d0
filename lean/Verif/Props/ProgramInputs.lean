import Verif.Proof.ProgramLayout
import Verif.Props.ProgramMeaning
import Verif.Props.ClientAccept

/-!
# C121: the new state is a function of the old state and the inputs, for every assignment

A program has variables for the state, variables for the external inputs (`Spec/Layout`) and variables introduced by the
gadgets, among them bits the prover chooses freely. The constraints leave no room in the latter: what a satisfying
assignment says about the new state is settled by the first two groups.
-/

set_option linter.unusedSectionVars false

namespace PF.Props
open PF PF.MT PF.Agg PF.Spec PF.AggC PF.Contract PF.Circuit
open PF.Wit (Shaped UserShaped)
open PF.Prog (Emits Computes Lib Assignment Satisfies Folded firstVars ForAgg ForClient Agree aggregatorLayout clientLayout inputVars
  clientTxVars)

variable {p q : Nat} {G : Type} [AddCommGroup G] [Module (ZMod q) G] [DecidableEq G]

theorem state_layout_length (z : CState p) : (z.toList.map (Prog.Value.field (G := G))).length = 8 := rfl

theorem ustate_layout_length (z : Client.UState p) : (z.toList.map (Prog.Value.field (G := G))).length = 7 := rfl

/-- The state is where `firstVars` says. -/
theorem fills_first {e : Assignment p G} {l : List (ZMod p)} (h : e.Fills 0 (l.map .field)) : (firstVars l.length).map e.f = l := by
  apply List.ext_getElem?
  intro k
  rw [firstVars, List.map_map, List.getElem?_map]
  by_cases hk : k < l.length
  · rw [List.getElem?_range hk, List.getElem?_eq_getElem hk]
    have := h k (.field l[k]) (by rw [List.getElem?_map, List.getElem?_eq_getElem hk]; rfl)
    rw [Nat.zero_add] at this
    exact congrArg some this
  · rw [List.getElem?_eq_none (by simpa using hk), List.getElem?_eq_none (by simpa using hk)]
    rfl

theorem first_fills {e : Assignment p G} {l : List (ZMod p)} (h : (firstVars l.length).map e.f = l) : e.Fills 0 (l.map .field) := by
  intro k v hk
  rw [List.getElem?_map] at hk
  obtain ⟨c, hc, rfl⟩ := Option.map_eq_some_iff.1 hk
  have hk' : k < l.length := (List.getElem?_eq_some_iff.1 hc).1
  rw [← h, firstVars, List.map_map, List.getElem?_map, List.getElem?_range hk'] at hc
  rw [Nat.zero_add]
  exact Option.some.inj hc

theorem fills_congr_state {e e' : Assignment p G} {z : List (ZMod p)} {l : List (Prog.Value p G)} {hi : Nat}
    (hz : (firstVars z.length).map e.f = (firstVars z.length).map e'.f) (ha : Agree z.length hi e e')
    (hl : (z.map Prog.Value.field ++ l).length ≤ hi) (hf : e.Fills 0 (z.map .field ++ l)) : e'.Fills 0 (z.map .field ++ l) := by
  rw [List.length_append, List.length_map] at hl
  rw [Prog.fills_append, List.length_map, Nat.zero_add] at hf ⊢
  exact ⟨first_fills (hz.symm.trans (fills_first hf.1)), Prog.fills_congr ha hl hf.2⟩

/-- The program of the set-up is the program of every step. -/
theorem setup_emits (h : Sizes p q) {P : Params p G} {cv : Curve p q G} {n : Nat} {z0 : CState p}
    {prog : List (Prog.Instr p G)} {out : List (Prog.Ref (ZMod p))}
    (hp : Emits Prog.StateW.refs
      (Prog.aggregatorStep P cv z0 (List.replicate n (CInputs.alloc (Wit.defaultInputs p q G)))) prog out)
    (z : CState p) (is : List (CInputs p G)) (hn : is.length = n) (hs : ∀ i ∈ is, Shaped q i) :
    Emits Prog.StateW.refs (Prog.aggregatorStep P cv z is) prog out := by
  obtain ⟨prog1, out1, hq⟩ := C119_aggregator_program h P cv n
  obtain ⟨a1, o1, q1, q2, q3⟩ := ((hq z0 _ List.length_replicate).1).2 fun i hi => by
    rw [List.eq_of_mem_replicate hi]
    exact default_shaped
  obtain ⟨a3, o3, q7, q8, q9⟩ := hp
  rw [q1] at q7
  cases q7
  rw [← q8, ← q9, q2, q3]
  exact ((hq z is hn).1).2 hs

theorem client_setup_emits (h : Client.FieldOk p) {hs : Hashes p} {A : Prog.AccKind} {cv : Curve p q G} {n : Nat}
    {z0 : Client.UState p} {prog : List (Prog.Instr p G)} {out : List (Prog.Ref (ZMod p))}
    (hp : Emits Prog.UStateW.refs (Prog.clientStep hs A cv n z0 (Client.UserAux.default p G n).alloc) prog out)
    (z : Client.UState p) (a : Client.UserAuxVar p G) (ha : UserShaped n a) :
    Emits Prog.UStateW.refs (Prog.clientStep hs A cv n z a) prog out := by
  obtain ⟨prog1, out1, hq⟩ := C119_client_program h hs A cv n
  have hd : UserShaped n (Client.UserAux.default p G n).alloc := by
    by_contra hc
    have := ((hq z0 (Client.UserAux.default p G n).alloc).2).2 hc
    obtain ⟨a, o, h1, -, -⟩ := hp
    rw [this] at h1
    cases h1
  obtain ⟨a1, o1, q1, q2, q3⟩ := ((hq z0 _).1).2 hd
  obtain ⟨a3, o3, q7, q8, q9⟩ := hp
  rw [q1] at q7
  cases q7
  rw [← q8, ← q9, q2, q3]
  exact ((hq z a).1).2 ha

/-- **C121** (aggregator): let `prog` be the program of the set-up with batch size `n`. Values for the variables the
gadgets introduce that satisfy it, with state `z` and inputs `is` in the leading variables and `z'` in the result, exist
exactly if the relation of the circuit holds of `z`, `is` and `z'`. -/
theorem C121_aggregator (h : Sizes p q) (P : Params p G) (cv : Curve p q G) (L : Lib p q G) (hL : ForAgg L P cv) (n : Nat)
    (z0 : CState p) (prog : List (Prog.Instr p G)) (out : List (Prog.Ref (ZMod p)))
    (hp : Emits Prog.StateW.refs
      (Prog.aggregatorStep P cv z0 (List.replicate n (CInputs.alloc (Wit.defaultInputs p q G)))) prog out)
    (z z' : CState p) (is : List (CInputs p G)) (hn : is.length = n) (hsh : ∀ i ∈ is, Shaped q i) :
    (∃ e : Assignment p G, Satisfies L e 0 prog ∧ e.Fills 0 (aggregatorLayout z is) ∧ out.map e.f = z'.toList) ↔
      stepBatch P cv z is z' := by
  have hp' := setup_emits h hp z is hn hsh
  constructor
  · rintro ⟨e, he, hf, ho⟩
    obtain ⟨a, o, g1, rfl, rfl⟩ := hp'
    obtain ⟨zw, o1, o2, g2, g3, g4, -⟩ := Prog.bind_some g1
    obtain ⟨iw, o3, o4, g5, g6, g7, -⟩ := Prog.bind_some g3
    rw [aggregatorLayout, Prog.fills_append] at hf
    have w1 := Prog.width_of_lay (Prog.lay_allocState z) g2
    have a1 := Prog.assigned_of_fills (Prog.lay_allocState z) g2 hf.1
    rw [← w1] at hf
    have a2 := Prog.assigned_of_fills (Prog.lay_each Prog.lay_allocInputs is) g5 hf.2
    have hz := (Prog.hon_allocState (L := L) (e := e) z 0 zw o1 g2 a1).1
    have hi := (Prog.hon_each (L := L) (e := e) (fun i _ => Prog.hon_allocInputs i) _ iw o3 g5 a2).1
    have vi := Prog.sim_value (Prog.sim_eachR Prog.sim_allocInputs is) g5
    rw [List.map_id'] at vi
    have hr : List.Forall₂ (Prog.InReads e) iw is := Prog.forall₂_and_left vi hi fun _ _ => Prog.reads_inputs
    have hzr : zw.read e = z := by
      cases g2
      apply cstate_toList
      have := fills_first (e := e) (l := z.toList) hf.1
      exact this
    rw [g4, g7, List.map_append, List.map_append, Prog.satisfies_append, Prog.satisfies_append, Prog.width_results,
      Prog.width_results] at he
    have hs := Prog.snd_stepBatch hL zw iw is hr _ a o4 g6 he.2.2
    rw [hzr] at hs
    have e1 : a.read e = z' := cstate_toList ho
    rwa [e1] at hs
  · intro hs
    obtain ⟨a, o, g1, g2, g3⟩ := (C119_aggregator_values h P cv z z' is).2 hs
    obtain ⟨a', o', q1, q2, q3⟩ := hp'
    rw [g1] at q1
    cases q1
    obtain ⟨e, he⟩ := Prog.exists_assigned o.log
    have hh := Prog.hon_aggregatorStep (e := e) hL z is 0 a o g1 he
    refine ⟨e, q2 ▸ hh.2 g2, ?_, ?_⟩
    · obtain ⟨zw, o1, o2, r1, r2, r3, -⟩ := Prog.bind_some g1
      obtain ⟨iw, o3, o4, r5, r6, r7, -⟩ := Prog.bind_some r2
      rw [r3, r7, Prog.assigned_append, Prog.assigned_append] at he
      rw [aggregatorLayout, Prog.fills_append, Prog.fills_iff, Prog.fills_iff, ← Prog.lay_allocState z _ _ _ r1,
        ← Prog.lay_each Prog.lay_allocInputs is _ _ _ r5, ← Prog.assigned_flat, ← Prog.assigned_flat,
        ← Prog.width_of_lay (Prog.lay_allocState z) r1]
      exact ⟨he.1, he.2.1⟩
    · rw [← q3, refs_read, ← g3]
      have hw := hh.1
      unfold Prog.StateW.read Prog.StateW.val
      rw [hw.step, hw.utxoRoot, hw.txRoot, hw.txRootFinal, hw.signerRoot, hw.signerAcc, hw.depositAcc, hw.withdrawalAcc]

/-- **C121** (client): the same for the client's circuit. -/
theorem C121_client (h : Client.FieldOk p) (hs : Hashes p) (A : Prog.AccKind) (cv : Curve p q G)
    (L : Lib p q G) (hL : ForClient L hs A cv) (n : Nat) (z0 : Client.UState p) (prog : List (Prog.Instr p G)) (out : List (Prog.Ref (ZMod p)))
    (hp : Emits Prog.UStateW.refs (Prog.clientStep hs A cv n z0 (Client.UserAux.default p G n).alloc) prog out)
    (z z' : Client.UState p) (b : Client.UserAuxVar p G) (hb : UserShaped n b) :
    (∃ e : Assignment p G, Satisfies L e 0 prog ∧ e.Fills 0 (clientLayout z b) ∧ out.map e.f = z'.toList) ↔
      Client.updateBalance (A.params hs) cv n z b z' := by
  have hp' := client_setup_emits h hp z b hb
  constructor
  · rintro ⟨e, he, hf, ho⟩
    obtain ⟨a, o, g1, rfl, rfl⟩ := hp'
    obtain ⟨zw, o1, o2, g2, g3, g4, -⟩ := Prog.bind_some g1
    obtain ⟨bw, o3, o4, g5, g6, g7, -⟩ := Prog.bind_some g3
    rw [clientLayout, Prog.fills_append] at hf
    have w1 := Prog.width_of_lay (Prog.lay_allocUState z) g2
    rw [← w1] at hf
    have a2 := Prog.assigned_of_fills (Prog.lay_allocAux b) g5 hf.2
    have hi := (Prog.hon_allocAux (L := L) (e := e) b _ bw o3 g5 a2).1
    have hr := Prog.reads_aux hi (Prog.sim_value (Prog.sim_allocAux b) g5)
    have hzr : zw.read e = z := by
      cases g2
      apply ustate_toList
      exact fills_first (e := e) (l := z.toList) hf.1
    rw [g4, g7, List.map_append, List.map_append, Prog.satisfies_append, Prog.satisfies_append, Prog.width_results,
      Prog.width_results] at he
    have hs := Prog.snd_updateBalance hL n zw bw b hr _ a o4 g6 he.2.2
    rw [hzr] at hs
    have e1 : a.read e = z' := ustate_toList ho
    rwa [e1] at hs
  · intro hu
    obtain ⟨a, o, g1, g2, g3⟩ := (C119_client_values hs A cv n z z' b).2 hu
    obtain ⟨a', o', q1, q2, q3⟩ := hp'
    rw [g1] at q1
    cases q1
    obtain ⟨e, he⟩ := Prog.exists_assigned o.log
    have hh := Prog.hon_clientStep (e := e) hL n z b 0 a o g1 he
    refine ⟨e, q2 ▸ hh.2 g2, ?_, ?_⟩
    · obtain ⟨zw, o1, o2, r1, r2, r3, -⟩ := Prog.bind_some g1
      obtain ⟨bw, o3, o4, r5, r6, r7, -⟩ := Prog.bind_some r2
      rw [r3, r7, Prog.assigned_append, Prog.assigned_append] at he
      rw [clientLayout, Prog.fills_append, Prog.fills_iff, Prog.fills_iff, ← Prog.lay_allocUState z _ _ _ r1,
        ← Prog.lay_allocAux b _ _ _ r5, ← Prog.assigned_flat, ← Prog.assigned_flat,
        ← Prog.width_of_lay (Prog.lay_allocUState z) r1]
      exact ⟨he.1, he.2.1⟩
    · rw [← q3, urefs_read, ← g3]
      have hw := hh.1
      unfold Prog.UStateW.read Prog.UStateW.val
      rw [hw.balance, hw.nonce, hw.pkHash, hw.acc, hw.prevBlockHash, hw.prevBlockNumber, hw.prevTxIndex]

/-- **C121** (aggregator, extraction): the inputs can be read off any assignment, at the positions where they are
allocated, and with them the relation of the circuit holds if the assignment satisfies the program. -/
theorem C121_aggregator_inputs (h : Sizes p q) (P : Params p G) (cv : Curve p q G) (L : Lib p q G) (hL : ForAgg L P cv) (n : Nat)
    (z0 : CState p) (prog : List (Prog.Instr p G)) (out : List (Prog.Ref (ZMod p)))
    (hp : Emits Prog.StateW.refs
      (Prog.aggregatorStep P cv z0 (List.replicate n (CInputs.alloc (Wit.defaultInputs p q G)))) prog out)
    (e : Assignment p G) : ∃ (z z' : CState p) (is : List (CInputs p G)), is.length = n ∧ (∀ i ∈ is, Shaped q i) ∧
      e.Fills 0 (aggregatorLayout z is) ∧ (aggregatorLayout z is).length = 8 + n * inputVars q ∧ out.map e.f = z'.toList ∧
      (Satisfies L e 0 prog → stepBatch P cv z is z') := by
  obtain ⟨is, h1, h2, h3, h4⟩ := Prog.exists_each e (Q := Shaped q) (Prog.exists_inputs e q) n 8
  obtain ⟨z, hz⟩ : ∃ z : CState p, (firstVars 8).map e.f = z.toList :=
    ⟨⟨e.field 0, e.field 1, e.field 2, e.field 3, e.field 4, e.field 5, e.field 6, e.field 7⟩, rfl⟩
  obtain ⟨z', hz'⟩ : ∃ z' : CState p, out.map e.f = z'.toList := by
    obtain ⟨a, o, -, -, rfl⟩ := hp
    exact ⟨a.read e, rfl⟩
  have hf : e.Fills 0 (aggregatorLayout z is) := by
    rw [aggregatorLayout, Prog.fills_append, state_layout_length]
    exact ⟨first_fills (l := z.toList) hz, by rw [Nat.zero_add]; exact h4⟩
  refine ⟨z, z', is, h1, h2, hf, ?_, hz', fun hs => ?_⟩
  · rw [aggregatorLayout, List.length_append, state_layout_length, h3]
  · exact (C121_aggregator h P cv L hL n z0 prog out hp z z' is h1 h2).1 ⟨e, hs, hf, hz'⟩

/-- **C121** (client, extraction). -/
theorem C121_client_inputs (h : Client.FieldOk p) (hs : Hashes p) (A : Prog.AccKind) (cv : Curve p q G)
    (L : Lib p q G) (hL : ForClient L hs A cv) (n : Nat) (z0 : Client.UState p) (prog : List (Prog.Instr p G)) (out : List (Prog.Ref (ZMod p)))
    (hp : Emits Prog.UStateW.refs (Prog.clientStep hs A cv n z0 (Client.UserAux.default p G n).alloc) prog out)
    (e : Assignment p G) : ∃ (z z' : Client.UState p) (a : Client.UserAuxVar p G), UserShaped n a ∧
      e.Fills 0 (clientLayout z a) ∧ (clientLayout z a).length = 12 + n * clientTxVars ∧ out.map e.f = z'.toList ∧
      (Satisfies L e 0 prog → Client.updateBalance (A.params hs) cv n z a z') := by
  obtain ⟨a, h1, h2⟩ := Prog.exists_aux e n 7
  obtain ⟨z, hz⟩ : ∃ z : Client.UState p, (firstVars 7).map e.f = z.toList :=
    ⟨⟨e.field 0, e.field 1, e.field 2, e.field 3, e.field 4, e.field 5, e.field 6⟩, rfl⟩
  obtain ⟨z', hz'⟩ : ∃ z' : Client.UState p, out.map e.f = z'.toList := by
    obtain ⟨a, o, -, -, rfl⟩ := hp
    exact ⟨a.read e, rfl⟩
  have hf : e.Fills 0 (clientLayout z a) := by
    rw [clientLayout, Prog.fills_append, ustate_layout_length]
    exact ⟨first_fills (l := z.toList) hz, by rw [Nat.zero_add]; exact h2⟩
  refine ⟨z, z', a, h1, hf, ?_, hz', fun hu => ?_⟩
  · rw [clientLayout, List.length_append, ustate_layout_length, Prog.auxLayout_length h1]
    omega
  · exact (C121_client h hs A cv L hL n z0 prog out hp z z' a h1).1 ⟨e, hu, hf, hz'⟩

/-- **C121** (aggregator, no freedom): two satisfying assignments that agree on the state and on the inputs agree on the
new state. -/
theorem C121_aggregator_deterministic (h : Sizes p q) (P : Params p G) (cv : Curve p q G) (L : Lib p q G) (hL : ForAgg L P cv) (n : Nat)
    (z0 : CState p) (prog : List (Prog.Instr p G)) (out : List (Prog.Ref (ZMod p)))
    (hp : Emits Prog.StateW.refs
      (Prog.aggregatorStep P cv z0 (List.replicate n (CInputs.alloc (Wit.defaultInputs p q G)))) prog out)
    (e e' : Assignment p G) (he : Satisfies L e 0 prog) (he' : Satisfies L e' 0 prog)
    (hz : (firstVars 8).map e.f = (firstVars 8).map e'.f) (ha : Agree 8 (8 + n * inputVars q) e e') : out.map e.f = out.map e'.f := by
  obtain ⟨z, z1, is, h1, h2, h3, h4, h5, h6⟩ := C121_aggregator_inputs h P cv L hL n z0 prog out hp e
  obtain ⟨z2, hz2⟩ : ∃ z' : CState p, out.map e'.f = z'.toList := by
    obtain ⟨a, o, -, -, rfl⟩ := hp
    exact ⟨a.read e', rfl⟩
  have h7 := (C121_aggregator h P cv L hL n z0 prog out hp z z2 is h1 h2).1
    ⟨e', he', fills_congr_state (z := z.toList) hz ha (by rw [← h4]; exact Nat.le_refl _) h3, hz2⟩
  rw [h5, hz2, C86_aggregator_deterministic h P cv z z1 z2 [is] ⟨z1, h6 he, rfl⟩ ⟨z2, h7, rfl⟩]

/-- **C121** (client, no freedom). -/
theorem C121_client_deterministic (h : Client.FieldOk p) (hs : Hashes p) (A : Prog.AccKind) (cv : Curve p q G)
    (L : Lib p q G) (hL : ForClient L hs A cv) (n : Nat) (z0 : Client.UState p) (prog : List (Prog.Instr p G)) (out : List (Prog.Ref (ZMod p)))
    (hp : Emits Prog.UStateW.refs (Prog.clientStep hs A cv n z0 (Client.UserAux.default p G n).alloc) prog out)
    (e e' : Assignment p G) (he : Satisfies L e 0 prog) (he' : Satisfies L e' 0 prog)
    (hz : (firstVars 7).map e.f = (firstVars 7).map e'.f) (ha : Agree 7 (12 + n * clientTxVars) e e') : out.map e.f = out.map e'.f := by
  obtain ⟨z, z1, a, h1, h3, h4, h5, h6⟩ := C121_client_inputs h hs A cv L hL n z0 prog out hp e
  obtain ⟨z2, hz2⟩ : ∃ z' : Client.UState p, out.map e'.f = z'.toList := by
    obtain ⟨a, o, -, -, rfl⟩ := hp
    exact ⟨a.read e', rfl⟩
  have h7 := (C121_client h hs A cv L hL n z0 prog out hp z z2 a h1).1
    ⟨e', he', fills_congr_state (z := z.toList) hz ha (by rw [← h4]; exact Nat.le_refl _) h3, hz2⟩
  rw [h5, hz2, C86_client_deterministic h (A.params hs) cv n z z1 z2 [a] ⟨z1, h6 he, rfl⟩ ⟨z2, h7, rfl⟩]

/-- Runs of a program whose result is settled by the leading variables. -/
theorem folded_deterministic {L : Lib p q G} {prog : List (Prog.Instr p G)} {k hi : Nat} {out : List (Prog.Ref (ZMod p))}
    (hdet : ∀ e e' : Assignment p G, Satisfies L e 0 prog → Satisfies L e' 0 prog →
      (firstVars k).map e.f = (firstVars k).map e'.f → Agree k hi e e' → out.map e.f = out.map e'.f)
    {es es' : List (Assignment p G)} (ha : List.Forall₂ (Agree k hi) es es') {v v1 v2 : List (ZMod p)}
    (h1 : Folded L prog k out es v v1) (h2 : Folded L prog k out es' v v2) : v1 = v2 := by
  induction ha generalizing v with
  | nil => exact (show v1 = v from h1).trans (show v2 = v from h2).symm
  | cons hd _ ih =>
    obtain ⟨s1, f1, r1⟩ := h1
    obtain ⟨s2, f2, r2⟩ := h2
    rw [hdet _ _ s1 s2 (f1.trans f2.symm) hd] at r1
    exact ih r1 r2

/-- **C121** (folded steps of the aggregator, no freedom): two runs from the same state, with the same inputs in every
step, end in the same state. -/
theorem C121_aggregator_folded_deterministic (h : Sizes p q) (P : Params p G) (cv : Curve p q G) (L : Lib p q G)
    (hL : ForAgg L P cv) (n : Nat) (z0 : CState p) (prog : List (Prog.Instr p G)) (out : List (Prog.Ref (ZMod p)))
    (hp : Emits Prog.StateW.refs
      (Prog.aggregatorStep P cv z0 (List.replicate n (CInputs.alloc (Wit.defaultInputs p q G)))) prog out)
    (es es' : List (Assignment p G)) (ha : List.Forall₂ (Agree 8 (8 + n * inputVars q)) es es') (v v1 v2 : List (ZMod p))
    (h1 : Folded L prog 8 out es v v1) (h2 : Folded L prog 8 out es' v v2) : v1 = v2 :=
  folded_deterministic (fun e e' => C121_aggregator_deterministic h P cv L hL n z0 prog out hp e e') ha h1 h2

/-- **C121** (folded steps of the client, no freedom). -/
theorem C121_client_folded_deterministic (h : Client.FieldOk p) (hs : Hashes p) (A : Prog.AccKind) (cv : Curve p q G)
    (L : Lib p q G) (hL : ForClient L hs A cv) (n : Nat) (z0 : Client.UState p) (prog : List (Prog.Instr p G)) (out : List (Prog.Ref (ZMod p)))
    (hp : Emits Prog.UStateW.refs (Prog.clientStep hs A cv n z0 (Client.UserAux.default p G n).alloc) prog out)
    (es es' : List (Assignment p G)) (ha : List.Forall₂ (Agree 7 (12 + n * clientTxVars)) es es') (v v1 v2 : List (ZMod p))
    (h1 : Folded L prog 7 out es v v1) (h2 : Folded L prog 7 out es' v v2) : v1 = v2 :=
  folded_deterministic (fun e e' => C121_client_deterministic h hs A cv L hL n z0 prog out hp e e') ha h1 h2

end PF.Props
