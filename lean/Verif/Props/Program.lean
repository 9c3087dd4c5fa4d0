import Verif.Proof.ProgramValues
import Verif.Props.Witness

/-!
# C119: one constraint program for all steps

`Emits`: a synthesis from an empty constraint system does not panic, emits the given straight-line program of gadget
calls and leaves its results in the given operands. `Computes`: the values assigned satisfy all constraints and the
results have the given value.
-/

set_option linter.unusedSectionVars false

namespace PF.Props
open PF PF.MT PF.Agg PF.Spec PF.AggC PF.Contract PF.Circuit
open PF.Wit (Shaped UserShaped)
open PF.Prog (Emits Computes)

variable {p q : Nat} {G : Type} [AddCommGroup G] [Module (ZMod q) G] [DecidableEq G]

theorem emits_of_same {α : Type} {vars : α → List (Prog.Ref (ZMod p))} {m m' : Prog.Tr p G α}
    (h : Prog.Same vars m m') {prog : List (Prog.Instr p G)} {out : List (Prog.Ref (ZMod p))} (h' : Emits vars m prog out) :
    Emits vars m' prog out := by
  obtain ⟨a, s, h1, h2, h3⟩ := h'
  rcases h 0 with ⟨e, -⟩ | ⟨a1, t1, a2, t2, e1, e2, e3, e4⟩
  · rw [h1] at e; cases e
  · rw [h1] at e1
    cases e1
    exact ⟨a2, t2, e2, by rw [← e4, h2], by rw [← e3, h3]⟩

theorem emits_of_sim {α β : Type} {vars : α → List (Prog.Ref (ZMod p))} {m : Prog.Tr p G α} {R : α → β → Prop}
    {n : Wit.Syn β} (h : Prog.Sim R m n) (hn : n.Ends) : ∃ prog out, Emits vars m prog out := by
  have := h 0
  cases n with
  | panic => exact absurd rfl hn
  | done ok b =>
    obtain ⟨a, t, e, -, -⟩ := this
    exact ⟨t.log.map Prog.Entry.instr, vars a, a, t, e, rfl, rfl⟩

theorem computes_of_sim {α β : Type} {vals : α → β} {m : Prog.Tr p G α} {n : Wit.Syn β}
    (h : Prog.Sim (fun a b => vals a = b) m n) (v : β) : Computes vals m v ↔ n.Sat v := by
  have := h 0
  cases n with
  | panic =>
    constructor
    · rintro ⟨a, s, e, -, -⟩
      rw [show m _ = none from this] at e
      cases e
    · intro e; cases e
  | done ok b =>
    obtain ⟨a, t, e, e1, e2⟩ := this
    constructor
    · rintro ⟨a', s', e', h1, h2⟩
      rw [e] at e'
      cases e'
      have : ok = true := by rw [← e2, h1]
      rw [Wit.Syn.Sat, this, ← h2, ← e1]
    · intro hs
      cases hs
      exact ⟨a, t, e, e2, e1⟩

theorem lens_of_shaped {i : CInputs p G} (h : Shaped q i) : Prog.lens i =
    (TX_TREE_HEIGHT - 1, List.replicate TX_IO_SIZE (UTXO_TREE_HEIGHT - 1), List.replicate TX_IO_SIZE (UTXO_TREE_HEIGHT - 1),
      SIGNER_TREE_HEIGHT - 1, modBits q, modBits q) := by
  have hr : ∀ l : List (ZMod p × List (ZMod p)), l.length = TX_IO_SIZE → (∀ d ∈ l, d.2.length = UTXO_TREE_HEIGHT - 1) →
      l.map (·.2.length) = List.replicate TX_IO_SIZE (UTXO_TREE_HEIGHT - 1) := by
    intro l h1 h2
    rw [List.eq_replicate_iff]
    refine ⟨by rw [List.length_map, h1], ?_⟩
    intro b hb
    obtain ⟨d, hd, rfl⟩ := List.mem_map.1 hb
    exact h2 d hd
  unfold Prog.lens
  rw [h.txProof, h.signerProof, h.sigS, h.sigE, hr _ h.dels h.delPaths, hr _ h.adds h.addPaths]

theorem lens_batch {is is' : List (CInputs p G)} (hn : is.length = is'.length) (h : ∀ i ∈ is, Shaped q i)
    (h' : ∀ i ∈ is', Shaped q i) : is.map Prog.lens = is'.map Prog.lens := by
  have key : ∀ is : List (CInputs p G), (∀ i ∈ is, Shaped q i) → is.map Prog.lens = List.replicate is.length
      (TX_TREE_HEIGHT - 1, List.replicate TX_IO_SIZE (UTXO_TREE_HEIGHT - 1), List.replicate TX_IO_SIZE (UTXO_TREE_HEIGHT - 1),
        SIGNER_TREE_HEIGHT - 1, modBits q, modBits q) := by
    intro is h
    rw [List.eq_replicate_iff]
    refine ⟨List.length_map _, ?_⟩
    intro b hb
    obtain ⟨i, hi, rfl⟩ := List.mem_map.1 hb
    exact lens_of_shaped (h i hi)
  rw [key is h, key is' h', hn]

theorem userLens_of_shaped {n : Nat} {a : Client.UserAuxVar p G} (h : UserShaped n a) : Prog.userLens a =
    (List.replicate n (TX_TREE_HEIGHT - 1), List.replicate n (SIGNER_TREE_HEIGHT - 1), n) := by
  have hr : ∀ (k : Nat) (l : List (List (ZMod p × ZMod p))), l.length = n → (∀ x ∈ l, x.length = k) →
      l.map List.length = List.replicate n k := by
    intro k l h1 h2
    rw [List.eq_replicate_iff]
    refine ⟨by rw [List.length_map, h1], ?_⟩
    intro b hb
    obtain ⟨d, hd, rfl⟩ := List.mem_map.1 hb
    exact h2 d hd
  unfold Prog.userLens
  rw [hr _ _ h.txProofs h.txPaths, hr _ _ h.signerProofs h.signerPaths, h.txs]

theorem Sizes.modBits_pos (h : Sizes p q) : 0 < modBits q := by
  unfold modBits
  exact Nat.size_pos.2 h.pos

theorem ends_of_emits {α β : Type} {vars : α → List (Prog.Ref (ZMod p))} {m : Prog.Tr p G α} {R : α → β → Prop}
    {n : Wit.Syn β} (h : Prog.Sim R m n) {prog : List (Prog.Instr p G)} {out : List (Prog.Ref (ZMod p))}
    (he : Emits vars m prog out) : n.Ends := by
  have := h 0
  obtain ⟨a, s, e, -, -⟩ := he
  cases n with
  | panic => rw [show m _ = none from this] at e; cases e
  | done ok b => exact fun h => by cases h

theorem stepBatch_ends (P : Params p G) (cv : Curve p q G) (z : CState p) (is : List (CInputs p G)) :
    (Wit.stepBatch P cv z is).Ends ↔ ∀ i ∈ is, Shaped q i := by
  have := C101_aggregator_panic P cv z [is]
  rw [Wit.runBatches, Wit.ends_seq _ _ fun z1 => show (Wit.runBatches P cv z1 []).Ends from Wit.ends_pure _] at this
  simpa using this

theorem updateBalance_ends (h : Client.FieldOk p) (P : Client.Params p) (cv : Curve p q G) (n : Nat)
    (z : Client.UState p) (a : Client.UserAuxVar p G) :
    (Wit.updateBalance P cv n z a).Ends ↔ UserShaped n a := by
  have := C101_client_panic h P cv n z [a]
  rw [Wit.runUser, Wit.ends_seq _ _ fun z1 => show (Wit.runUser P cv n z1 []).Ends from Wit.ends_pure _] at this
  simpa using this

/-- **C119** (aggregator): for every batch size there is one program such that every step, from any state and with
any inputs, emits exactly it and leaves the next state in the same variables, unless it panics; it panics only if
the inputs do not have the shape the source's types prescribe. -/
theorem C119_aggregator_program (h : Sizes p q) (P : Params p G) (cv : Curve p q G) (n : Nat) :
    ∃ prog out, ∀ (z : CState p) (is : List (CInputs p G)), is.length = n →
      (Emits Prog.StateW.refs (Prog.aggregatorStep P cv z is) prog out ↔ ∀ i ∈ is, Shaped q i) ∧
      (Prog.aggregatorStep P cv z is 0 = none ↔ ¬ ∀ i ∈ is, Shaped q i) := by
  have hsim := fun z is => Prog.sim_aggregatorStep (Sizes.modBits_pos h) h.bits P cv z is
  have hnone : ∀ (z : CState p) (is : List (CInputs p G)),
      Prog.aggregatorStep P cv z is 0 = none ↔ ¬ ∀ i ∈ is, Shaped q i := by
    intro z is
    rw [← stepBatch_ends P cv z is]
    have := hsim z is 0
    cases hw : Wit.stepBatch P cv z is with
    | panic => rw [hw] at this; simp [Wit.Syn.Ends, show Prog.aggregatorStep P cv z is _ = none from this]
    | done ok b =>
      rw [hw] at this
      obtain ⟨a, t, e, -, -⟩ := this
      rw [e]
      simp [Wit.Syn.Ends]
  by_cases hw : ∃ is : List (CInputs p G), is.length = n ∧ ∀ i ∈ is, Shaped q i
  · obtain ⟨is0, hn0, hs0⟩ := hw
    obtain ⟨prog, out, he⟩ := emits_of_sim (vars := Prog.StateW.refs) (hsim ⟨0, 0, 0, 0, 0, 0, 0, 0⟩ is0)
      ((stepBatch_ends P cv _ is0).2 hs0)
    refine ⟨prog, out, fun z is hn => ⟨⟨fun he' => ?_, fun hs => emits_of_same ?_ he⟩, hnone z is⟩⟩
    · exact (stepBatch_ends P cv _ is).1 (ends_of_emits (hsim z is) he')
    · exact Prog.same_aggregatorStep P cv _ z is0 is (lens_batch (by rw [hn0, hn]) hs0 hs)
  · refine ⟨[], [], fun z is hn => ⟨⟨fun he' => ?_, fun hs => absurd ⟨is, hn, hs⟩ hw⟩, hnone z is⟩⟩
    exact (stepBatch_ends P cv _ is).1 (ends_of_emits (hsim z is) he')

/-- **C119** (client): the same for the client's step with a fixed number of transactions per step
and either accumulator. -/
theorem C119_client_program (h : Client.FieldOk p) (hs : Hashes p) (A : Prog.AccKind) (cv : Curve p q G) (n : Nat) :
    ∃ prog out, ∀ (z : Client.UState p) (a : Client.UserAuxVar p G),
      (Emits Prog.UStateW.refs (Prog.clientStep hs A cv n z a) prog out ↔ UserShaped n a) ∧
      (Prog.clientStep hs A cv n z a 0 = none ↔ ¬ UserShaped n a) := by
  have hsim := fun z a => Prog.sim_clientStep hs A cv n z a
  have hnone : ∀ (z : Client.UState p) (a : Client.UserAuxVar p G),
      Prog.clientStep hs A cv n z a 0 = none ↔ ¬ UserShaped n a := by
    intro z a
    rw [← updateBalance_ends h (A.params hs) cv n z a]
    have := hsim z a 0
    cases hw : Wit.updateBalance (A.params hs) cv n z a with
    | panic => rw [hw] at this; simp [Wit.Syn.Ends, show Prog.clientStep hs A cv n z a _ = none from this]
    | done ok b =>
      rw [hw] at this
      obtain ⟨a, t, e, -, -⟩ := this
      rw [e]
      simp [Wit.Syn.Ends]
  by_cases hw : ∃ a : Client.UserAuxVar p G, UserShaped n a
  · obtain ⟨a0, hs0⟩ := hw
    obtain ⟨prog, out, he⟩ := emits_of_sim (vars := Prog.UStateW.refs) (hsim ⟨0, 0, 0, 0, 0, 0, 0⟩ a0)
      ((updateBalance_ends h (A.params hs) cv n _ a0).2 hs0)
    refine ⟨prog, out, fun z a => ⟨⟨fun he' => ?_, fun hsh => emits_of_same ?_ he⟩, hnone z a⟩⟩
    · exact (updateBalance_ends h (A.params hs) cv n _ a).1 (ends_of_emits (hsim z a) he')
    · exact Prog.same_clientStep hs A cv n _ z a0 a (by rw [userLens_of_shaped hs0, userLens_of_shaped hsh])
  · refine ⟨[], [], fun z a => ⟨⟨fun he' => ?_, fun hs => absurd ⟨a, hs⟩ hw⟩, hnone z a⟩⟩
    exact (updateBalance_ends h (A.params hs) cv n _ a).1 (ends_of_emits (hsim z a) he')

theorem default_shaped : Shaped q (CInputs.alloc (Wit.defaultInputs p q G)) := by
  have hrep : ∀ d ∈ List.replicate TX_IO_SIZE ((0 : ZMod p), List.replicate (UTXO_TREE_HEIGHT - 1) (0 : ZMod p)),
      d.2.length = UTXO_TREE_HEIGHT - 1 := by
    intro d hd
    rw [List.eq_of_mem_replicate hd]
    exact List.length_replicate ..
  exact ⟨natBits_length _ _, natBits_length _ _, List.length_replicate .., List.length_replicate .., hrep,
    List.length_replicate .., hrep, List.length_replicate ..⟩

/-- **C119** (recorded inputs): after any sequence of calls, with any outcomes, every batch of `n` recorded inputs,
from any state, emits the program of the set-up, which is made from `n` default inputs. -/
theorem C119_recorded_inputs (h : Sizes p q) (b : Build) (P : Params p G) (cv : Curve p q G) (calls : List (Op q G))
    (s : Agg.State p q G) (hs : s = calls.foldl (fun s op => (op.run b cv P.hs s).1) (Agg.new q cv P.hs))
    (bs : List (List (CInputs p G))) (hbs : bs.flatten = s.ivcInputs.map CInputs.alloc) (n : Nat)
    (batch : List (CInputs p G)) (hb : batch ∈ bs) (hn : batch.length = n) (z z0 : CState p) :
    ∃ prog out,
      Emits Prog.StateW.refs
        (Prog.aggregatorStep P cv z0 (List.replicate n (CInputs.alloc (Wit.defaultInputs p q G)))) prog out ∧
      Emits Prog.StateW.refs (Prog.aggregatorStep P cv z batch) prog out := by
  obtain ⟨prog, out, hp⟩ := C119_aggregator_program h P cv n
  refine ⟨prog, out, ((hp z0 _ List.length_replicate).1).2 ?_, ((hp z batch hn).1).2 ?_⟩
  · intro i hi
    rw [List.eq_of_mem_replicate hi]
    exact default_shaped
  · have := C101_recorded_inputs b P cv calls s hs z bs hbs
    rw [C101_aggregator_panic] at this
    exact this batch hb

/-- **C119** (set-up of the client): every satisfied step emits the program of the set-up, which is made from the
default inputs. -/
theorem C119_client_setup (h : Client.FieldOk p) (hs : Hashes p) (A : Prog.AccKind) (cv : Curve p q G) (n : Nat)
    (z z0 z' : Client.UState p) (a : Client.UserAuxVar p G) (hz : Client.updateBalance (A.params hs) cv n z a z') :
    ∃ prog out,
      Emits Prog.UStateW.refs (Prog.clientStep hs A cv n z0 (Client.UserAux.default p G n).alloc) prog out ∧
      Emits Prog.UStateW.refs (Prog.clientStep hs A cv n z a) prog out := by
  obtain ⟨prog, out, hp⟩ := C119_client_program h hs A cv n
  refine ⟨prog, out, ((hp z0 _).1).2 ?_, ((hp z a).1).2 ?_⟩
  · refine ⟨?_, List.length_replicate .., List.length_replicate .., ?_, ?_⟩
    · simp [Client.UserAux.alloc, Client.UserAux.default]
    · intro x hx
      rw [List.eq_of_mem_replicate hx]
      exact List.length_replicate ..
    · intro x hx
      rw [List.eq_of_mem_replicate hx]
      exact List.length_replicate ..
  · rw [← updateBalance_ends h (A.params hs) cv n z a]
    have := (Wit.sat_updateBalance (A.params hs) cv n z a z').2 hz
    rw [this]
    exact fun e => by cases e

/-- **C119** (values, aggregator): the values assigned while the program is emitted satisfy it and compute `z'`
exactly if some assignment satisfies the constraints of the step with next state `z'`. -/
theorem C119_aggregator_values (h : Sizes p q) (P : Params p G) (cv : Curve p q G) (z z' : CState p)
    (is : List (CInputs p G)) :
    Computes Prog.StateW.val (Prog.aggregatorStep P cv z is) z' ↔ stepBatch P cv z is z' := by
  rw [computes_of_sim (Prog.sim_aggregatorStep (Sizes.modBits_pos h) h.bits P cv z is)]
  exact Wit.sat_stepBatch h P cv z is z'

/-- **C119** (values, client): the same for the client. -/
theorem C119_client_values (hs : Hashes p) (A : Prog.AccKind) (cv : Curve p q G) (n : Nat) (z z' : Client.UState p)
    (a : Client.UserAuxVar p G) :
    Computes Prog.UStateW.val (Prog.clientStep hs A cv n z a) z' ↔ Client.updateBalance (A.params hs) cv n z a z' := by
  rw [computes_of_sim (Prog.sim_clientStep hs A cv n z a)]
  exact Wit.sat_updateBalance (A.params hs) cv n z a z'

end PF.Props
