import Verif.Props.Size
import Verif.Props.CasesProgram

/-!
# Concrete cases for C127
-/
set_option linter.unusedSectionVars false

namespace PF.CasesSize
open PF PF.Spec PF.MT PF.AggC PF.Circuit PF.Contract PF.Agg PF.Props
open PF.Prog (Emits Instr rep calls)
open PF.Cases (F K k0 a b ha hb hab h0 ha0 hb0)

/-- The set-up of a batch of `n` transactions emits a program. -/
theorem setup_emits (P : Params F K) (n : Nat) (z0 : CState F) : ∃ prog out,
    Emits Prog.StateW.refs (Prog.aggregatorStep P bnCurve z0
      (List.replicate n (CInputs.alloc (Wit.defaultInputs F grumpkinQ K)))) prog out := by
  obtain ⟨prog, out, hp⟩ := C119_aggregator_program sizes_bn254 P bnCurve n
  refine ⟨prog, out, ((hp z0 (List.replicate n (CInputs.alloc (Wit.defaultInputs F grumpkinQ K))) List.length_replicate).1).2 fun i hi => ?_⟩
  rw [List.eq_of_mem_replicate hi]
  exact default_shaped

/-- The set-up of a client step for `n` transactions emits a program. -/
theorem client_setup_emits (hs : Hashes F) (A : Prog.AccKind) (n : Nat) (z0 : Client.UState F) : ∃ prog out,
    Emits Prog.UStateW.refs (Prog.clientStep hs A bnCurve n z0 (Client.UserAux.default F K n).alloc) prog out := by
  obtain ⟨prog, out, hp⟩ := C119_client_program fieldOk_bn254 hs A bnCurve n
  exact ⟨prog, out, ((hp z0 _).1).2 (default_userShaped n)⟩

/-- Three transactions: 63 sponge hashes, 1632 two-to-one hashes, six scalar multiplications; 3 SHA-256 hashes in
transfer-only mode, 18 in full mode. -/
example (mode : Bool) (z0 : CState F) : ∃ prog out,
    Emits Prog.StateW.refs (Prog.aggregatorStep (Cases.P mode) bnCurve z0
      (List.replicate 3 (CInputs.alloc (Wit.defaultInputs F grumpkinQ K)))) prog out ∧
    calls .hash prog = 63 ∧ calls .twoToOne prog = 1632 ∧ calls .scalarMul prog = 6 ∧ calls .pointAdd prog = 3 ∧
    calls .condEnforceEq prog = 39 ∧ calls .sha prog = if mode then 3 else 18 := by
  obtain ⟨prog, out, he⟩ := setup_emits (Cases.P mode) 3 z0
  have := C127_aggregator_calls sizes_bn254 (Cases.P mode) bnCurve _ _ prog out he
  rw [List.length_replicate] at this
  obtain ⟨h1, h2, h3, h4, h5, h6⟩ := this
  refine ⟨prog, out, he, h1, h2, h3, h4, h5, ?_⟩
  rw [h6]
  cases mode <;> rfl

/-- The number of gadget calls and the number of variables: the same two numbers per transaction for all batch sizes. -/
example (P : Params F K) (z0 : CState F) : ∃ perCall perVar, ∀ n : Nat, ∃ prog out,
    Emits Prog.StateW.refs (Prog.aggregatorStep P bnCurve z0
      (List.replicate n (CInputs.alloc (Wit.defaultInputs F grumpkinQ K)))) prog out ∧
    prog.length = 8 + n * perCall ∧ (prog.map Instr.results).sum = 8 + n * perVar := by
  obtain ⟨c, hc⟩ := C127_aggregator_size sizes_bn254 P bnCurve (fun _ => 1) (fun _ => rfl)
  obtain ⟨v, hv⟩ := C127_aggregator_size sizes_bn254 P bnCurve Instr.results (fun _ => rfl)
  refine ⟨c, v, fun n => ?_⟩
  obtain ⟨prog, out, he⟩ := setup_emits P n z0
  refine ⟨prog, out, he, ?_, ?_⟩
  · have := hc _ _ prog out he
    rw [List.length_replicate] at this
    simpa using this
  · have := hv _ _ prog out he
    rw [List.length_replicate] at this
    exact this

/-- The layout: the program of two transactions is that of one with the repeated parts twice. -/
example (P : Params F K) (z0 : CState F) : ∃ alloc step : List (Instr F K), ∃ prog1 out1 prog2 out2,
    Emits Prog.StateW.refs (Prog.aggregatorStep P bnCurve z0
      (List.replicate 1 (CInputs.alloc (Wit.defaultInputs F grumpkinQ K)))) prog1 out1 ∧
    Emits Prog.StateW.refs (Prog.aggregatorStep P bnCurve z0
      (List.replicate 2 (CInputs.alloc (Wit.defaultInputs F grumpkinQ K)))) prog2 out2 ∧
    prog1.map Instr.shape = rep 8 [⟨.allocField, [], 1⟩] ++ alloc ++ step ∧
    prog2.map Instr.shape = rep 8 [⟨.allocField, [], 1⟩] ++ (alloc ++ alloc) ++ (step ++ step) ∧
    calls .hash prog2 = 2 * calls .hash prog1 ∧ calls .hash prog1 = 21 := by
  obtain ⟨alloc, step, hl⟩ := C127_aggregator_layout sizes_bn254 P bnCurve
  obtain ⟨prog1, out1, h1⟩ := setup_emits P 1 z0
  obtain ⟨prog2, out2, h2⟩ := setup_emits P 2 z0
  have l1 := hl _ _ _ _ h1
  have l2 := hl _ _ _ _ h2
  have k1 := (C127_aggregator_calls sizes_bn254 P bnCurve _ _ _ _ h1).1
  have k2 := (C127_aggregator_calls sizes_bn254 P bnCurve _ _ _ _ h2).1
  rw [List.length_replicate] at l1 l2 k1 k2
  have r1 : ∀ l : List (Instr F K), rep 1 l = l := fun l => by simp [rep]
  have r2 : ∀ l : List (Instr F K), rep 2 l = l ++ l := fun l => by simp [rep, List.replicate]
  rw [r1, r1] at l1
  rw [r2, r2] at l2
  exact ⟨alloc, step, prog1, out1, prog2, out2, h1, h2, l1, l2, by rw [k1, k2], k1⟩

/-- A client step for 100 transactions, the size of the client's benchmarks: 302 sponge hashes, 2400 two-to-one hashes and one
for the accumulator, 2800 conditional constraints. -/
example (hs : Hashes F) (z0 : Client.UState F) : ∃ prog out,
    Emits Prog.UStateW.refs (Prog.clientStep hs .poseidon bnCurve 100 z0 (Client.UserAux.default F K 100).alloc) prog out ∧
    calls .hash prog = 302 ∧ calls .twoToOne prog = 2401 ∧ calls .sha prog = 0 ∧ calls .condEnforceEq prog = 2800 := by
  obtain ⟨prog, out, he⟩ := client_setup_emits hs .poseidon 100 z0
  obtain ⟨h1, h2, h3, h4, -⟩ := C127_client_calls hs .poseidon bnCurve 100 z0 _ prog out he
  exact ⟨prog, out, he, h1, h2, h3, h4⟩

/-- With the SHA-256 accumulator and no transactions: the two hashes of the key and the block, and one SHA-256 hash. -/
example (hs : Hashes F) (s : Sha) (z0 : Client.UState F) : ∃ prog out,
    Emits Prog.UStateW.refs (Prog.clientStep hs (.sha s) bnCurve 0 z0 (Client.UserAux.default F K 0).alloc) prog out ∧
    calls .hash prog = 2 ∧ calls .twoToOne prog = 0 ∧ calls .sha prog = 1 ∧ calls .condEnforceEq prog = 0 := by
  obtain ⟨prog, out, he⟩ := client_setup_emits hs (.sha s) 0 z0
  obtain ⟨h1, h2, h3, h4, -⟩ := C127_client_calls hs (.sha s) bnCurve 0 z0 _ prog out he
  exact ⟨prog, out, he, h1, h2, h3, h4⟩

/-- Gadget calls and variables of the client, for all numbers of transactions. -/
example (hs : Hashes F) (A : Prog.AccKind) (z0 : Client.UState F) : ∃ c0 c v0 v, ∀ n : Nat, ∃ prog out,
    Emits Prog.UStateW.refs (Prog.clientStep hs A bnCurve n z0 (Client.UserAux.default F K n).alloc) prog out ∧
    prog.length = c0 + n * c ∧ (prog.map Instr.results).sum = v0 + n * v := by
  obtain ⟨c0, c, hc⟩ := C127_client_size fieldOk_bn254 hs A bnCurve (fun _ => 1) (fun _ => rfl)
  obtain ⟨v0, v, hv⟩ := C127_client_size fieldOk_bn254 hs A bnCurve Instr.results (fun _ => rfl)
  refine ⟨c0, c, v0, v, fun n => ?_⟩
  obtain ⟨prog, out, he⟩ := client_setup_emits hs A n z0
  refine ⟨prog, out, he, ?_, hv _ _ _ _ _ he⟩
  have := hc _ _ _ _ _ he
  simpa using this

example (hs : Hashes F) := C127_client_layout fieldOk_bn254 hs .poseidon bnCurve

end PF.CasesSize
