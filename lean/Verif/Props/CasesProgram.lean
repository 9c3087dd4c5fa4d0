import Verif.Props.ProgramMeaning
import Verif.Props.ProgramInputs
import Verif.Props.ProgramClaims
import Verif.Props.CasesClaims
import Verif.Props.CasesEpoch
import Verif.Props.CasesCircuit

/-!
# Concrete cases for C119, C120 and C121
-/
set_option linter.unusedSectionVars false

namespace PF.CasesProgram
open PF PF.Spec PF.MT PF.AggC PF.Circuit PF.Contract PF.Agg PF.Props
open PF.Cases (F K k0 a b ha hb hab h0 ha0 hb0)
open PF.CasesEpoch (P s2 folded z)

/-! ## A program written out -/

section
variable {p : Nat} {G : Type} [DecidableEq G]
open Prog

/-- The validity check of a transaction with one input and one output, on variables 0 to 6: negate the input's flag,
compare the keys if it is set, select and add the amount, select and subtract the other one, compare with zero. The
program is the same for all values `x`, `y`, `k`, … -/
example (x y : ZMod p) (k l s : G) (d e : Bool) :
    ((enforceValid ⟨[⟨⟨.var 0, x⟩, ⟨.var 1, k⟩, ⟨.var 2, d⟩⟩], [⟨⟨.var 3, y⟩, ⟨.var 4, l⟩, ⟨.var 5, e⟩⟩]⟩ ⟨.var 6, s⟩ :
        Tr p G Unit) 7).map (fun r => r.2.log.map Entry.instr) =
      some [⟨.not, [.bool (.var 2)], 1⟩,
        ⟨.condEnforceEq, [.point (.var 1), .point (.var 6), .bool (.var 7)], 0⟩,
        ⟨.select, [.bool (.var 2), .field (.const 0), .field (.var 0)], 1⟩,
        ⟨.add, [.field (.const 0), .field (.var 8)], 1⟩,
        ⟨.select, [.bool (.var 5), .field (.const 0), .field (.var 3)], 1⟩,
        ⟨.sub, [.field (.var 9), .field (.var 10)], 1⟩,
        ⟨.enforceEq, [.field (.var 11), .field (.const 0)], 0⟩] := rfl

section
variable {q : Nat} [AddCommGroup G] [Module (ZMod q) G]

/-- The same program read as a constraint system: satisfied with these values (input of 5 owned by the sender, output
of 5) … -/
example (L : Lib p q G) (k : G) (e : Assignment p G)
    (hf : e.field = fun n => if n = 0 ∨ n = 3 ∨ n = 8 ∨ n = 9 ∨ n = 10 then 5 else 0) (hb : e.bool = fun n => decide (n = 7))
    (hg : e.point = fun _ => k) :
    Satisfies L e 7 [⟨.not, [.bool (.var 2)], 1⟩,
        ⟨.condEnforceEq, [.point (.var 1), .point (.var 6), .bool (.var 7)], 0⟩,
        ⟨.select, [.bool (.var 2), .field (.const 0), .field (.var 0)], 1⟩,
        ⟨.add, [.field (.const 0), .field (.var 8)], 1⟩,
        ⟨.select, [.bool (.var 5), .field (.const 0), .field (.var 3)], 1⟩,
        ⟨.sub, [.field (.var 9), .field (.var 10)], 1⟩,
        ⟨.enforceEq, [.field (.var 11), .field (.const 0)], 0⟩] := by
  obtain ⟨f, b, g, y⟩ := e
  subst hf hb hg
  simp [Satisfies, Prog.Holds, Ref.read, Assignment.f, Assignment.b, Assignment.g]

/-- … and by no values if the output is a dummy and the input is not and has an amount other than zero. -/
example (L : Lib p q G) (e : Assignment p G) (h0 : e.field 0 ≠ 0) (h2 : e.bool 2 = false) (h5 : e.bool 5 = true) :
    ¬ Satisfies L e 7 [⟨.not, [.bool (.var 2)], 1⟩,
        ⟨.condEnforceEq, [.point (.var 1), .point (.var 6), .bool (.var 7)], 0⟩,
        ⟨.select, [.bool (.var 2), .field (.const 0), .field (.var 0)], 1⟩,
        ⟨.add, [.field (.const 0), .field (.var 8)], 1⟩,
        ⟨.select, [.bool (.var 5), .field (.const 0), .field (.var 3)], 1⟩,
        ⟨.sub, [.field (.var 9), .field (.var 10)], 1⟩,
        ⟨.enforceEq, [.field (.var 11), .field (.const 0)], 0⟩] := by
  simp only [Satisfies, Prog.Holds, Ref.read, Assignment.f, Assignment.b, Assignment.g, h2, h5]
  rintro ⟨h, -, h8, h9, h10, h11, h12, -⟩
  norm_num at h8 h9 h10 h11 h12
  rw [h12, h9, h8, h10] at h11
  exact h0 (by simpa using h11.symm)

/-- One level of the membership gadget, switched off (variable 3): the bit in variable 4 is the prover's choice; the digest
in variable 6 is not. -/
example (h2 : ZMod p → ZMod p → ZMod p) (l r x : ZMod p) (c : Bool) :
    ((memLoop h2 ⟨.var 3, c⟩ [(⟨.var 0, l⟩, ⟨.var 1, r⟩)] ⟨.var 2, x⟩ : Tr p G _) 4).map (fun r => r.2.log.map Entry.instr) =
      some [⟨.allocBool, [], 1⟩, ⟨.select, [.bool (.var 4), .field (.var 0), .field (.var 1)], 1⟩,
        ⟨.condEnforceEq, [.field (.var 2), .field (.var 5), .bool (.var 3)], 0⟩,
        ⟨.twoToOne, [.field (.var 0), .field (.var 1)], 1⟩] := rfl

example (L : Lib p q G) (choice : Bool) (e : Assignment p G) (hb : e.bool = fun n => decide (n = 4) && choice)
    (hf : e.field = fun n : Nat => if n = 5 then (if choice then 10 else 11) else if n = 6 then L.h2 10 11 else (10 : ZMod p) + (n : ZMod p)) :
    Satisfies L e 4 [⟨.allocBool, [], 1⟩, ⟨.select, [.bool (.var 4), .field (.var 0), .field (.var 1)], 1⟩,
        ⟨.condEnforceEq, [.field (.var 2), .field (.var 5), .bool (.var 3)], 0⟩,
        ⟨.twoToOne, [.field (.var 0), .field (.var 1)], 1⟩] := by
  obtain ⟨f, b, g, y⟩ := e
  subst hf hb
  have h : (10 : ZMod p) + 1 = 11 := by norm_num
  cases choice <;> simp [Satisfies, Prog.Holds, Ref.read, Assignment.f, Assignment.b, h]

end

end

/-! ## Aggregator -/

/-- Each transaction takes 813 variables for its inputs. -/
example : Prog.inputVars grumpkinQ = 813 := by
  have h1 : modBits grumpkinQ ≤ 254 := Nat.size_le.2 (by decide)
  have h2 : 253 < modBits grumpkinQ := Nat.lt_size.2 (by decide)
  unfold Prog.inputVars
  have h3 : modBits grumpkinQ = 254 := by omega
  rw [h3]
  rfl

example : Prog.clientTxVars = 73 := rfl

example := C119_aggregator_program sizes_bn254 P bnCurve 3

/-- The three transactions of the epoch as one batch. -/
example (z z0 : CState F) := C119_recorded_inputs sizes_bn254 .debug P bnCurve _ s2 folded
  [s2.ivcInputs.map CInputs.alloc] (by simp) s2.ivcInputs.length _ (List.mem_singleton.2 rfl) (by simp) z z0

/-- A satisfied step with three transactions, in full and in transfer-only mode. -/
example (mode : Bool) : Prog.Computes Prog.StateW.val
    (Prog.aggregatorStep (Cases.P mode) bnCurve Cases.z Cases.is) (Cases.zEnd mode) := by
  rw [C119_aggregator_values sizes_bn254]
  have := (C60_batching_irrelevant (Cases.P mode) bnCurve Cases.z (Cases.zEnd mode)
    Cases.bs [Cases.is] (by simp [Cases.flat])).1 (Cases.run mode)
  obtain ⟨z1, h1, rfl⟩ := this
  exact h1

/-- The functions behind the gadgets. -/
def lib (mode : Bool) : Prog.Lib F grumpkinQ K :=
  ⟨bnCurve, (Cases.P mode).hs.crh, (Cases.P mode).hs.h2, (Cases.P mode).sha⟩

/-- The program of the set-up with three transactions per step has a satisfying assignment for the same step. -/
example (mode : Bool) (z0 : CState F) : ∃ prog out,
    Prog.Emits Prog.StateW.refs (Prog.aggregatorStep (Cases.P mode) bnCurve z0
      (List.replicate 3 (CInputs.alloc (Wit.defaultInputs F grumpkinQ K)))) prog out ∧
    ∃ e, Prog.Satisfies (lib mode) e 0 prog ∧ (Prog.firstVars 8).map e.f = Cases.z.toList ∧
      out.map e.f = (Cases.zEnd mode).toList := by
  obtain ⟨prog, out, hp⟩ := C119_aggregator_program sizes_bn254 (Cases.P mode) bnCurve 3
  have he := ((hp z0 (List.replicate 3 (CInputs.alloc (Wit.defaultInputs F grumpkinQ K))) List.length_replicate).1).2 fun i hi => by
    rw [List.eq_of_mem_replicate hi]
    exact default_shaped
  refine ⟨prog, out, he, (C120_aggregator sizes_bn254 _ bnCurve (lib mode) ⟨rfl, rfl, rfl, rfl⟩ 3 z0 prog out he _ _).2
    ⟨Cases.is, rfl, ?_⟩⟩
  have := (C60_batching_irrelevant (Cases.P mode) bnCurve Cases.z (Cases.zEnd mode)
    Cases.bs [Cases.is] (by simp [Cases.flat])).1 (Cases.run mode)
  obtain ⟨z1, h1, rfl⟩ := this
  exact h1

/-- A run of the program with one transaction per step ends in the public inputs of a block with a deposit and a
withdrawal, and C120_block_value applies to it. -/
example (z0 : CState F) : ∃ prog out es,
    Prog.Emits Prog.StateW.refs (Prog.aggregatorStep (Cases.P false) bnCurve z0
      (List.replicate 1 (CInputs.alloc (Wit.defaultInputs F grumpkinQ K)))) prog out ∧ es.length = 3 ∧
    Prog.Folded (lib false) prog 8 out es Cases.z.toList (Cases.zEnd false).toList ∧
    ∃ txs : List (CInputs F K), txs.length = 3 := by
  obtain ⟨prog, out, hp⟩ := C119_aggregator_program sizes_bn254 (Cases.P false) bnCurve 1
  have he := ((hp z0 (List.replicate 1 (CInputs.alloc (Wit.defaultInputs F grumpkinQ K))) List.length_replicate).1).2
    fun i hi => by
      rw [List.eq_of_mem_replicate hi]
      exact default_shaped
  have hrun := (C60_batching_irrelevant (Cases.P false) bnCurve Cases.z (Cases.zEnd false)
    Cases.bs (Cases.is.map fun i => [i]) (by rw [Cases.flat]; rfl)).1 (Cases.run false)
  obtain ⟨es, h1, h2⟩ := (C120_aggregator_folded sizes_bn254 _ bnCurve (lib false) ⟨rfl, rfl, rfl, rfl⟩ 1 3 z0 prog out he
    Cases.z (Cases.zEnd false)).2 ⟨_, rfl, by simp, hrun⟩
  obtain ⟨txs, k, -⟩ := C120_block_value sizes_bn254 (Cases.P false) rfl bnCurve (lib false) ⟨rfl, rfl, rfl, rfl⟩ 1 z0 prog out he
    (Clean.reg k0 a b) (Clean.block bnCurve k0 a b toySha) Cases.amounts _ _ _ _ es _ h2 Cases.public_inputs
    Clean.c0 rfl (Clean.healthy0 _)
  exact ⟨prog, out, es, he, h1, h2, txs, by rw [k, h1]⟩

/-- With the inputs of that step in their places (C121): a satisfying assignment, and any other one that agrees with it
on state and inputs gives the same new state. -/
example (mode : Bool) (z0 : CState F) : ∃ prog out,
    Prog.Emits Prog.StateW.refs (Prog.aggregatorStep (Cases.P mode) bnCurve z0
      (List.replicate 3 (CInputs.alloc (Wit.defaultInputs F grumpkinQ K)))) prog out ∧
    ∃ e, Prog.Satisfies (lib mode) e 0 prog ∧ e.Fills 0 (Prog.aggregatorLayout Cases.z Cases.is) ∧
      out.map e.f = (Cases.zEnd mode).toList ∧
      ∀ e', Prog.Satisfies (lib mode) e' 0 prog → (Prog.firstVars 8).map e.f = (Prog.firstVars 8).map e'.f →
        Prog.Agree 8 (8 + 3 * Prog.inputVars grumpkinQ) e e' → out.map e'.f = (Cases.zEnd mode).toList := by
  obtain ⟨prog, out, hp⟩ := C119_aggregator_program sizes_bn254 (Cases.P mode) bnCurve 3
  have he := ((hp z0 (List.replicate 3 (CInputs.alloc (Wit.defaultInputs F grumpkinQ K))) List.length_replicate).1).2 fun i hi => by
    rw [List.eq_of_mem_replicate hi]
    exact default_shaped
  obtain ⟨z1, h1, h2⟩ := (C60_batching_irrelevant (Cases.P mode) bnCurve Cases.z (Cases.zEnd mode)
    Cases.bs [Cases.is] (by simp [Cases.flat])).1 (Cases.run mode)
  have hsh : ∀ i ∈ Cases.is, Wit.Shaped grumpkinQ i := by
    rw [← stepBatch_ends (Cases.P mode) bnCurve Cases.z, (Wit.sat_stepBatch sizes_bn254 _ bnCurve Cases.z Cases.is z1).2 h1]
    exact fun e => by cases e
  cases h2
  obtain ⟨e, k1, k2, k3⟩ := (C121_aggregator sizes_bn254 _ bnCurve (lib mode) ⟨rfl, rfl, rfl, rfl⟩ 3 z0 prog out he Cases.z _
    Cases.is rfl hsh).2 h1
  exact ⟨prog, out, he, e, k1, k2, k3, fun e' g1 g2 g3 => (C121_aggregator_deterministic sizes_bn254 _ bnCurve (lib mode)
    ⟨rfl, rfl, rfl, rfl⟩ 3 z0 prog out he e e' k1 g1 g2 g3).symm.trans k3⟩

/-! ## Client -/

section
variable {p q : Nat} {G : Type} [AddCommGroup G] [Module (ZMod q) G] [DecidableEq G]
variable (h : Client.FieldOk p) (cv : Curve p q G) (k r : G)
open Client

/-- The two circuits of client/src/lib.rs. -/
example (hs : Hashes p) : Prog.AccKind.poseidon.params hs = poseidonParams hs := rfl
example (hs : Hashes p) (s : Sha) : (Prog.AccKind.sha s).params hs = shaParams hs s := rfl
example (hs : Hashes p) (s : Sha) := C119_client_program h hs (.sha s) cv 5

/-- A step with a hundred transactions: satisfied, and with the program of the set-up. -/
example (z0 : UState p) : ∃ (a : UserAuxVar p G) (z' : UState p) (prog : List (Prog.Instr p G)) (out : List (Prog.Ref (ZMod p))),
    Prog.Computes Prog.UStateW.val (Prog.clientStep (demoHs p) .poseidon cv 100 (demoUser cv r) a) z' ∧
    Prog.Emits Prog.UStateW.refs (Prog.clientStep (demoHs p) .poseidon cv 100 (demoUser cv r) a) prog out ∧
    Prog.Emits Prog.UStateW.refs (Prog.clientStep (demoHs p) .poseidon cv 100 z0 (UserAux.default p G 100).alloc) prog out := by
  have hp : 2 ^ 67 ≤ p := h.large
  obtain ⟨h1, h2, h3, h4, h5⟩ := demo_hypotheses h cv k r
  obtain ⟨a, z', -, -, e1, e2, e3, -⟩ := C62_counted_many_times h (demoParams p) cv _ _ _ h1 r _ h2 rfl 3 5
    (by decide) (by decide) h4 h5 100 (show 3 + 4096 * 100 ≤ _ by omega)
  obtain ⟨prog, out, g1, g2⟩ := C119_client_setup h (demoHs p) .poseidon cv 100 (demoUser cv r) z0 z' a e1
  exact ⟨a, z', prog, out, (C119_client_values _ .poseidon _ _ _ _ _).2 e1, g2, g1⟩

/-- The program of the set-up has a satisfying assignment for the same step. -/
example (z0 : UState p) (L : Prog.Lib p q G) (hL : Prog.ForClient L (demoHs p) .poseidon cv) :
    ∃ (z' : UState p) (prog : List (Prog.Instr p G)) (out : List (Prog.Ref (ZMod p))) (e : Prog.Assignment p G),
    Prog.Emits Prog.UStateW.refs (Prog.clientStep (demoHs p) .poseidon cv 100 z0 (UserAux.default p G 100).alloc) prog out ∧
    Prog.Satisfies L e 0 prog ∧ (Prog.firstVars 7).map e.f = (demoUser cv r).toList ∧ out.map e.f = z'.toList := by
  have hp : 2 ^ 67 ≤ p := h.large
  obtain ⟨h1, h2, h3, h4, h5⟩ := demo_hypotheses h cv k r
  obtain ⟨a, z', -, -, e1, e2, e3, -⟩ := C62_counted_many_times h (demoParams p) cv _ _ _ h1 r _ h2 rfl 3 5
    (by decide) (by decide) h4 h5 100 (show 3 + 4096 * 100 ≤ _ by omega)
  obtain ⟨prog, out, g1, g2⟩ := C119_client_setup h (demoHs p) .poseidon cv 100 (demoUser cv r) z0 z' a e1
  obtain ⟨e, k1, k2, k3⟩ := (C120_client h (demoHs p) .poseidon cv L hL 100 z0 prog out g1 (demoUser cv r) z').2 ⟨a, e1⟩
  exact ⟨z', prog, out, e, g1, k1, k2, k3⟩

/-- The same with the inputs in their places (C121). -/
example (z0 : UState p) (L : Prog.Lib p q G) (hL : Prog.ForClient L (demoHs p) .poseidon cv) :
    ∃ (a : UserAuxVar p G) (z' : UState p) (prog : List (Prog.Instr p G)) (out : List (Prog.Ref (ZMod p))) (e : Prog.Assignment p G),
    Prog.Emits Prog.UStateW.refs (Prog.clientStep (demoHs p) .poseidon cv 100 z0 (UserAux.default p G 100).alloc) prog out ∧
    Prog.Satisfies L e 0 prog ∧ e.Fills 0 (Prog.clientLayout (demoUser cv r) a) ∧ out.map e.f = z'.toList ∧
    ∀ e', Prog.Satisfies L e' 0 prog → (Prog.firstVars 7).map e.f = (Prog.firstVars 7).map e'.f →
      Prog.Agree 7 (12 + 100 * Prog.clientTxVars) e e' → out.map e'.f = z'.toList := by
  have hp : 2 ^ 67 ≤ p := h.large
  obtain ⟨h1, h2, h3, h4, h5⟩ := demo_hypotheses h cv k r
  obtain ⟨a, z', -, -, e1, e2, e3, -⟩ := C62_counted_many_times h (demoParams p) cv _ _ _ h1 r _ h2 rfl 3 5
    (by decide) (by decide) h4 h5 100 (show 3 + 4096 * 100 ≤ _ by omega)
  obtain ⟨prog, out, g1, g2⟩ := C119_client_setup h (demoHs p) .poseidon cv 100 (demoUser cv r) z0 z' a e1
  have hsh : Wit.UserShaped 100 a := by
    rw [← updateBalance_ends h (demoParams p) cv 100 (demoUser cv r) a,
      (Wit.sat_updateBalance _ cv 100 (demoUser cv r) a z').2 e1]
    exact fun e => by cases e
  obtain ⟨e, k1, k2, k3⟩ := (C121_client h (demoHs p) .poseidon cv L hL 100 z0 prog out g1 (demoUser cv r) z' a hsh).2 e1
  exact ⟨a, z', prog, out, e, g1, k1, k2, k3, fun e' q1 q2 q3 => (C121_client_deterministic h (demoHs p) .poseidon cv L hL 100 z0
    prog out g1 e e' k1 q1 q2 q3).symm.trans k3⟩

end

/-- Values for the variables of the program that claim twenty-one out of two transfers of seven, with the accumulator
of the two blocks (`CasesClaims`); C120_client_claims applies to this run. -/
example (z0 : Client.UState F) (L : Prog.Lib F grumpkinQ K) (hL : Prog.ForClient L (demoHs F) .poseidon bnCurve) :
    ∃ (prog : List (Prog.Instr F K)) (out : List (Prog.Ref (ZMod F))) (es : List (Prog.Assignment F K)) (z' : Client.UState F),
      Prog.Emits Prog.UStateW.refs (Prog.clientStep (demoHs F) .poseidon bnCurve 2 z0 (Client.UserAux.default F K 2).alloc)
        prog out ∧
      Prog.Folded L prog 7 out es CasesClient.z.toList z'.toList ∧ z'.balance = 21 ∧
      z'.acc = Client.accOf CasesClient.P CasesClient.z.acc [CasesClaims.pub 1 1, CasesClaims.pub 2 2] := by
  obtain ⟨as, z', h1, h2, h3⟩ := CasesClaims.twenty_one
  have hne : as ≠ [] := by
    rintro rfl
    have h0 : z' = CasesClient.z := h1
    rw [h0] at h3
    exact absurd h3 (show (0 : ZMod F) ≠ 21 by decide)
  cases as with
  | nil => exact absurd rfl hne
  | cons x l =>
    obtain ⟨z1, s1, -⟩ := id h1
    obtain ⟨prog, out, g1, -⟩ := C119_client_setup fieldOk_bn254 (demoHs F) .poseidon bnCurve 2 CasesClient.z z0 z1 x s1
    obtain ⟨es, k1, k2⟩ := (C120_client_folded fieldOk_bn254 (demoHs F) .poseidon bnCurve L hL 2 _ z0 prog out g1
      CasesClient.z z').2 ⟨x :: l, rfl, h1⟩
    have := C120_client_claims fieldOk_bn254 (demoHs F) .poseidon bnCurve L hL 2 z0 prog out g1 CasesClient.r
      CasesClient.z z' es k2 rfl _ CasesClaims.all_list h2
    exact ⟨prog, out, es, z', g1, k2, h3, h2⟩

end PF.CasesProgram
