import Verif.Props.Freedom
import Verif.Props.CasesCircuit

/-!
# Concrete cases for C125
-/
set_option linter.unusedSectionVars false

namespace PF.CasesFreedom
open PF PF.Spec PF.MT PF.AggC PF.Circuit PF.Contract PF.Agg PF.Props
open PF.Cases (F K k0 a b ha hb hab h0 ha0 hb0 hp hq)

section
variable {p q : Nat} {G : Type} [AddCommGroup G] [Module (ZMod q) G] [DecidableEq G]

theorem sameUse_self {P : Params p G} {cv : Curve p q G} {root : ZMod p} {i : CInputs p G} (h : Shape q i) :
    SameUse P cv root i i :=
  ⟨⟨rfl, rfl, rfl, fun _ _ _ _ _ _ _ h1 h2 => by rw [h1] at h2; cases h2; rfl,
    fun _ _ _ _ _ _ _ _ h1 h2 => by rw [h1] at h2; cases h2; rfl⟩, h, rfl,
    fun _ _ _ _ _ _ _ h1 h2 => by rw [h1] at h2; cases h2; rfl,
    fun _ _ _ _ _ _ _ _ h1 h2 => by rw [h1] at h2; cases h2; rfl, fun _ => rfl⟩

/-- The deposit of the run `Clean.is` with other slots and paths for its inputs, which are not erased. -/
def junk (cv : Curve p q G) (k0 a b : G) : CInputs p G :=
  { Clean.i0 cv k0 a b with dels := List.replicate 4 (7, List.replicate 31 9) }

theorem sameUse_junk {cv : Curve p q G} {k0 a b : G} {P : Params p G} (hP : P.hs = Clean.hs cv k0 a b) (hp : 1 < p)
    (hq : 1 < q) (r : ZMod p) (h : Shape q (Clean.i0 cv k0 a b)) :
    SameUse P cv r (Clean.i0 cv k0 a b) (junk cv k0 a b) := by
  have hn : (Clean.i0 cv k0 a b).signed cv P.hs r ≠ true := by
    rw [hP, Clean.signed0 hp hq]; simp
  refine ⟨⟨rfl, rfl, rfl, fun _ _ _ _ hs => absurd hs hn,
    fun _ _ _ _ _ _ _ _ h1 h2 => by rw [show (junk cv k0 a b).adds = (Clean.i0 cv k0 a b).adds from rfl, h1] at h2; cases h2; rfl⟩,
    ⟨h.sigS, h.sigE, ⟨rfl, fun d hd => ?_⟩, h.adds, h.tx, h.signer⟩, rfl,
    fun _ _ _ _ hs => absurd hs hn,
    fun _ _ _ _ _ _ _ _ h1 h2 => by rw [show (junk cv k0 a b).adds = (Clean.i0 cv k0 a b).adds from rfl, h1] at h2; cases h2; rfl,
    fun _ => rfl⟩
  rw [List.eq_of_mem_replicate hd]
  exact List.length_replicate

theorem sameMoves_runs {P : Params p G} {cv : Curve p q G} {root : ZMod p} {l l' : List (CInputs p G)}
    (h : List.Forall₂ (SameUse P cv root) l l') : List.Forall₂ (SameMoves P cv root) l l' :=
  h.imp fun _ _ h => h.toSameMoves

/-- The deposit at slots `dp`, `ap` makes one update. -/
theorem upds_at {cv : Curve p q G} {k0 a b : G} (hp : 1 < p) (hq : 1 < q) (ha : a ≠ k0) (sha : Sha) (mode : Bool)
    (r x : ZMod p) (dp : List (ZMod p)) :
    ledgerUpds (Clean.P cv k0 a b sha mode) cv r [(Clean.i0 cv k0 a b).atSlots dp [x, 0, 0, 0]] =
      [⟨x.val % UTXO_CAP, UTXO.dummy, Clean.uA p a, []⟩] := by
  have s0 := Clean.signed0 (cv := cv) (k0 := k0) (a := a) (b := b) hp hq r
  have s0' : ((Clean.i0 cv k0 a b).atSlots dp [x, 0, 0, 0]).signed cv (Clean.hs cv k0 a b) r = false := s0
  have a0 : ((Clean.i0 cv k0 a b).atSlots dp [x, 0, 0, 0]).authorised (Clean.P cv k0 a b sha mode) cv r = true := by
    unfold CInputs.authorised
    show (CInputs.signed cv (Clean.hs cv k0 a b) r (Clean.i0 cv k0 a b) || _) = true
    rw [s0]; simp [CInputs.atSlots, Clean.i0, Clean.P]
  have e0 : ((Clean.i0 cv k0 a b).atSlots dp [x, 0, 0, 0]).erases cv (Clean.hs cv k0 a b) r = [] := by
    unfold CInputs.erases; rw [s0']; simp
  have n0 : ((Clean.i0 cv k0 a b).atSlots dp [x, 0, 0, 0]).inserts (Clean.P cv k0 a b sha mode) cv r =
      [⟨x.val % UTXO_CAP, UTXO.dummy, Clean.uA p a, []⟩] := by
    unfold CInputs.inserts; rw [a0]
    generalize UTXO_CAP = C
    simp [CInputs.atSlots, Clean.i0, Clean.tx0, UTXO.onLedger, UTXO.dummy, UTXO.new, Clean.P, ha, Clean.uA]
  unfold ledgerUpds
  simp only [List.flatMap_cons, List.flatMap_nil, List.append_nil]
  show CInputs.erases cv (Clean.hs cv k0 a b) r _ ++ _ = _
  rw [e0, n0]; rfl

theorem applied_one {L D : Type} (c : Nat → L) (i : Nat) (o n : L) (s : List D) :
    applied c [⟨i, o, n, s⟩] = write c i n := rfl

end

/-- The deposit step of the run of `CasesCircuit`. -/
theorem first_step : ∃ z1, stepOne (Cases.P false) bnCurve Cases.z (Clean.i0 bnCurve k0 a b) z1 := by
  obtain ⟨z1, -, h, -⟩ := Cases.spend_run false
  exact ⟨z1, h⟩

theorem uses : List.Forall₂ (SameUse (Cases.P false) bnCurve Cases.z.txRootFinal) Cases.bs.flatten
    [[junk bnCurve k0 a b], [Clean.i1 bnCurve k0 a b, Clean.i2 bnCurve k0 a b]].flatten := by
  have hr := Cases.run false
  rw [runSteps_flatten, stepBatch_iff sizes_bn254] at hr
  have hs := hr.shape
  rw [Cases.flat]
  refine List.Forall₂.cons (sameUse_junk rfl (lt_trans (by decide) hp) hq _ (hs _ ?_))
    (List.Forall₂.cons (sameUse_self (hs _ ?_)) (List.Forall₂.cons (sameUse_self (hs _ ?_)) List.Forall₂.nil))
  all_goals simp [Cases.flat, Cases.is, Clean.is]

/-- Other slots and other paths for inputs that are not erased: the run is accepted and ends in the same state. -/
theorem junk_run : runSteps (Cases.P false) bnCurve Cases.z
    [[junk bnCurve k0 a b], [Clean.i1 bnCurve k0 a b, Clean.i2 bnCurve k0 a b]] (Cases.zEnd false) :=
  C125_unused_inputs sizes_bn254 bn254_le (Cases.P false) bnCurve Cases.z _ Cases.bs _ uses (Cases.run false)

/-- The two witnesses are different. -/
theorem junk_ne {p q : Nat} {G : Type} [AddCommGroup G] [Module (ZMod q) G] [DecidableEq G] (hp : 7 < p)
    (cv : Curve p q G) (k0 a b : G) : (junk cv k0 a b).dels ≠ (Clean.i0 cv k0 a b).dels := by
  intro h
  have h1 := congrArg (fun l : List (ZMod p × List (ZMod p)) => (l.map (·.1)).head?) h
  have h2 : some (7 : ZMod p) = some (0 : ZMod p) := h1
  have h3 : ((7 : Nat) : ZMod p).val = (0 : ZMod p).val := by
    have : (7 : ZMod p) = 0 := Option.some.inj h2
    rw [← this]; rfl
  rw [ZMod.val_natCast, Nat.mod_eq_of_lt hp, ZMod.val_zero] at h3
  omega

example : (junk bnCurve k0 a b).dels ≠ (Clean.i0 bnCurve k0 a b).dels := junk_ne (lt_trans (by decide) hp) bnCurve k0 a b

/-- C125_slots_determine_the_result applies to the two runs, in any batches. -/
example (z2 : CState F) (bs' : List (List (CInputs F K))) (hb : bs'.flatten =
      [junk bnCurve k0 a b, Clean.i1 bnCurve k0 a b, Clean.i2 bnCurve k0 a b])
    (h : runSteps (Cases.P false) bnCurve Cases.z bs' z2) : Cases.zEnd false = z2 ∨
    PathsClash (Cases.P false).hs (utxoEncVar bnCurve)
      (ledgerUpds (Cases.P false) bnCurve Cases.z.txRootFinal Cases.bs.flatten)
      (ledgerUpds (Cases.P false) bnCurve Cases.z.txRootFinal bs'.flatten) ∨
    PathsClash (Cases.P false).hs (txEncVar bnCurve) (txUpds Cases.z.step Cases.bs.flatten)
      (txUpds Cases.z.step bs'.flatten) ∨
    PathsClash (Cases.P false).hs (pkEncVar bnCurve)
      (signerUpds (Cases.P false) bnCurve Cases.z.txRootFinal Cases.z.step Cases.bs.flatten)
      (signerUpds (Cases.P false) bnCurve Cases.z.txRootFinal Cases.z.step bs'.flatten) :=
  C125_slots_determine_the_result sizes_bn254 (Cases.P false) bnCurve Cases.z (Cases.zEnd false) z2 Cases.bs bs'
    (by rw [hb]; exact sameMoves_runs uses) (Cases.run false) h

theorem anywhere_of {p q : Nat} {G : Type} [AddCommGroup G] [Module (ZMod q) G] [DecidableEq G] (h : Sizes p q)
    (hp : 1 < p) (hq : 1 < q) (cv : Curve p q G) (k0 a b : G) (ha : a ≠ k0) (sha : Sha) (mode : Bool) (z z1 : CState p)
    (hs : stepOne (Clean.P cv k0 a b sha mode) cv z (Clean.i0 cv k0 a b) z1)
    (hr : RootOf (Clean.P cv k0 a b sha mode).hs (utxoEncVar cv) 32 Clean.c0 z.utxoRoot) (x : ZMod p) :
    ∃ (i' : CInputs p G) (z2 : CState p), i'.adds.map (·.1) = [x, 0, 0, 0] ∧
    i'.tx = (Clean.i0 cv k0 a b).tx ∧ stepOne (Clean.P cv k0 a b sha mode) cv z i' z2 ∧
    RootOf (Clean.P cv k0 a b sha mode).hs (utxoEncVar cv) 32 (write Clean.c0 (x.val % UTXO_CAP) (Clean.uA p a))
      z2.utxoRoot := by
  have hu := upds_at (cv := cv) (k0 := k0) (a := a) (b := b) hp hq ha sha mode z.txRootFinal x [0, 0, 0, 0]
  obtain ⟨i', z2, h1, -, h3, h4, -, h6⟩ := C125_any_slots h _ cv z z1 _ hs Clean.c0 hr
    [0, 0, 0, 0] [x, 0, 0, 0] rfl rfl (by rw [hu, legal_cons]; exact ⟨rfl, fun k u hk => by simp at hk⟩)
  rw [hu, applied_one] at h6
  exact ⟨i', z2, h3, by rw [h1], h4, h6⟩

/-- The deposit can be written to any slot. -/
theorem anywhere (x : ZMod F) : ∃ (i' : CInputs F K) (z2 : CState F), i'.adds.map (·.1) = [x, 0, 0, 0] ∧
    i'.tx = (Clean.i0 bnCurve k0 a b).tx ∧ stepOne (Cases.P false) bnCurve Cases.z i' z2 ∧
    RootOf (Cases.P false).hs (utxoEncVar bnCurve) 32 (write Clean.c0 (x.val % UTXO_CAP) (Clean.uA F a)) z2.utxoRoot := by
  obtain ⟨z1, h⟩ := first_step
  exact anywhere_of sizes_bn254 (lt_trans (by decide) hp) hq bnCurve k0 a b ha toySha false Cases.z z1 h
    (Cases.root0 false) x

theorem write_at {L : Type} (c : Nat → L) (i j : Nat) (v w : L) (hij : i ≠ j) (h : c i ≠ v) :
    write c i v i ≠ write c j w i := by
  unfold write
  rw [if_pos rfl, if_neg hij]
  exact h.symm

/-- Written to two different slots, the deposit gives two different ledger roots, or the ledgers exhibit a collision. -/
example (x y : ZMod F) (hxy : x.val % UTXO_CAP ≠ y.val % UTXO_CAP) (r r' : ZMod F)
    (hr : RootOf (Cases.P false).hs (utxoEncVar bnCurve) 32 (write Clean.c0 (x.val % UTXO_CAP) (Clean.uA F a)) r)
    (hr' : RootOf (Cases.P false).hs (utxoEncVar bnCurve) 32 (write Clean.c0 (y.val % UTXO_CAP) (Clean.uA F a)) r') :
    r ≠ r' ∨ RootClash (Cases.P false).hs (utxoEncVar bnCurve) 32
      (write Clean.c0 (x.val % UTXO_CAP) (Clean.uA F a)) (write Clean.c0 (y.val % UTXO_CAP) (Clean.uA F a)) := by
  have hu := fun x => upds_at (cv := bnCurve) (k0 := k0) (a := a) (b := b) (lt_trans (by decide) hp) hq ha toySha false
    Cases.z.txRootFinal x [0, 0, 0, 0]
  have h := C125_choice_shows sizes_bn254 (Cases.P false) bnCurve Cases.z
    ((Clean.i0 bnCurve k0 a b).atSlots [0, 0, 0, 0] [x, 0, 0, 0])
    ((Clean.i0 bnCurve k0 a b).atSlots [0, 0, 0, 0] [y, 0, 0, 0]) Clean.c0 r r'
  have e : ∀ x, applied Clean.c0 (ledgerUpds (Cases.P false) bnCurve Cases.z.txRootFinal
      [(Clean.i0 bnCurve k0 a b).atSlots [0, 0, 0, 0] [x, 0, 0, 0]]) =
      write Clean.c0 (x.val % UTXO_CAP) (Clean.uA F a) := fun x => by
    rw [← applied_one]; exact congrArg _ (hu x)
  rw [e x, e y] at h
  refine h hr hr' (x.val % UTXO_CAP) (Nat.mod_lt _ (Nat.two_pow_pos 31)) (write_at _ _ _ _ _ hxy ?_)
  exact (Clean.five_ne hp).symm

end PF.CasesFreedom
