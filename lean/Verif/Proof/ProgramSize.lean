import Verif.Proof.ProgramShape

/-!
# The program of a batch is a fixed part followed by one part per transaction
-/
set_option linter.unusedSectionVars false

namespace PF.Prog
open PF PF.Circuit
variable {p q : Nat} {G α β γ σ τ : Type}

/-- Whatever the synthesis returns has property `P`. -/
def Gives (P : α → Prop) (m : Tr p G α) : Prop := ∀ n a o, m n = some (a, o) → P a

theorem runs_bind {m : Tr p G α} {k : α → Tr p G β} {n : Nat} {b : β} {o : Out p G} (h : (m >>= k) n = some (b, o)) :
    ∃ a t t', m n = some (a, t) ∧ k a (n + width t.log) = some (b, t') ∧ o.log = t.log ++ t'.log := by
  rw [bind_def] at h
  cases e : m n with
  | none => rw [e] at h; cases h
  | some x =>
    obtain ⟨a, t⟩ := x
    rw [e] at h
    simp only at h
    cases e' : k a (n + width t.log) with
    | none => rw [e'] at h; cases h
    | some y =>
      obtain ⟨b', t'⟩ := y
      rw [e'] at h
      cases h
      exact ⟨a, t, t', rfl, e', rfl⟩

theorem gives_bind {P : α → Prop} {Q : β → Prop} {m : Tr p G α} {k : α → Tr p G β} (hm : Gives P m)
    (hk : ∀ a, P a → Gives Q (k a)) : Gives Q (m >>= k) := by
  intro n b o h
  obtain ⟨a, t, t', e1, e2, -⟩ := runs_bind h
  exact hk a (hm n a t e1) _ _ _ e2

theorem gives_skip {Q : β → Prop} {m : Tr p G α} {k : α → Tr p G β} (hk : ∀ a, Gives Q (k a)) : Gives Q (m >>= k) :=
  gives_bind (P := fun _ => True) (fun _ _ _ _ => trivial) fun a _ => hk a

theorem gives_pure {P : α → Prop} {a : α} (h : P a) : Gives P (pure a : Tr p G α) := by
  intro n b o e
  cases e
  exact h

theorem gives_panic {P : α → Prop} : Gives P (panic : Tr p G α) := by
  intro n b o e
  cases e

/-- A variable. -/
def IsVar (w : Wire α) : Prop := w.kind = .var 0

theorem gives_call {k : Wire α → Arg p G} {g : Gadget} {args : List (Arg p G)} {v : α} : Gives IsVar (call k g args v) := by
  intro n b o e
  cases e
  rfl

/-! ## Loops that repeat one part -/

theorem rep_zero (l : List α) : rep 0 l = [] := rfl
theorem rep_succ (n : Nat) (l : List α) : rep (n + 1) l = l ++ rep n l := by simp [rep, List.replicate_succ]

theorem shapes_append (l l' : List (Entry p G)) : shapes (l ++ l') = shapes l ++ shapes l' := List.map_append

/-- A loop over items of which every one emits a part of shape `s`. -/
theorem each_rep {g : β → τ} {k : α → Tr p G β} (s : List (Instr p G)) (y : τ) (l : List α)
    (h : ∀ a ∈ l, ∀ n, ∃ b o, k a n = some (b, o) ∧ g b = y ∧ shapes o.log = s) (n : Nat) :
    ∃ bs o, each k l n = some (bs, o) ∧ bs.map g = List.replicate l.length y ∧ shapes o.log = rep l.length s := by
  induction l generalizing n with
  | nil => exact ⟨_, _, rfl, rfl, rfl⟩
  | cons a l ih =>
    obtain ⟨b, o, e1, e2, e3⟩ := h a (by simp) n
    obtain ⟨bs, t, e4, e5, e6⟩ := ih (fun a ha => h a (by simp [ha])) (n + width o.log)
    refine ⟨b :: bs, ⟨o.log ++ t.log, o.ok && t.ok⟩, ?_, by simp [e2, e5, List.replicate_succ], ?_⟩
    · show (k a >>= fun b => each k l >>= fun bs => pure (b :: bs)) n = _
      rw [bind_def, e1]
      simp only
      rw [bind_def, e4]
      simp [pure]
    · simp only [shapes_append, e3, e6, List.length_cons, rep_succ]

theorem alike_some {f : α → σ} {m m' : Tr p G α} (h : Alike f m m') {n : Nat} {a : α} {o : Out p G} (e : m n = some (a, o))
    (n' : Nat) : ∃ a' o', m' n' = some (a', o') ∧ f a' = f a ∧ shapes o'.log = shapes o.log := by
  rcases h n n' with ⟨e1, -⟩ | ⟨b, t, b', t', e1, e2, e3, e4⟩
  · rw [e] at e1; cases e1
  · rw [e] at e1
    cases e1
    exact ⟨b', t', e2, e3.symm, e4.symm⟩

theorem bind_some_intro {m : Tr p G α} {k : α → Tr p G β} {n : Nat} {a : α} {o : Out p G} (h : m n = some (a, o)) {b : β}
    {t : Out p G} (h' : k a (n + width o.log) = some (b, t)) :
    ∃ u : Out p G, (m >>= k) n = some (b, u) ∧ u.log = o.log ++ t.log := by
  refine ⟨⟨o.log ++ t.log, o.ok && t.ok⟩, ?_, rfl⟩
  rw [bind_def, h]
  simp only
  rw [h']

section
variable [AddCommGroup G] [Module (ZMod q) G] [DecidableEq G]

/-! ## Aggregator -/

theorem gives_delLoop (cv : Curve p q G) (hs : Hashes p) (on : Wire Bool) (us : List (UtxoW p G))
    (ds : List (Wire (ZMod p) × List (Wire (ZMod p)))) (r : Wire (ZMod p)) (hr : IsVar r) :
    Gives IsVar (delLoop cv hs on us ds r) := by
  induction us generalizing ds r with
  | nil => cases ds <;> first | exact gives_pure hr | exact gives_panic
  | cons u us ih =>
    cases ds with
    | nil => exact gives_panic
    | cons d ds =>
      refine gives_skip fun _ => gives_skip fun _ => gives_bind (P := IsVar) ?_ fun r' hr' => ih _ _ hr'
      exact gives_skip fun _ => gives_skip fun _ => gives_call

theorem gives_depositStep (P : AggC.Params p G) (cv : Curve p q G) (on : Wire Bool) (u : UtxoW p G) (d : Wire (ZMod p))
    (hd : IsVar d) : Gives IsVar (depositStep P cv on u d) := by
  unfold depositStep
  by_cases ht : P.transferOnly
  · rw [if_pos ht]; exact gives_pure hd
  · rw [if_neg ht]
    exact gives_skip fun _ => gives_skip fun _ => gives_skip fun _ => gives_skip fun _ => gives_skip fun _ =>
      gives_skip fun _ => gives_skip fun _ => gives_call

theorem gives_withdrawalStep (P : AggC.Params p G) (cv : Curve p q G) (k : Wire G) (w d : Wire (ZMod p))
    (hd : IsVar d) : Gives IsVar (withdrawalStep P cv k w d) := by
  unfold withdrawalStep
  by_cases ht : P.transferOnly
  · rw [if_pos ht]; exact gives_pure hd
  · rw [if_neg ht]
    exact gives_skip fun _ => gives_skip fun _ => gives_skip fun _ => gives_skip fun _ => gives_skip fun _ =>
      gives_skip fun _ => gives_call

theorem gives_addLoop (P : AggC.Params p G) (cv : Curve p q G) (on ok : Wire Bool) (us : List (UtxoW p G))
    (ds : List (Wire (ZMod p) × List (Wire (ZMod p)))) (d w r : Wire (ZMod p)) (hd : IsVar d) (hr : IsVar r) :
    Gives (fun x => IsVar x.1 ∧ IsVar x.2.2) (addLoop P cv on ok us ds d w r) := by
  induction us generalizing ds d w r with
  | nil => cases ds <;> first | exact gives_pure ⟨hd, hr⟩ | exact gives_panic
  | cons u us ih =>
    cases ds with
    | nil => exact gives_panic
    | cons a ds =>
      refine gives_skip fun _ => gives_bind (gives_depositStep P cv _ _ _ hd) fun d' hd' => ?_
      refine gives_skip fun _ => gives_skip fun _ => gives_skip fun _ => gives_skip fun _ => gives_skip fun _ =>
        gives_skip fun _ => gives_skip fun _ => gives_skip fun _ => gives_bind (P := IsVar) ?_ fun r' hr' => ih _ _ _ _ hd' hr'
      exact gives_skip fun _ => gives_skip fun _ => gives_call

/-- All operands of the state are variables. -/
def vars8 : List (Ref (ZMod p)) := List.replicate 8 (.var 0)

theorem gives_updateLoop (h2 : ZMod p → ZMod p → ZMod p) (l : List (Wire (ZMod p))) (bs : List (Wire Bool))
    (o n : Wire (ZMod p)) (hn : IsVar n) : Gives (fun x => IsVar x.2) (updateLoop h2 l bs o n : Tr p G _) := by
  induction l generalizing bs o n with
  | nil => cases bs <;> exact gives_pure hn
  | cons a l ih =>
    cases bs with
    | nil => exact gives_pure hn
    | cons b bs =>
      refine gives_skip fun _ => gives_skip fun _ => gives_skip fun _ => gives_skip fun _ => gives_skip fun _ =>
        gives_skip fun _ => gives_skip fun _ => gives_bind (P := IsVar) gives_call fun _ h => ih _ _ _ h

theorem gives_updateRoot {L : Type} {leafHash : L → Tr p G (Wire (ZMod p))} (hh : ∀ a, Gives IsVar (leafHash a))
    (h2 : ZMod p → ZMod p → ZMod p) (height : Nat) (l : List (Wire (ZMod p))) (o n : L) (i : Wire (ZMod p)) :
    Gives (fun x => IsVar x.2) (updateRoot leafHash h2 height l o n i) :=
  gives_skip fun _ => gives_skip fun _ => gives_bind (hh _) fun _ h => gives_skip fun _ => gives_updateLoop _ _ _ _ _ h

theorem gives_txHash (cv : Curve p q G) (H : List (ZMod p) → ZMod p) (t : TxW p G) : Gives IsVar (txHash cv H t) :=
  gives_skip fun _ => gives_call

theorem gives_stepOne (P : AggC.Params p G) (cv : Curve p q G) (z : StateW p) (i : InputsW p G) (hz : z.kinds = vars8) :
    Gives (fun z' : StateW p => z'.kinds = vars8) (stepOne P cv z i) := by
  simp only [StateW.kinds, vars8, List.replicate, List.cons.injEq, and_true] at hz
  obtain ⟨z1, z2, z3, z4, z5, z6, z7, z8⟩ := hz
  refine gives_skip fun _ => gives_skip fun _ => gives_bind (gives_updateRoot (gives_txHash cv _) _ _ _ _ _ _) fun u hu => ?_
  refine gives_skip fun _ => gives_skip fun _ => gives_skip fun _ => gives_skip fun _ => gives_skip fun _ => ?_
  refine gives_bind (gives_delLoop cv _ _ _ _ _ z2) fun r1 hr1 => ?_
  refine gives_bind (gives_addLoop P cv _ _ _ _ _ _ _ z7 hr1) fun x hx => ?_
  obtain ⟨dep, w, r2⟩ := x
  refine gives_skip fun _ => gives_skip fun _ => gives_bind (P := IsVar) gives_call fun _ h1 => ?_
  refine gives_skip fun _ => gives_skip fun _ => gives_skip fun _ => ?_
  refine gives_bind (P := IsVar) (gives_skip fun _ => gives_call) fun _ h2 => ?_
  refine gives_bind (gives_withdrawalStep P cv _ _ _ z8) fun _ h3 => ?_
  refine gives_bind (P := IsVar) gives_call fun _ h4 => gives_pure ?_
  simp only [IsVar] at hu hx h1 h2 h3 h4
  simp only [StateW.kinds, vars8, List.replicate, h4, hx.2, hu, z4, h1, h2, hx.1, h3]

/-- A batch: one part per transaction. -/
theorem stepBatch_rep (P : AggC.Params p G) (cv : Curve p q G) (z0 : StateW p) (i0 : InputsW p G) (n0 : Nat) (b0 : StateW p)
    (o0 : Out p G) (hz0 : z0.kinds = vars8) (e0 : stepOne P cv z0 i0 n0 = some (b0, o0)) (is : List (InputsW p G))
    (hi : ∀ i ∈ is, i.kinds = i0.kinds) (z : StateW p) (hz : z.kinds = vars8) (n : Nat) :
    ∃ z' o, stepBatch P cv z is n = some (z', o) ∧ shapes o.log = rep is.length (shapes o0.log) := by
  induction is generalizing z n with
  | nil => exact ⟨_, _, rfl, rfl⟩
  | cons i is ih =>
    obtain ⟨z1, t, e1, -, e3⟩ := alike_some (alike_stepOne P cv z0 z i0 i (by rw [hz0, hz]) (hi i (by simp)).symm) e0 n
    obtain ⟨z2, u, e4, e5⟩ := ih (fun i h => hi i (by simp [h])) z1 (gives_stepOne P cv z i hz _ _ _ e1) (n + width t.log)
    obtain ⟨v, e6, e7⟩ := bind_some_intro (m := stepOne P cv z i) (k := fun z1 => stepBatch P cv z1 is) e1 e4
    exact ⟨z2, v, e6, by rw [e7, shapes_append, e3, e5, List.length_cons, rep_succ]⟩

theorem allocState_some (z : AggC.CState p) : ∃ a o, (allocState z : Tr p G _) 0 = some (a, o) ∧ a.kinds = vars8 ∧
    shapes o.log = rep 8 [⟨.allocField, [], 1⟩] := ⟨_, _, rfl, rfl, rfl⟩

/-- The step of the aggregator on batches whose inputs all have the lengths of `i0`, on which the step does not panic. -/
theorem aggregatorStep_rep (P : AggC.Params p G) (cv : Curve p q G) (z0 : AggC.CState p) (i0 : AggC.CInputs p G)
    (h0 : aggregatorStep P cv z0 [i0] 0 ≠ none) :
    ∃ alloc step : List (Instr p G), ∀ (z : AggC.CState p) (is : List (AggC.CInputs p G)), (∀ i ∈ is, lens i = lens i0) →
      ∃ a o, aggregatorStep P cv z is 0 = some (a, o) ∧
        shapes o.log = rep 8 [⟨.allocField, [], 1⟩] ++ rep is.length alloc ++ rep is.length step := by
  obtain ⟨⟨r, o⟩, e⟩ := Option.ne_none_iff_exists'.1 h0
  obtain ⟨zw, t1, t2, e1, e2, -⟩ := runs_bind e
  obtain ⟨iw, t3, t4, e3, e4, -⟩ := runs_bind e2
  obtain ⟨x, t5, t6, e5, e6, -⟩ := runs_bind (k := fun b => each allocInputs ([] : List (AggC.CInputs p G)) >>= fun bs => pure (b :: bs)) e3
  cases e6
  obtain ⟨b, t7, -, e7, -, -⟩ := runs_bind (m := stepOne P cv zw x) (k := fun z1 => stepBatch P cv z1 []) e4
  obtain ⟨zk, u0, f0, f1, -⟩ := allocState_some (G := G) z0
  rw [f0] at e1
  cases e1
  refine ⟨shapes t5.log, shapes t7.log, fun z is hl => ?_⟩
  obtain ⟨a1, o1, g1, g2, g3⟩ := allocState_some (G := G) z
  obtain ⟨bs, o2, g4, g5, g6⟩ := each_rep (g := InputsW.kinds) (k := allocInputs) (shapes t5.log) x.kinds is
    (fun i hi n => alike_some (alike_allocInputs i0 i (hl i hi).symm) e5 n) (0 + width o1.log)
  have hk : ∀ i ∈ bs, i.kinds = x.kinds := fun i hi =>
    List.eq_of_mem_replicate (g5 ▸ List.mem_map_of_mem hi)
  obtain ⟨z', o3, g7, g8⟩ := stepBatch_rep P cv _ x _ b t7 f1 e7 bs hk a1 g2 (0 + width o1.log + width o2.log)
  obtain ⟨v, g9, g10⟩ := bind_some_intro (m := each allocInputs is) (k := stepBatch P cv a1) g4 g7
  obtain ⟨v', g11, g12⟩ := bind_some_intro (m := allocState z) (k := fun zw => each allocInputs is >>= stepBatch P cv zw) g1 g9
  refine ⟨z', v', g11, ?_⟩
  have hlen : bs.length = is.length := by simpa using congrArg List.length g5
  rw [g12, g10, shapes_append, shapes_append, g3, g6, g8, hlen, List.append_assoc]

/-! ## Client -/

theorem width_append (l l' : List (Entry p G)) : width (l ++ l') = width l + width l' := by
  induction l with
  | nil => simp [width]
  | cons e l ih => simp only [List.cons_append, width, ih]; omega

theorem tr_assoc (m : Tr p G α) (k : α → Tr p G β) (l : β → Tr p G γ) : (m >>= k) >>= l = m >>= fun a => k a >>= l := by
  funext n
  simp only [bind_def]
  cases m n with
  | none => rfl
  | some x =>
    obtain ⟨a, o⟩ := x
    simp only
    rcases k a (n + width o.log) with _ | ⟨b, t⟩
    · rfl
    · simp only [width_append, ← Nat.add_assoc]
      rcases l b (n + width o.log + width t.log) with _ | ⟨c, u⟩
      · rfl
      · simp [Bool.and_assoc]

theorem pure_then (a : α) (k : α → Tr p G β) : ((pure a : Tr p G α) >>= k) = k a := by
  funext n
  rw [bind_def]
  simp only [pure, width, Nat.add_zero]
  rcases k a n with _ | ⟨b, t⟩
  · rfl
  · simp

/-- The part of the client's step before the loop over the transactions. -/
def prelude (hs : Hashes p) (A : AccKind) (cv : Curve p q G) (z : UStateW p) (blk : BlockW p) (pk : Wire G) :
    Tr p G (Wire (ZMod p) × Wire (ZMod p) × Wire (ZMod p)) := do
  let k ← pkHash cv hs.crh pk
  enforceEq fa k z.pkHash
  let blockHash ← hash hs.crh [blk.utxoRoot, blk.txRoot, blk.signerRoot, blk.height]
  let acc ← accumulate A hs z.acc blockHash
  enforceLe z.prevBlockNumber blk.height
  let same ← isEq fa blockHash z.prevBlockHash
  let prev ← sel fa same z.prevTxIndex (.const 0)
  pure (blockHash, acc, prev)

/-- The items of the loop. -/
def items (a : AuxW p G) := (a.transactions.zip a.txProofs).zip a.signerProofs

theorem updateBalance_eq (hs : Hashes p) (A : AccKind) (cv : Curve p q G) (n : Nat) (z : UStateW p) (a : AuxW p G) :
    updateBalance hs A cv n z a = (do
      assert (decide (a.txProofs.length = n))
      assert (decide (a.transactions.length = n))
      assert (decide (a.signerProofs.length = n))
      let x ← prelude hs A cv z a.block a.pk
      let s ← txLoop (A.params hs) cv a.block a.pk (items a) ⟨z.balance, z.nonce, x.2.2⟩
      pure ⟨s.balance, s.nonce, z.pkHash, x.2.1, x.1, a.block.height, s.prevTxIndex⟩) := by
  simp only [updateBalance, prelude, tr_assoc, pure_then, items]

theorem alike_prelude (hs : Hashes p) (A : AccKind) (cv : Curve p q G) {z z' : UStateW p} {b b' : BlockW p} {k k' : Wire G}
    (hz : z.kinds = z'.kinds) (hb : b.kinds = b'.kinds) (hk : k.kind = k'.kind) :
    Alike kinds3 (prelude hs A cv z b k) (prelude hs A cv z' b' k') := by
  simp only [UStateW.kinds, List.cons.injEq, and_true] at hz
  obtain ⟨z1, z2, z3, z4, z5, z6, z7⟩ := hz
  simp only [BlockW.kinds, Prod.mk.injEq] at hb
  obtain ⟨b1, b2, b3, b4⟩ := hb
  refine alike_bind (alike_pkHash cv _ _ _ hk) fun _ _ h1 => ?_
  refine alike_bind (f := id) (alike_enforceEq (fa_kind h1) (fa_kind z3)) fun _ _ _ => ?_
  refine alike_bind (alike_hash (by simp only [List.map_cons, List.map_nil, b1, b2, b3, b4])) fun _ _ h2 => ?_
  refine alike_bind (alike_accumulate A hs z4 h2) fun _ _ h3 => ?_
  refine alike_bind (f := id) (alike_enforceLe z6 b4) fun _ _ _ => ?_
  refine alike_bind (alike_isEq (fa_kind h2) (fa_kind z5)) fun _ _ h4 => ?_
  refine alike_bind (alike_sel h4 (fa_kind z7) rfl) fun _ _ h5 => alike_pure ?_
  simp only [kinds3, h2, h3, h5]

theorem gives_prelude (hs : Hashes p) (A : AccKind) (cv : Curve p q G) (z : UStateW p) (b : BlockW p) (k : Wire G) :
    Gives (fun x => IsVar x.2.2) (prelude hs A cv z b k) :=
  gives_skip fun _ => gives_skip fun _ => gives_skip fun _ => gives_skip fun _ => gives_skip fun _ => gives_skip fun _ =>
    gives_bind (P := IsVar) gives_call fun _ h => gives_pure h

/-- All operands of the loop are variables. -/
def LoopW.Vars (s : LoopW p) : Prop := IsVar s.balance ∧ IsVar s.nonce ∧ IsVar s.prevTxIndex

theorem LoopW.Vars.kinds_eq {s s' : LoopW p} (h : s.Vars) (h' : s'.Vars) : s.kinds = s'.kinds := by
  simp only [LoopW.kinds, h.1.trans h'.1.symm, h.2.1.trans h'.2.1.symm, h.2.2.trans h'.2.2.symm]

theorem gives_balanceLoop {op : Wire (ZMod p) → Wire (ZMod p) → Tr p G (Wire (ZMod p))} (hop : ∀ x y, Gives IsVar (op x y))
    (k : Wire G) (us : List (UtxoW p G)) (b : Wire (ZMod p)) (hb : IsVar b) : Gives IsVar (balanceLoop op k us b) := by
  induction us generalizing b with
  | nil => exact gives_pure hb
  | cons u us ih => exact gives_skip fun _ => gives_skip fun _ => gives_skip fun _ => gives_bind (hop _ _) fun _ h => ih _ h

theorem gives_txStep (P : Client.Params p) (cv : Curve p q G) (b : BlockW p) (k : Wire G) (s : LoopW p) (hs : s.Vars)
    (t : TxW p G) (i : Wire (ZMod p)) (l m : List (Wire (ZMod p) × Wire (ZMod p))) :
    Gives LoopW.Vars (txStep P cv b k s t i l m) := by
  refine gives_skip fun _ => gives_skip fun _ => gives_skip fun _ => gives_skip fun _ => gives_skip fun _ =>
    gives_skip fun _ => gives_skip fun _ => gives_skip fun _ => gives_skip fun _ => gives_skip fun _ => ?_
  refine gives_bind (P := IsVar) gives_call fun _ h1 => ?_
  refine gives_bind (gives_balanceLoop (fun _ _ => gives_call) _ _ _ hs.1) fun _ h2 => ?_
  refine gives_bind (gives_balanceLoop (fun _ _ => gives_call) _ _ _ h2) fun _ h3 => ?_
  refine gives_skip fun _ => gives_skip fun _ => gives_skip fun _ => gives_skip fun _ => gives_skip fun _ => ?_
  exact gives_bind (P := IsVar) gives_call fun _ h4 => gives_pure ⟨h3, h1, h4⟩

theorem txLoop_rep (P : Client.Params p) (cv : Curve p q G) (b0 : BlockW p) (k0 : Wire G)
    (x0 : ((TxW p G × Wire (ZMod p)) × List (Wire (ZMod p) × Wire (ZMod p))) × List (Wire (ZMod p) × Wire (ZMod p)))
    (s0 : LoopW p) (n0 : Nat) (r0 : LoopW p) (o0 : Out p G) (h0 : s0.Vars)
    (e0 : txStep P cv b0 k0 s0 x0.1.1.1 x0.1.1.2 x0.1.2 x0.2 n0 = some (r0, o0)) (b : BlockW p) (hb : b.kinds = b0.kinds)
    (k : Wire G) (hk : k.kind = k0.kind)
    (l : List (((TxW p G × Wire (ZMod p)) × List (Wire (ZMod p) × Wire (ZMod p))) × List (Wire (ZMod p) × Wire (ZMod p))))
    (hl : ∀ x ∈ l, itemKinds x = itemKinds x0) (s : LoopW p) (hs : s.Vars) (n : Nat) :
    ∃ r o, txLoop P cv b k l s n = some (r, o) ∧ shapes o.log = rep l.length (shapes o0.log) := by
  induction l generalizing s n with
  | nil => exact ⟨_, _, rfl, rfl⟩
  | cons x l ih =>
    have hx := hl x (by simp)
    simp only [itemKinds, txiKinds, Prod.mk.injEq] at hx
    obtain ⟨s1, t, e1, -, e3⟩ := alike_some (alike_txStep P cv hb.symm hk.symm (h0.kinds_eq hs) hx.1.1.1.symm hx.1.1.2.symm
      hx.1.2.symm hx.2.symm) e0 n
    obtain ⟨r, u, e4, e5⟩ := ih (fun x h => hl x (by simp [h])) s1 (gives_txStep P cv _ _ _ hs _ _ _ _ _ _ _ e1) (n + width t.log)
    obtain ⟨v, e6, e7⟩ := bind_some_intro (m := txStep P cv b k s x.1.1.1 x.1.1.2 x.1.2 x.2) (k := fun s1 => txLoop P cv b k l s1) e1 e4
    exact ⟨r, v, e6, by rw [e7, shapes_append, e3, e5, List.length_cons, rep_succ]⟩

theorem allocUState_some (z : Client.UState p) : ∃ a o, (allocUState z : Tr p G _) 0 = some (a, o) ∧
    a.kinds = List.replicate 7 (.var 0) ∧ shapes o.log = rep 7 [⟨.allocField, [], 1⟩] := ⟨_, _, rfl, rfl, rfl⟩

theorem allocBlock_some (b : BlockVar (ZMod p)) (n : Nat) : ∃ a o, (allocBlock b : Tr p G _) n = some (a, o) ∧
    a.kinds = (.var 0, .var 0, .var 0, .var 0) ∧ shapes o.log = rep 4 [⟨.allocField, [], 1⟩] := ⟨_, _, rfl, rfl, rfl⟩

theorem allocP_some (k : G) (n : Nat) : ∃ a o, (allocP k : Tr p G _) n = some (a, o) ∧
    a.kind = .var 0 ∧ shapes o.log = [⟨.allocPoint, [], 1⟩] := ⟨_, _, rfl, rfl, rfl⟩

/-- The allocation of a transaction with its index. -/
def allocTxi (x : Tx (ZMod p) G × ZMod p) : Tr p G (TxW p G × Wire (ZMod p)) := do
  let t ← allocTx x.1
  let i ← allocF x.2
  pure (t, i)

theorem alike_allocTxi (x y : Tx (ZMod p) G × ZMod p) : Alike txiKinds (allocTxi x) (allocTxi y) :=
  alike_bind (alike_allocTx _ _) fun _ _ h1 => alike_bind (alike_call rfl) fun _ _ h2 =>
    alike_pure (by simp only [txiKinds, h1, h2])

/-- A synthesis that does not panic whatever its input. -/
theorem allocPath_some (l : List (ZMod p × ZMod p)) (n : Nat) : ∃ a o, (allocPath l : Tr p G _) n = some (a, o) := by
  obtain ⟨a, o, e, -, -⟩ := each_rep (p := p) (G := G) (g := kinds2)
    (k := fun x : ZMod p × ZMod p => (do let a ← allocF x.1; let b ← allocF x.2; pure (a, b)))
    [⟨.allocField, [], 1⟩, ⟨.allocField, [], 1⟩] (.var 0, .var 0) l (fun _ _ _ => ⟨_, _, rfl, rfl, rfl⟩) n
  exact ⟨a, o, e⟩

/-- The inputs of the client, with `n` transactions and paths of fixed lengths. -/
theorem allocAux_rep (x0 : Tx (ZMod p) G × ZMod p) (m k : Nat)
    (h0 : ∃ a o, (allocTxi x0 : Tr p G _) 0 = some (a, o)) :
    ∃ (s1 s2 s3 : List (Instr p G)) (i0 : _), ∀ (a : Client.UserAuxVar p G) (n j : Nat), a.transactions.length = n → a.txProofs.length = n →
      a.signerProofs.length = n → (∀ x ∈ a.txProofs, x.length = m) → (∀ x ∈ a.signerProofs, x.length = k) →
      ∃ w o, allocAux a j = some (w, o) ∧ w.txProofs.length = n ∧ w.transactions.length = n ∧ w.signerProofs.length = n ∧
        w.block.kinds = (.var 0, .var 0, .var 0, .var 0) ∧ w.pk.kind = .var 0 ∧ (items w).map itemKinds = List.replicate n i0 ∧
        shapes o.log = rep n s1 ++ rep n s2 ++ rep 4 [⟨.allocField, [], 1⟩] ++ rep n s3 ++ [⟨.allocPoint, [], 1⟩] := by
  obtain ⟨p1, o1, e1⟩ := allocPath_some (G := G) (List.replicate m ((0 : ZMod p), (0 : ZMod p))) 0
  obtain ⟨p2, o2, e2⟩ := allocPath_some (G := G) (List.replicate k ((0 : ZMod p), (0 : ZMod p))) 0
  obtain ⟨p3, o3, e3⟩ := h0
  refine ⟨shapes o1.log, shapes o2.log, shapes o3.log, ((txiKinds p3, p1.map kinds2), p2.map kinds2), ?_⟩
  intro a n j l1 l2 l3 hm hk
  obtain ⟨w1, t1, f1, f2, f3⟩ := each_rep (g := List.map kinds2) (k := allocPath) (shapes o1.log) (p1.map kinds2) a.txProofs
    (fun x hx n => alike_some (alike_allocPath _ x (by rw [hm x hx, List.length_replicate])) e1 n) j
  obtain ⟨w2, t2, f4, f5, f6⟩ := each_rep (g := List.map kinds2) (k := allocPath) (shapes o2.log) (p2.map kinds2) a.signerProofs
    (fun x hx n => alike_some (alike_allocPath _ x (by rw [hk x hx, List.length_replicate])) e2 n) (j + width t1.log)
  obtain ⟨w3, t3, f7, f8, f9⟩ := allocBlock_some (G := G) a.block (j + width t1.log + width t2.log)
  obtain ⟨w4, t4, f10, f11, f12⟩ := each_rep (g := txiKinds) (k := allocTxi) (shapes o3.log) (txiKinds p3) a.transactions
    (fun x _ n => alike_some (alike_allocTxi _ x) e3 n) (j + width t1.log + width t2.log + width t3.log)
  obtain ⟨w5, t5, f13, f14, f15⟩ := allocP_some (p := p) a.pk (j + width t1.log + width t2.log + width t3.log + width t4.log)
  obtain ⟨u1, g1, g1'⟩ := bind_some_intro (m := allocP a.pk) (k := fun pk => (pure ⟨w1, w2, w3, w4, pk⟩ : Tr p G (AuxW p G))) f13 rfl
  obtain ⟨u2, g2, g2'⟩ := bind_some_intro (m := each allocTxi a.transactions)
    (k := fun w4 => allocP a.pk >>= fun pk => (pure ⟨w1, w2, w3, w4, pk⟩ : Tr p G (AuxW p G))) f10 g1
  obtain ⟨u3, g3, g3'⟩ := bind_some_intro (m := allocBlock a.block)
    (k := fun w3 => each allocTxi a.transactions >>= fun w4 => allocP a.pk >>= fun pk => (pure ⟨w1, w2, w3, w4, pk⟩ : Tr p G (AuxW p G))) f7 g2
  obtain ⟨u4, g4, g4'⟩ := bind_some_intro (m := each allocPath a.signerProofs)
    (k := fun w2 => allocBlock a.block >>= fun w3 => each allocTxi a.transactions >>= fun w4 => allocP a.pk >>= fun pk => (pure ⟨w1, w2, w3, w4, pk⟩ : Tr p G (AuxW p G))) f4 g3
  obtain ⟨u5, g5, g5'⟩ := bind_some_intro (m := each allocPath a.txProofs)
    (k := fun w1 => each allocPath a.signerProofs >>= fun w2 => allocBlock a.block >>= fun w3 => each allocTxi a.transactions >>= fun w4 => allocP a.pk >>= fun pk => (pure ⟨w1, w2, w3, w4, pk⟩ : Tr p G (AuxW p G))) f1 g4
  refine ⟨_, u5, g5, ?_, ?_, ?_, f8, f14, ?_, ?_⟩
  · simpa [l2] using congrArg List.length f2
  · simpa [l1] using congrArg List.length f11
  · simpa [l3] using congrArg List.length f5
  · have key : ∀ a : AuxW p G, (items a).map itemKinds =
        ((a.transactions.map txiKinds).zip (a.txProofs.map (List.map kinds2))).zip (a.signerProofs.map (List.map kinds2)) := by
      intro a
      unfold items
      rw [List.zip_map, List.zip_map]
      rfl
    rw [key]
    simp only [f2, f5, f11, l1, l2, l3]
    rw [List.zip_replicate', List.zip_replicate']
  · simp only [g5', g4', g3', g2', g1', shapes_append, f3, f6, f9, f12, f15, l1, l2, l3, List.append_assoc, show shapes ([] : List (Entry p G)) = [] from rfl,
      List.append_nil]

theorem assert_some {b : Bool} (h : b = true) (n : Nat) : (assert b : Tr p G Unit) n = some ((), ⟨[], true⟩) := by
  subst h
  rfl

/-- The step of the client, after its inputs are allocated. -/
theorem updateBalance_rep (hs : Hashes p) (A : AccKind) (cv : Curve p q G) (z0 : UStateW p) (a0 : AuxW p G) (n0 : Nat)
    (h0 : updateBalance hs A cv 1 z0 a0 n0 ≠ none) (hz0 : z0.kinds = List.replicate 7 (.var 0)) (i0 : _)
    (hi0 : (items a0).map itemKinds = [i0]) :
    ∃ s1 s2 : List (Instr p G), ∀ (z : UStateW p) (a : AuxW p G) (n j : Nat), z.kinds = z0.kinds → a.block.kinds = a0.block.kinds →
      a.pk.kind = a0.pk.kind → (items a).map itemKinds = List.replicate n i0 → a.txProofs.length = n → a.transactions.length = n →
      a.signerProofs.length = n →
      ∃ r o, updateBalance hs A cv n z a j = some (r, o) ∧ shapes o.log = s1 ++ rep n s2 := by
  have hv : ∀ z : UStateW p, z.kinds = List.replicate 7 (.var 0) → IsVar z.balance ∧ IsVar z.nonce := by
    intro z hz
    simp only [UStateW.kinds, List.replicate, List.cons.injEq, and_true] at hz
    exact ⟨hz.1, hz.2.1⟩
  obtain ⟨⟨r, o⟩, e⟩ := Option.ne_none_iff_exists'.1 h0
  rw [updateBalance_eq] at e
  obtain ⟨_, _, t1, -, e, -⟩ := runs_bind e
  obtain ⟨_, _, t2, -, e, -⟩ := runs_bind e
  obtain ⟨_, _, t3, -, e, -⟩ := runs_bind e
  obtain ⟨x, o1, t4, e1, e, -⟩ := runs_bind e
  obtain ⟨s, o2, t5, e2, -, -⟩ := runs_bind e
  have hsv : (⟨z0.balance, z0.nonce, x.2.2⟩ : LoopW p).Vars :=
    ⟨(hv z0 hz0).1, (hv z0 hz0).2, gives_prelude hs A cv z0 a0.block a0.pk _ _ _ e1⟩
  obtain ⟨y, hy, hyi⟩ := List.map_eq_singleton_iff.1 hi0
  rw [hy] at e2
  obtain ⟨s', o3, t6, e3, -, -⟩ := runs_bind (m := txStep (A.params hs) cv a0.block a0.pk _ y.1.1.1 y.1.1.2 y.1.2 y.2)
    (k := fun s1 => txLoop (A.params hs) cv a0.block a0.pk [] s1) e2
  refine ⟨shapes o1.log, shapes o3.log, fun z a n j hz hb hk hi l1 l2 l3 => ?_⟩
  rw [updateBalance_eq]
  obtain ⟨x', u1, g1, -, g1'⟩ := alike_some (alike_prelude hs A cv hz.symm hb.symm hk.symm) e1 j
  have hlen : (items a).length = n := by simpa using congrArg List.length hi
  obtain ⟨s'', u2, g2, g2'⟩ := txLoop_rep (A.params hs) cv a0.block a0.pk y _ _ s' o3 hsv e3 a.block hb a.pk hk (items a)
    (fun w hw => by rw [hyi]; exact List.eq_of_mem_replicate (hi ▸ List.mem_map_of_mem hw))
    ⟨z.balance, z.nonce, x'.2.2⟩ ⟨(hv z (hz.trans hz0)).1, (hv z (hz.trans hz0)).2, gives_prelude hs A cv z a.block a.pk _ _ _ g1⟩
    (j + width u1.log)
  obtain ⟨v1, g3, g3'⟩ := bind_some_intro (m := txLoop (A.params hs) cv a.block a.pk (items a) ⟨z.balance, z.nonce, x'.2.2⟩)
    (k := fun s => (pure ⟨s.balance, s.nonce, z.pkHash, x'.2.1, x'.1, a.block.height, s.prevTxIndex⟩ : Tr p G (UStateW p))) g2 rfl
  obtain ⟨v2, g4, g4'⟩ := bind_some_intro (m := prelude hs A cv z a.block a.pk)
    (k := fun x => txLoop (A.params hs) cv a.block a.pk (items a) ⟨z.balance, z.nonce, x.2.2⟩ >>= fun s =>
      (pure ⟨s.balance, s.nonce, z.pkHash, x.2.1, x.1, a.block.height, s.prevTxIndex⟩ : Tr p G (UStateW p))) g1 g3
  have skip : ∀ {b : Bool} {m : Tr p G (UStateW p)} {r o}, b = true → m j = some (r, o) →
      ∃ o', (assert b >>= fun _ => m) j = some (r, o') ∧ o'.log = o.log := by
    intro b m r o hb h
    obtain ⟨v, h1, h2⟩ := bind_some_intro (m := (assert b : Tr p G Unit)) (k := fun _ => m) (assert_some hb j) h
    exact ⟨v, h1, h2⟩
  obtain ⟨v3, g5, g5'⟩ := skip (b := decide (a.signerProofs.length = n)) (by simpa using l3) g4
  obtain ⟨v4, g6, g6'⟩ := skip (b := decide (a.transactions.length = n)) (by simpa using l2) g5
  obtain ⟨v5, g7, g7'⟩ := skip (b := decide (a.txProofs.length = n)) (by simpa using l1) g6
  refine ⟨_, v5, g7, ?_⟩
  rw [g7', g6', g5', g4', g3', shapes_append, shapes_append, g1', g2', hlen]
  simp [shapes]

/-- The step of the client. -/
theorem clientStep_rep (hs : Hashes p) (A : AccKind) (cv : Curve p q G) (z0 : Client.UState p) (a0 : Client.UserAuxVar p G)
    (h0 : clientStep hs A cv 1 z0 a0 0 ≠ none) (m k : Nat) (l1 : a0.transactions.length = 1) (l2 : a0.txProofs.length = 1)
    (l3 : a0.signerProofs.length = 1) (hm : ∀ x ∈ a0.txProofs, x.length = m) (hk : ∀ x ∈ a0.signerProofs, x.length = k) :
    ∃ p1 p2 p3 fixed body : List (Instr p G), ∀ (z : Client.UState p) (a : Client.UserAuxVar p G) (n : Nat),
      a.transactions.length = n → a.txProofs.length = n → a.signerProofs.length = n → (∀ x ∈ a.txProofs, x.length = m) →
      (∀ x ∈ a.signerProofs, x.length = k) →
      ∃ r o, clientStep hs A cv n z a 0 = some (r, o) ∧
        shapes o.log = rep 7 [⟨.allocField, [], 1⟩] ++ (rep n p1 ++ rep n p2 ++ rep 4 [⟨.allocField, [], 1⟩] ++ rep n p3 ++
          [⟨.allocPoint, [], 1⟩]) ++ (fixed ++ rep n body) := by
  obtain ⟨⟨r, o⟩, e⟩ := Option.ne_none_iff_exists'.1 h0
  obtain ⟨zw, t1, t2, e1, e2, -⟩ := runs_bind e
  obtain ⟨aw, t3, t4, e3, e4, -⟩ := runs_bind e2
  obtain ⟨zk, u0, f0, f1, -⟩ := allocUState_some (G := G) z0
  rw [f0] at e1
  cases e1
  obtain ⟨x0, hx0⟩ := List.length_eq_one_iff.1 l1
  have htx : ∃ a o, (allocTxi x0 : Tr p G _) 0 = some (a, o) := by
    obtain ⟨_, _, _, -, e5, -⟩ := runs_bind (m := each allocPath a0.txProofs) e3
    obtain ⟨_, _, _, -, e5, -⟩ := runs_bind (m := each allocPath a0.signerProofs) e5
    obtain ⟨_, _, _, -, e5, -⟩ := runs_bind (m := allocBlock a0.block) e5
    obtain ⟨_, _, _, e5, -, -⟩ := runs_bind (m := each allocTxi a0.transactions) e5
    rw [hx0] at e5
    obtain ⟨_, _, _, e5, -, -⟩ := runs_bind (m := allocTxi x0) (k := fun b => each allocTxi [] >>= fun bs => pure (b :: bs)) e5
    obtain ⟨a', o', e6, -, -⟩ := alike_some (alike_allocTxi x0 x0) e5 0
    exact ⟨a', o', e6⟩
  obtain ⟨s1, s2, s3, i0, hA⟩ := allocAux_rep (p := p) x0 m k htx
  obtain ⟨w0, o0, c1, c2, c3, c4, c5, c6, c7, c8⟩ := hA a0 1 (0 + width t1.log) l1 l2 l3 hm hk
  rw [c1] at e3
  cases e3
  obtain ⟨fixed, body, hB⟩ := updateBalance_rep hs A cv zw aw _ (by rw [e4]; simp) f1 i0 c7
  refine ⟨s1, s2, s3, fixed, body, fun z a n l1 l2 l3 hm hk => ?_⟩
  obtain ⟨z', v1, d1, d2, d3⟩ := allocUState_some (G := G) z
  obtain ⟨w, v2, b1, b2, b3, b4, b5, b6, b7, b8⟩ := hA a n (0 + width v1.log) l1 l2 l3 hm hk
  obtain ⟨r', v3, q1, q2⟩ := hB z' w n (0 + width v1.log + width v2.log) (d2.trans f1.symm) (b5.trans c5.symm) (b6.trans c6.symm) b7 b2 b3 b4
  obtain ⟨v, g9, g10⟩ := bind_some_intro (m := allocAux a) (k := updateBalance hs A cv n z') b1 q1
  obtain ⟨v', g11, g12⟩ := bind_some_intro (m := allocUState z) (k := fun zw => allocAux a >>= updateBalance hs A cv n zw) d1 g9
  refine ⟨r', v', g11, ?_⟩
  rw [g12, g10, shapes_append, shapes_append, d3, b8, q2]
  simp only [List.append_assoc]

end
end PF.Prog
