import Verif.Proof.Program

/-!
# The values of the program are those of witness generation
-/
set_option linter.unusedSectionVars false

namespace PF.Prog
open PF PF.Circuit
variable {p q : Nat} {G α β γ δ : Type}

/-- Synthesis with the program recorded does what witness generation does: it panics in the same cases, returns
related results and adds the same flag. -/
def Sim (R : α → β → Prop) (m : Tr p G α) (n : Wit.Syn β) : Prop :=
  ∀ i : Nat, match n with
    | .panic => m i = none
    | .done ok b => ∃ a o, m i = some (a, o) ∧ R a b ∧ o.ok = ok

/-- No panic, no constraint unsatisfied, the value `v`. -/
abbrev Val (g : α → β) (m : Tr p G α) (v : β) : Prop := Sim (fun a b => g a = b) m (pure v)

/-- No information. -/
abbrev NoVal : Unit → Unit → Prop := fun _ _ => True

theorem sim_bind {R : α → β → Prop} {R' : γ → δ → Prop} {m : Tr p G α} {n : Wit.Syn β} {k : α → Tr p G γ}
    {k' : β → Wit.Syn δ} (hm : Sim R m n) (hk : ∀ a b, R a b → Sim R' (k a) (k' b)) :
    Sim R' (m >>= k) (n >>= k') := by
  intro i
  have h := hm i
  cases n with
  | panic =>
    show (m >>= k) i = none
    rw [bind_def, h]
  | done ok b =>
    obtain ⟨a, o, h1, h2, h3⟩ := h
    have h := hk a b h2 (i + width o.log)
    have e : ((Wit.Syn.done ok b : Wit.Syn β) >>= k') = Wit.Syn.bind (.done ok b) k' := rfl
    rw [e, bind_def, h1]
    simp only
    cases hk' : k' b with
    | panic =>
      have e2 : Wit.Syn.bind (.done ok b) k' = .panic := by simp only [Wit.Syn.bind, hk']
      rw [hk'] at h
      rw [e2, show k a (i + width o.log) = none from h]
    | done ok' c =>
      have e2 : Wit.Syn.bind (.done ok b) k' = .done (ok && ok') c := by simp only [Wit.Syn.bind, hk']
      rw [hk'] at h
      rw [e2]
      obtain ⟨a', t', g1, g2, g3⟩ := h
      rw [g1]
      exact ⟨a', _, rfl, g2, by rw [g3, h3]⟩

theorem syn_pure (b : β) (k : β → Wit.Syn γ) : (pure b >>= k) = k b := by
  show Wit.Syn.bind (.done true b) k = _
  cases h : k b <;> simp [Wit.Syn.bind, h]

theorem syn_assoc (x : Wit.Syn α) (f : α → Wit.Syn β) (g : β → Wit.Syn γ) :
    ((x >>= f) >>= g) = x >>= fun a => f a >>= g := by
  show Wit.Syn.bind (Wit.Syn.bind x f) g = Wit.Syn.bind x fun a => Wit.Syn.bind (f a) g
  cases x with
  | panic => rfl
  | done b a =>
    cases h : f a with
    | panic => simp [Wit.Syn.bind, h]
    | done b' c => cases h' : g c <;> simp [Wit.Syn.bind, h, h', Bool.and_assoc]

theorem sim_let {R : α → β → Prop} {R' : γ → δ → Prop} {m : Tr p G α} {b : β} {k : α → Tr p G γ} {n : Wit.Syn δ}
    (hm : Sim R m (pure b)) (hk : ∀ a, R a b → Sim R' (k a) n) : Sim R' (m >>= k) n := by
  intro i
  obtain ⟨a, o, h1, h2, h3⟩ := hm i
  have h := hk a h2 (i + width o.log)
  rw [bind_def, h1]
  simp only
  cases n with
  | panic => rw [show k a (i + width o.log) = none from h]
  | done ok c =>
    obtain ⟨a', t', g1, g2, g3⟩ := h
    rw [g1]
    exact ⟨a', _, rfl, g2, by rw [h3, g3, Bool.true_and]⟩

theorem sim_pure {R : α → β → Prop} {a : α} {b : β} (h : R a b) : Sim R (pure a : Tr p G α) (pure b) :=
  fun _ => ⟨a, _, rfl, h, rfl⟩

theorem sim_weaken {R R' : α → β → Prop} {m : Tr p G α} {n : Wit.Syn β} (h : Sim R m n) (hr : ∀ a b, R a b → R' a b) :
    Sim R' m n := by
  intro s
  have := h s
  cases n with
  | panic => exact this
  | done ok b =>
    obtain ⟨a, t, h1, h2, h3⟩ := this
    exact ⟨a, t, h1, hr a b h2, h3⟩

theorem sim_panic {R : α → β → Prop} : Sim R (panic : Tr p G α) .panic := fun _ => rfl

theorem sim_assert {b b' : Bool} (h : b = b') : Sim NoVal (assert b : Tr p G Unit) (Wit.assert b') := by
  subst h
  intro s
  cases b
  · rfl
  · exact ⟨(), _, rfl, trivial, rfl⟩

theorem val_call {k : Wire α → Arg p G} {g : Gadget} {args : List (Arg p G)} {v v' : α} (h : v = v') :
    Val Wire.val (call k g args v) v' :=
  fun s => ⟨_, _, rfl, h, rfl⟩

theorem wiresFrom_vals (vs : List α) (n : Nat) : (wiresFrom n vs).map Wire.val = vs := by
  induction vs generalizing n with
  | nil => rfl
  | cons v vs ih => simp [wiresFrom, ih]

theorem val_callN {k : Wire α → Arg p G} {g : Gadget} {args : List (Arg p G)} {vs vs' : List α} (h : vs = vs') :
    Val (List.map Wire.val) (callN k g args vs) vs' :=
  fun s => ⟨_, _, rfl, (wiresFrom_vals _ _).trans h, rfl⟩

theorem sim_constrain {g : Gadget} {args : List (Arg p G)} {b b' : Bool} (h : b = b') :
    Sim NoVal (constrain g args b) (Wit.enforce b') :=
  fun s => ⟨(), _, rfl, trivial, by rw [h]⟩

theorem sim_enforceEq [DecidableEq α] {k : Wire α → Arg p G} {x y : Wire α} {b : Bool} (h : decide (x.val = y.val) = b) :
    Sim NoVal (enforceEq k x y) (Wit.enforce b) := sim_constrain h

theorem sim_condEnforceEq [DecidableEq α] {k : Wire α → Arg p G} {x y : Wire α} {on : Wire Bool} {b : Bool} {x' y' : α}
    (hb : on.val = b) (hx : x.val = x') (hy : y.val = y') :
    Sim NoVal (condEnforceEq k x y on) (Wit.condEnforce b x' y') :=
  sim_constrain (by rw [hb, hx, hy])

theorem sim_condEnforceEq' [DecidableEq α] {k : Wire α → Arg p G} {x y : Wire α} {on : Wire Bool} {b : Bool} {x' y' : α}
    (hb : on.val = b) (hx : x.val = x') (hy : y.val = y') :
    Sim NoVal (condEnforceEq k x y on) (Wit.condEnforce b y' x') :=
  sim_constrain (by rw [hb, hx, hy]; simp only [eq_comm])

theorem val_each {g : β → γ} {k : α → Tr p G β} {h : α → γ} (hk : ∀ a, Val g (k a) (h a)) (l : List α) :
    Val (List.map g) (each k l) (l.map h) := by
  induction l with
  | nil => exact sim_pure rfl
  | cons a l ih =>
    refine sim_let (hk a) fun b hb => sim_let ih fun bs hbs => sim_pure ?_
    simp [hb, hbs]

/-! ## Comparison and signatures -/

/-- The values of a pair. -/
def vals2 (x : Wire (ZMod p) × Wire (ZMod p)) : ZMod p × ZMod p := (x.1.val, x.2.val)

theorem sim_ltLoop (bs : List (Wire Bool)) (ds : List (Wire (ZMod p))) (c r : Wire (ZMod p)) :
    Sim (fun a b => vals2 a = b) (ltLoop bs ds c r : Tr p G _)
      (Wit.ltLoop (bs.map Wire.val) (ds.map Wire.val) c.val r.val) := by
  induction bs generalizing ds c r with
  | nil => cases ds <;> exact sim_pure rfl
  | cons b bs ih =>
    cases ds with
    | nil => exact sim_pure rfl
    | cons d ds =>
      refine sim_let (val_call rfl) fun t ht => ?_
      refine sim_let (val_call rfl) fun c1 hc => ?_
      refine sim_let (val_call rfl) fun m hm => ?_
      refine sim_bind (sim_enforceEq (by rw [hm]; rfl)) fun _ _ _ => ?_
      refine sim_let (val_call rfl) fun f hf => ?_
      refine sim_let (val_call rfl) fun r1 hr => ?_
      have := ih ds c1 r1
      rw [hc, ht, hr, hf] at this
      exact this

theorem getD_val {l : List (Wire α)} (i : Nat) (d : Wire α) :
    (l.getD i d).val = (l.map Wire.val).getD i d.val := by
  simp [List.getD_eq_getElem?_getD, List.getElem?_map, Option.getD_map]

theorem sim_enforceLt (W : Nat) {x y : List (Wire Bool)} {x' y' : List Bool} (hx : x.map Wire.val = x')
    (hy : y.map Wire.val = y') : Sim NoVal (enforceLt W x y : Tr p G _) (Wit.enforceLt p W x' y') := by
  subst hx; subst hy
  have hch : ∀ l : List (Wire Bool), Val (List.map Wire.val) (each packBits (Schnorr.chunks (W - 1) l) : Tr p G _)
      (Schnorr.chunkVals p W (l.map Wire.val)) := by
    intro l
    unfold Schnorr.chunkVals
    rw [chunks_map, List.map_map]
    exact val_each (fun a => val_call rfl) _
  refine sim_let (hch x) fun xs hxs => ?_
  refine sim_let (hch y) fun ys hys => ?_
  have lx : xs.length = (Schnorr.chunkVals p W (x.map Wire.val)).length := by rw [← hxs, List.length_map]
  have ly : ys.length = (Schnorr.chunkVals p W (y.map Wire.val)).length := by rw [← hys, List.length_map]
  unfold Wit.enforceLt
  generalize Schnorr.chunkVals p W (x.map Wire.val) = X at *
  generalize Schnorr.chunkVals p W (y.map Wire.val) = Y at *
  rw [lx, ly]
  have hg : ∀ i : Nat, (xs.getD i (.const 0)).val = X.getD i 0 := fun i => by rw [getD_val, hxs]; rfl
  have hg' : ∀ i : Nat, (ys.getD i (.const 0)).val = Y.getD i 0 := fun i => by rw [getD_val, hys]; rfl
  refine sim_let (R := fun l b => l.map Wire.val = b) (b := Schnorr.deltas X Y)
    (val_each (fun i => val_call (by rw [hg, hg'])) _) fun ds hds => ?_
  simp only [hg, hg']
  refine sim_let (val_callN rfl) fun hl hh => ?_
  have := sim_ltLoop (G := G) hl ds (.const 0) (.const 0)
  rw [hh, hds] at this
  refine sim_bind this fun cr cr' hcr => ?_
  obtain ⟨c, r⟩ := cr
  obtain ⟨c', r'⟩ := cr'
  simp only [vals2, Prod.mk.injEq] at hcr
  obtain ⟨h1, h2⟩ := hcr
  refine sim_let (val_call rfl) fun c1 hc1 => ?_
  have hc1 : c1.val = c' - 1 := by rw [hc1, h1]; rfl
  refine sim_let (val_callN rfl) fun b hb => ?_
  refine sim_let (val_call rfl) fun v hv => ?_
  refine sim_bind (sim_enforceEq (by rw [hv]; simp only [show (b.map (·.val)) = _ from hb, hc1])) fun _ _ _ => ?_
  exact sim_enforceEq (by rw [h2]; rfl)

theorem sim_toNBits (x : Wire (ZMod p)) (n : Nat) :
    Sim (fun a b => a.map Wire.val = b) (toNBits x n : Tr p G _) (Wit.toNBits x.val n) := by
  intro s
  refine ⟨_, _, rfl, wiresFrom_vals _ _, ?_⟩
  simp [Bool.and_assoc]

theorem sim_isLess (x y : Wire (ZMod p)) :
    Sim (fun a b => a.val = b) (isLess x y : Tr p G _) (Wit.isLess x.val y.val) :=
  sim_bind (sim_constrain rfl) fun _ _ _ => val_call rfl

theorem sim_enforceLe {x y : Wire (ZMod p)} {x' y' : ZMod p} (hx : x.val = x') (hy : y.val = y') :
    Sim NoVal (enforceLe x y : Tr p G _) (Wit.enforceLe x' y') := by
  subst hx; subst hy
  intro s
  refine ⟨(), _, rfl, trivial, ?_⟩
  simp

theorem val_shaField (sha : Sha) (l : List (Wire Byte)) {b : List Byte} (h : l.map Wire.val = b) :
    Val Wire.val (shaField sha l : Tr p G _) (shaFieldVar p sha b) := by
  subst h
  refine sim_let (val_callN rfl) fun d hd => val_call ?_
  unfold shaFieldVar
  rw [show (d.take 31).map (·.val) = (d.map Wire.val).take 31 from List.map_take, hd]

section
variable [AddCommGroup G] [Module (ZMod q) G]

theorem sim_isValid (hq : 0 < modBits q) (hpq : modBits q ≤ modBits p) (W : Nat) (cv : Curve p q G)
    (H : List (ZMod p) → ZMod p) {pk : Wire G} {m : List (Wire (ZMod p))} {s e : List (Wire Bool)}
    {pk' : G} {m' : List (ZMod p)} {s' e' : List Bool} (hpk : pk.val = pk') (hm : m.map Wire.val = m')
    (hs : s.map Wire.val = s') (he : e.map Wire.val = e') (hlen : e.length = modBits q) :
    Sim (fun a b => a.val = b) (isValid W cv H pk m s e) (Wit.isValidGadget W cv H pk' m' s' e') := by
  subst hpk; subst hm; subst hs; subst he
  refine sim_let (val_call rfl) fun r1 h1 => ?_
  refine sim_let (val_call rfl) fun r2 h2 => ?_
  refine sim_let (val_call rfl) fun r hr => ?_
  refine sim_let (val_callN rfl) fun xy hxy => ?_
  refine sim_let (val_call rfl) fun h hh => ?_
  refine sim_let (val_callN rfl) fun hb hhb => ?_
  have hch : (hb.take (modBits q)).map Wire.val =
      Schnorr.challengeBits cv H pk.val (m.map Wire.val) (s.map Wire.val) (e.map Wire.val) := by
    rw [List.map_take, hhb, hh]
    unfold Schnorr.challengeBits
    simp only [List.map_append, List.map_dropLast]
    rw [show (xy.map fun x => x.val) = _ from hxy, hr, h1, h2]
    rfl
  refine sim_bind (sim_enforceLt W hch (by simp [Wire.const, Function.comp_def])) fun _ _ _ => ?_
  have hl : (hb.take (modBits q)).length = modBits q := by
    have := congrArg List.length hhb
    simp only [List.length_map, toBitsLe, natBits_length] at this
    rw [List.length_take, this, Nat.min_eq_left hpq]
  have g1 : (hb.take (modBits q))[modBits q - 1]? = some ((hb.take (modBits q))[modBits q - 1]'(by omega)) :=
    List.getElem?_eq_getElem _
  have g2 : e[modBits q - 1]? = some (e[modBits q - 1]'(by omega)) := List.getElem?_eq_getElem _
  generalize (hb.take (modBits q))[modBits q - 1]'(by omega) = x at g1
  generalize e[modBits q - 1]'(by omega) = y at g2
  generalize hb.take (modBits q) = hb1 at *
  rw [← hch]
  simp only [g1, g2]
  refine sim_let (val_call rfl) fun a ha => ?_
  refine sim_let (val_call rfl) fun b hb => ?_
  refine sim_let (val_call rfl) fun eq heq => ?_
  refine sim_let (val_call rfl) fun l hl => ?_
  refine val_call ?_
  rw [heq, hl, ha, hb, List.getElem?_map, List.getElem?_map, g1, g2]
  simp only [Option.map_some, Option.some.injEq, List.map_take]

/-! ## Data -/

/-- The values of a UTXO. -/
def UtxoW.val (u : UtxoW p G) : UTXO (ZMod p) G := ⟨u.amount.val, u.pk.val, u.isDummy.val⟩
/-- The values of a transaction. -/
def TxIs (t : TxW p G) (v : Tx (ZMod p) G) : Prop :=
  t.inputs.map UtxoW.val = v.inputs.toList ∧ t.outputs.map UtxoW.val = v.outputs.toList

theorem val_allocUtxo (u : UTXO (ZMod p) G) : Val UtxoW.val (allocUtxo u) u :=
  sim_let (val_call rfl) fun _ h1 => sim_let (val_call rfl) fun _ h2 => sim_let (val_call rfl) fun _ h3 =>
    sim_pure (by simp [UtxoW.val, h1, h2, h3])

theorem val_allocTx (t : Tx (ZMod p) G) : Sim TxIs (allocTx t) (pure t) := by
  refine sim_let (val_each val_allocUtxo _) fun _ h1 => sim_let (val_each val_allocUtxo _) fun _ h2 => sim_pure ?_
  exact ⟨by rw [h1, List.map_id'], by rw [h2, List.map_id']⟩

theorem constUtxo_val (u : UTXO (ZMod p) G) : (constUtxo u).val = u := rfl

theorem constTx_is (t : Tx (ZMod p) G) : TxIs (constTx t) t := by
  constructor <;> simp [constTx, Function.comp_def, constUtxo_val]

theorem val_utxoFields (cv : Curve p q G) (u : UtxoW p G) :
    Val (List.map Wire.val) (utxoFields cv u) (utxoEncVar cv u.val) :=
  sim_let (val_call rfl) fun _ h1 => sim_let (val_callN rfl) fun _ h2 => sim_pure (by
    rw [List.map_cons, List.map_cons, h1, h2]; rfl)

theorem val_txFields (cv : Curve p q G) {t : TxW p G} {v : Tx (ZMod p) G} (h : TxIs t v) :
    Val (List.map Wire.val) (txFields cv t) (txEncVar cv v) := by
  refine sim_let (val_each (val_utxoFields cv) _) fun l hl => sim_pure ?_
  rw [List.map_flatten, hl]
  unfold txEncVar Tx.ios
  rw [← h.1, ← h.2, ← List.map_append, List.flatMap_def, List.map_map]
  rfl

theorem val_utxoHash (cv : Curve p q G) (H : List (ZMod p) → ZMod p) (u : UtxoW p G) (v : UTXO (ZMod p) G)
    (h : u.val = v) : Val Wire.val (utxoHash cv H u) (utxoVarCRH cv H v) := by
  subst h
  exact sim_let (val_utxoFields cv u) fun l hl => val_call (by rw [show (l.map fun x => x.val) = _ from hl]; rfl)

theorem val_txHash (cv : Curve p q G) (H : List (ZMod p) → ZMod p) (t : TxW p G) (v : Tx (ZMod p) G)
    (h : TxIs t v) : Val Wire.val (txHash cv H t) (txVarCRH cv H v) :=
  sim_let (val_txFields cv h) fun l hl => val_call (by rw [show (l.map fun x => x.val) = _ from hl]; rfl)

theorem val_pkHash (cv : Curve p q G) (H : List (ZMod p) → ZMod p) (t : Wire G) (v : G)
    (h : t.val = v) : Val Wire.val (pkHash cv H t) (pkVarCRH cv H v) := by
  subst h
  exact sim_let (val_callN rfl) fun l hl => val_call (by rw [show (l.map fun x => x.val) = _ from hl]; rfl)

/-! ## Trees -/

theorem val_updateLoop (h2 : ZMod p → ZMod p → ZMod p) (l : List (Wire (ZMod p))) (bs : List (Wire Bool))
    (o n : Wire (ZMod p)) : Val vals2 (updateLoop h2 l bs o n : Tr p G _)
      (MT.updateRootLoop h2 (l.map Wire.val) (bs.map Wire.val) o.val n.val) := by
  induction l generalizing bs o n with
  | nil => cases bs <;> exact sim_pure rfl
  | cons a l ih =>
    cases bs with
    | nil => exact sim_pure rfl
    | cons b bs =>
      refine sim_let (val_call rfl) fun _ h1 => ?_
      refine sim_let (val_call rfl) fun _ h2 => ?_
      refine sim_let (val_call rfl) fun _ h3 => ?_
      refine sim_let (val_call rfl) fun _ h4 => ?_
      refine sim_let (val_call rfl) fun _ h5 => ?_
      refine sim_let (val_call rfl) fun _ h6 => ?_
      refine sim_let (val_call rfl) fun o1 h7 => ?_
      refine sim_let (val_call rfl) fun n1 h8 => ?_
      have := ih bs o1 n1
      rw [h7, h8, h6, h5, h4, h3, h2, h1] at this
      exact this

theorem assert_false (h : α → Tr p G β) (k : Unit → Tr p G β) : (assert false >>= k) = panic := rfl
theorem assert_true (k : Unit → Tr p G β) : (assert true >>= k) = k () := by
  funext n
  rw [bind_def]
  simp only [assert, if_true, width, Nat.add_zero]
  cases k () n with
  | none => rfl
  | some x => simp
theorem syn_true (k : Unit → Wit.Syn β) : (Wit.assert true >>= k) = k () := by
  exact syn_pure () k

theorem val_updateRoot {L L' : Type} {LR : L → L' → Prop} (cfg : MT.Config L' (ZMod p))
    {leafHash : L → Tr p G (Wire (ZMod p))} (hh : ∀ a b, LR a b → Val Wire.val (leafHash a) (cfg.leafHash b))
    {l : List (Wire (ZMod p))} {l' : List (ZMod p)} {o n : L} {o' n' : L'} {i : Wire (ZMod p)} {i' : ZMod p}
    (hl : l.map Wire.val = l') (ho : LR o o') (hn : LR n n') (hi : i.val = i') (hlen : l'.length = cfg.height - 1) :
    Val vals2 (updateRoot leafHash cfg.h2 cfg.height l o n i) (MT.updateRoot cfg l' o' n' i') := by
  subst hl; subst hi
  unfold updateRoot
  rw [decide_eq_true (by simpa using hlen), assert_true]
  refine sim_let (hh _ _ ho) fun _ h1 => ?_
  refine sim_let (hh _ _ hn) fun _ h2 => ?_
  refine sim_let (val_callN rfl) fun _ h3 => ?_
  have := val_updateLoop (G := G) cfg.h2 l
  unfold MT.updateRoot
  rw [← h1, ← h2, ← h3]
  exact this _ _ _

theorem updateRoot_panic {L : Type} {leafHash : L → Tr p G (Wire (ZMod p))} (h2 : ZMod p → ZMod p → ZMod p)
    (height : Nat) {l : List (Wire (ZMod p))} {o n : L} {i : Wire (ZMod p)} (hlen : l.length ≠ height - 1) :
    updateRoot leafHash h2 height l o n i = panic := by
  unfold updateRoot
  rw [decide_eq_false hlen]
  rfl

theorem panic_bind (k : α → Tr p G β) : ((panic : Tr p G α) >>= k) = panic := rfl
theorem syn_false (k : Unit → Wit.Syn β) : (Wit.assert false >>= k) = .panic := rfl

theorem sim_condUpdate {L L' : Type} {LR : L → L' → Prop} (cfg : MT.Config L' (ZMod p))
    {leafHash : L → Tr p G (Wire (ZMod p))} (hh : ∀ a b, LR a b → Val Wire.val (leafHash a) (cfg.leafHash b))
    {on : Wire Bool} {on' : Bool}
    {l : List (Wire (ZMod p))} {l' : List (ZMod p)} {o n : L} {o' n' : L'} {i r : Wire (ZMod p)} {i' r' : ZMod p}
    (hon : on.val = on') (hi : i.val = i') (hl : l.map Wire.val = l') (ho : LR o o') (hn : LR n n') (hr : r.val = r') :
    Sim (fun a b => a.val = b) (condUpdate leafHash cfg.h2 cfg.height on i l o n r)
      (Wit.condUpdate cfg on' i' l' o' n' r') := by
  unfold Wit.condUpdate condUpdate
  by_cases hlen : l'.length = cfg.height - 1
  · rw [decide_eq_true hlen, syn_true]
    refine sim_let (val_updateRoot cfg hh hl ho hn hi hlen) fun u hu => ?_
    rw [← hu]
    refine sim_bind (sim_condEnforceEq hon hr rfl) fun _ _ _ => ?_
    exact val_call (by rw [hon, hr]; rfl)
  · rw [decide_eq_false hlen, syn_false, updateRoot_panic _ _ (by rw [← hl, List.length_map] at hlen; exact hlen), panic_bind]
    exact sim_panic

theorem sim_memLoop (h2 : ZMod p → ZMod p → ZMod p) {on : Wire Bool} {on' : Bool} (hon : on.val = on')
    (l : List (Wire (ZMod p) × Wire (ZMod p))) (o : Wire (ZMod p)) :
    Sim (fun a b => a.val = b) (memLoop h2 on l o : Tr p G _) (Wit.memLoop h2 on' (l.map vals2) o.val) := by
  induction l generalizing o with
  | nil => exact sim_pure rfl
  | cons a l ih =>
    obtain ⟨x, y⟩ := a
    refine sim_let (val_call rfl) fun _ h1 => ?_
    refine sim_let (val_call rfl) fun _ h3 => ?_
    refine sim_bind (sim_condEnforceEq hon rfl (by rw [h3, h1])) fun _ _ _ => ?_
    refine sim_let (val_call rfl) fun h h4 => ?_
    have := ih h
    rw [h4] at this
    exact this

theorem sim_checkMembership {L L' : Type} {LR : L → L' → Prop} (cfg : MT.Config L' (ZMod p))
    {leafHash : L → Tr p G (Wire (ZMod p))} (hh : ∀ a b, LR a b → Val Wire.val (leafHash a) (cfg.leafHash b))
    {on : Wire Bool} {on' : Bool} {l : List (Wire (ZMod p) × Wire (ZMod p))} {l' : List (ZMod p × ZMod p)}
    {o : L} {o' : L'} {r : Wire (ZMod p)} {r' : ZMod p}
    (hl : l.map vals2 = l') (hr : r.val = r') (ho : LR o o') (hon : on.val = on') :
    Sim NoVal (checkMembership leafHash cfg.h2 cfg.height l r o on) (Wit.condCheckMembership cfg l' r' o' on') := by
  subst hl
  refine sim_bind (sim_assert (by rw [List.length_map])) fun _ _ _ => ?_
  refine sim_let (hh _ _ ho) fun lh h1 => ?_
  cases l with
  | nil => exact sim_panic
  | cons a l =>
    obtain ⟨x, y⟩ := a
    refine sim_let (val_call rfl) fun _ h2 => ?_
    refine sim_let (val_call rfl) fun _ h3 => ?_
    refine sim_bind (sim_condEnforceEq hon h1 (by rw [h3, h2, h1])) fun _ _ _ => ?_
    have := sim_memLoop (G := G) cfg.h2 hon ((x, y) :: l) lh
    rw [h1] at this
    refine sim_bind this fun _ _ h4 => ?_
    exact sim_condEnforceEq hon hr h4

theorem sim_memIdxLoop (h2 : ZMod p → ZMod p → ZMod p) {on : Wire Bool} {on' : Bool} (hon : on.val = on')
    (l : List (Wire (ZMod p) × Wire (ZMod p))) (bs : List (Wire Bool)) (o : Wire (ZMod p)) :
    Sim (fun a b => a.val = b) (memIdxLoop h2 on l bs o : Tr p G _)
      (Wit.memIdxLoop h2 on' (l.map vals2) (bs.map Wire.val) o.val) := by
  induction l generalizing bs o with
  | nil => exact sim_pure rfl
  | cons a l ih =>
    obtain ⟨x, y⟩ := a
    cases bs with
    | nil => exact sim_panic
    | cons b bs =>
      refine sim_let (val_call rfl) fun _ h1 => ?_
      refine sim_let (val_call rfl) fun _ h3 => ?_
      refine sim_bind (sim_condEnforceEq hon rfl (by rw [h3, h1])) fun _ _ _ => ?_
      refine sim_let (val_call rfl) fun h h4 => ?_
      have := ih bs h
      rw [h4] at this
      exact this

theorem sim_checkMembershipIdx {L L' : Type} {LR : L → L' → Prop} (cfg : MT.Config L' (ZMod p))
    {leafHash : L → Tr p G (Wire (ZMod p))} (hh : ∀ a b, LR a b → Val Wire.val (leafHash a) (cfg.leafHash b))
    {on : Wire Bool} {on' : Bool} {l : List (Wire (ZMod p) × Wire (ZMod p))} {l' : List (ZMod p × ZMod p)}
    {o : L} {o' : L'} {r i : Wire (ZMod p)} {r' i' : ZMod p}
    (hl : l.map vals2 = l') (hr : r.val = r') (ho : LR o o') (hi : i.val = i') (hon : on.val = on') :
    Sim NoVal (checkMembershipIdx leafHash cfg.h2 cfg.height l r o i on)
      (Wit.condCheckMembershipIdx cfg l' r' o' i' on') := by
  subst hl; subst hi
  refine sim_bind (sim_assert (by rw [List.length_map])) fun _ _ _ => ?_
  refine sim_let (hh _ _ ho) fun lh h1 => ?_
  refine sim_let (val_callN rfl) fun bs h2 => ?_
  have := sim_memIdxLoop (G := G) cfg.h2 hon l bs lh
  rw [h1, h2] at this
  refine sim_bind this fun _ _ h4 => ?_
  exact sim_condEnforceEq hon hr h4

variable [DecidableEq G]

/-! ## Aggregator -/

theorem sim_ownerLoop {s : Wire G} {s' : G} (hs : s.val = s') (l : List (UtxoW p G)) :
    Sim NoVal (ownerLoop s l) (Wit.ownerLoop s' (l.map UtxoW.val)) := by
  induction l with
  | nil => exact sim_pure trivial
  | cons a l ih =>
    refine sim_let (val_call rfl) fun _ h1 => ?_
    refine sim_bind (sim_condEnforceEq (by rw [h1]; rfl) rfl hs) fun _ _ _ => ?_
    exact ih

theorem val_sumLoop {op : Wire (ZMod p) → Wire (ZMod p) → Tr p G (Wire (ZMod p))} {op' : ZMod p → ZMod p → ZMod p}
    (hop : ∀ x y, Val Wire.val (op x y) (op' x.val y.val)) (l : List (UtxoW p G)) (s : Wire (ZMod p)) :
    Val Wire.val (sumLoop op l s)
      ((l.map UtxoW.val).foldl (fun s i => op' s (select i.isDummy 0 i.amount)) s.val) := by
  induction l generalizing s with
  | nil => exact sim_pure rfl
  | cons a l ih =>
    refine sim_let (val_call rfl) fun _ h1 => ?_
    refine sim_let (hop _ _) fun s1 h2 => ?_
    have := ih s1
    rw [h2, h1] at this
    exact this

theorem sim_enforceValid {t : TxW p G} {t' : Tx (ZMod p) G} (h : TxIs t t') {s : Wire G} {s' : G} (hs : s.val = s') :
    Sim NoVal (enforceValid t s) (Wit.enforceValid t' s') := by
  unfold Wit.enforceValid
  rw [← h.1, ← h.2]
  refine sim_bind (sim_ownerLoop hs _) fun _ _ _ => ?_
  refine sim_let (val_sumLoop (op' := (· + ·)) (fun _ _ => val_call rfl) _ _) fun _ h3 => ?_
  refine sim_let (val_sumLoop (op' := (· - ·)) (fun _ _ => val_call rfl) _ _) fun _ h4 => ?_
  exact sim_enforceEq (by rw [h4, h3]; rfl)

/-- The values of a position with its proof. -/
def posVal (x : Wire (ZMod p) × List (Wire (ZMod p))) : ZMod p × List (ZMod p) := (x.1.val, x.2.map Wire.val)

/-- The values of the inputs of one transaction. -/
structure InputsIs (i : InputsW p G) (v : AggC.CInputs p G) : Prop where
  tx : TxIs i.tx v.tx
  txProof : i.txProof.map Wire.val = v.txProof
  dels : i.dels.map posVal = v.dels
  adds : i.adds.map posVal = v.adds
  signerProof : i.signerProof.map Wire.val = v.signerProof
  senderPk : i.senderPk.val = v.senderPk
  sigS : i.sigS.map Wire.val = v.sigS
  sigE : i.sigE.map Wire.val = v.sigE

theorem zip_posVal {a : List (Wire (ZMod p))} {b : List (List (Wire (ZMod p)))} {l : List (ZMod p × List (ZMod p))}
    (ha : a.map Wire.val = l.map (·.1)) (hb : b.map (List.map Wire.val) = l.map (·.2)) :
    (a.zip b).map posVal = l := by
  have : (a.zip b).map posVal = (a.map Wire.val).zip (b.map (List.map Wire.val)) := by
    rw [List.zip_map]; rfl
  rw [this, ha, hb, ← List.unzip_fst, ← List.unzip_snd, List.zip_unzip]

theorem sim_allocInputs (i : AggC.CInputs p G) : Sim InputsIs (allocInputs i) (pure i) := by
  refine sim_let (val_allocTx _) fun _ h1 => ?_
  refine sim_let (val_callN rfl) fun _ h2 => ?_
  refine sim_let (val_each (g := List.map Wire.val) (fun _ => val_callN rfl) _) fun _ h3 => ?_
  refine sim_let (val_each (g := Wire.val) (fun _ => val_call rfl) _) fun _ h4 => ?_
  refine sim_let (val_each (g := List.map Wire.val) (fun _ => val_callN rfl) _) fun _ h5 => ?_
  refine sim_let (val_each (g := Wire.val) (fun _ => val_call rfl) _) fun _ h6 => ?_
  refine sim_let (val_callN rfl) fun _ h7 => ?_
  refine sim_let (val_call rfl) fun _ h8 => ?_
  refine sim_let (val_callN rfl) fun _ h9 => ?_
  refine sim_let (val_callN rfl) fun _ h10 => sim_pure ?_
  rw [List.map_id'] at h3 h4 h5 h6
  exact ⟨h1, h2, zip_posVal h4 h3, zip_posVal h6 h5, h7, h8, h9, h10⟩

theorem sim_delLoop (cv : Curve p q G) (hs : Hashes p) {on : Wire Bool} {on' : Bool} (hon : on.val = on')
    (us : List (UtxoW p G)) (ds : List (Wire (ZMod p) × List (Wire (ZMod p)))) (r : Wire (ZMod p)) :
    Sim (fun a b => a.val = b) (delLoop cv hs on us ds r)
      (Wit.delLoop cv hs on' (us.map UtxoW.val) (ds.map posVal) r.val) := by
  subst hon
  induction us generalizing ds r with
  | nil => cases ds with
    | nil => exact sim_pure rfl
    | cons d ds => exact sim_panic
  | cons u us ih => cases ds with
    | nil => exact sim_panic
    | cons d ds =>
      refine sim_let (val_call rfl) fun _ h3 => ?_
      refine sim_let (val_call rfl) fun on4 h4 => ?_
      refine sim_bind (sim_condUpdate (utxoTreeCfgVar cv hs) (val_utxoHash cv hs.crh) (by rw [h4, h3]; rfl) rfl rfl rfl
        (constUtxo_val _) rfl) fun r1 _ h5 => ?_
      have := ih ds r1
      rw [h5] at this
      exact this

theorem sim_depositStep (P : AggC.Params p G) (cv : Curve p q G) {on : Wire Bool} {on' : Bool} (hon : on.val = on')
    (u : UtxoW p G) (d : Wire (ZMod p)) :
    Sim (fun a b => a.val = b) (depositStep P cv on u d) (Wit.depositStep P cv on' u.val d.val) := by
  subst hon
  unfold depositStep Wit.depositStep
  by_cases ht : P.transferOnly
  · rw [if_pos ht, if_pos ht]; exact sim_pure rfl
  · rw [if_neg ht, if_neg ht]
    refine sim_let (val_callN rfl) fun _ h1 => ?_
    refine sim_let (val_callN rfl) fun _ h2 => ?_
    refine sim_bind (sim_toNBits _ 64) fun _ _ h3 => ?_
    refine sim_let (val_callN rfl) fun _ h4 => ?_
    refine sim_let (val_call rfl) fun _ h5 => ?_
    refine sim_let (val_call rfl) fun _ h6 => ?_
    refine sim_let (val_shaField P.sha _ rfl) fun _ h7 => ?_
    refine val_call ?_
    rw [h6, h5, h7]
    simp only [List.map_append]
    rw [h1, h2, h4, show (List.map (fun x : Wire Bool => x.val) _) = _ from h3]
    rfl

/-- The values of a triple. -/
def vals3 (x : Wire (ZMod p) × Wire (ZMod p) × Wire (ZMod p)) : ZMod p × ZMod p × ZMod p := (x.1.val, x.2.1.val, x.2.2.val)

theorem sim_addLoop (P : AggC.Params p G) (cv : Curve p q G) {on ok : Wire Bool} {on' ok' : Bool} (hon : on.val = on')
    (hok : ok.val = ok') (us : List (UtxoW p G)) (ds : List (Wire (ZMod p) × List (Wire (ZMod p))))
    (d w r : Wire (ZMod p)) :
    Sim (fun a b => vals3 a = b) (addLoop P cv on ok us ds d w r)
      (Wit.addLoop P cv on' ok' (us.map UtxoW.val) (ds.map posVal) d.val w.val r.val) := by
  subst hok
  induction us generalizing ds d w r with
  | nil => cases ds with
    | nil => exact sim_pure rfl
    | cons d ds => exact sim_panic
  | cons u us ih => cases ds with
    | nil => exact sim_panic
    | cons a as =>
      refine sim_let (val_call rfl) fun rc h1 => ?_
      refine sim_bind (sim_depositStep P cv hon u d) fun d1 _ h2 => ?_
      refine sim_let (val_call rfl) fun _ h3 => ?_
      refine sim_let (val_call rfl) fun _ h4 => ?_
      refine sim_let (val_call rfl) fun _ h5 => ?_
      refine sim_let (val_call rfl) fun w1 h6 => ?_
      refine sim_let (val_call rfl) fun _ h7 => ?_
      refine sim_let (val_call rfl) fun _ h8 => ?_
      refine sim_let (val_call rfl) fun _ h9 => ?_
      refine sim_let (val_call rfl) fun _ h10 => ?_
      refine sim_bind (sim_condUpdate (utxoTreeCfgVar cv P.hs) (val_utxoHash cv P.hs.crh)
        (by rw [h10, h9, h8, h7, h1]; rfl) rfl rfl (constUtxo_val _) rfl rfl) fun r1 _ h11 => ?_
      have := ih as d1 w1 r1
      rw [h2, h11, h6, h5, h4, h3, h1] at this
      exact this

theorem sim_withdrawalStep (P : AggC.Params p G) (cv : Curve p q G) {k : Wire G} {k' : G} (hk : k.val = k')
    (w d : Wire (ZMod p)) :
    Sim (fun a b => a.val = b) (withdrawalStep P cv k w d) (Wit.withdrawalStep P cv k' w.val d.val) := by
  subst hk
  unfold withdrawalStep Wit.withdrawalStep
  by_cases ht : P.transferOnly
  · rw [if_pos ht, if_pos ht]; exact sim_pure rfl
  · rw [if_neg ht, if_neg ht]
    refine sim_let (val_callN rfl) fun _ h1 => ?_
    refine sim_let (val_callN rfl) fun _ h2 => ?_
    refine sim_bind (sim_toNBits _ 64) fun _ _ h3 => ?_
    refine sim_let (val_callN rfl) fun _ h4 => ?_
    refine sim_let (val_call rfl) fun _ h5 => ?_
    refine sim_let (val_shaField P.sha _ rfl) fun _ h7 => ?_
    refine val_call ?_
    rw [h5, h7]
    simp only [List.map_append]
    rw [h1, h2, h4, show (List.map (fun x : Wire Bool => x.val) _) = _ from h3]

theorem sim_stepOne (hq : 0 < modBits q) (hpq : modBits q ≤ modBits p) (P : AggC.Params p G) (cv : Curve p q G)
    (z : StateW p) (i : InputsW p G) (v : AggC.CInputs p G) (h : InputsIs i v) :
    Sim (fun a b => a.val = b) (stepOne P cv z i) (Wit.stepOne P cv z.val v) := by
  obtain ⟨i1, i2, i3, i4, i5, i6, i7, i8⟩ := h
  have hl7 : i.sigS.length = v.sigS.length := by rw [← i7, List.length_map]
  have hl8 : i.sigE.length = v.sigE.length := by rw [← i8, List.length_map]
  unfold stepOne Wit.stepOne
  by_cases hlen : v.sigS.length = modBits q ∧ v.sigE.length = modBits q
  swap
  · rw [hl7, hl8, decide_eq_false hlen, syn_false]; exact sim_panic
  rw [hl7, hl8, decide_eq_true hlen, syn_true, assert_true]
  refine sim_bind (sim_enforceValid i1 i6) fun _ _ _ => ?_
  unfold Wit.condUpdate
  by_cases ht : v.txProof.length = (txTreeCfgVar cv P.hs).height - 1
  swap
  · rw [decide_eq_false ht, updateRoot_panic _ _ (by rw [← i2, List.length_map] at ht; exact ht), panic_bind]
    exact sim_panic
  rw [decide_eq_true ht, syn_true]
  refine sim_let (val_updateRoot (txTreeCfgVar cv P.hs) (val_txHash cv P.hs.crh) i2 (constTx_is _) i1 rfl ht)
    fun u hu => ?_
  rw [syn_assoc]
  change vals2 u = MT.updateRoot (txTreeCfgVar cv P.hs) v.txProof Tx.default v.tx z.val.step at hu
  rw [← hu]
  refine sim_bind (n := Wit.condEnforce true _ _) (sim_constrain (by simp [eq_comm, StateW.val, vals2])) fun _ _ _ => ?_
  rw [syn_pure]
  refine sim_let (val_txFields cv i1) fun m hm => ?_
  refine sim_bind (sim_isValid hq hpq 32 cv _ i6 (by rw [List.map_append, hm]; rfl) i7 i8 (by rw [hl8]; exact hlen.2))
    fun sigOk so h1 => ?_
  subst h1
  refine sim_let (val_call rfl) fun isC h2 => ?_
  have h2 : isC.val = decide (v.senderPk = P.contract) := by rw [h2, i6]; rfl
  refine sim_let (val_call rfl) fun txOk h3 => ?_
  rw [h2] at h3
  have hd := sim_delLoop cv P.hs (on := sigOk) rfl i.tx.inputs i.dels z.utxoRoot
  rw [i1.1, i3] at hd
  refine sim_bind hd fun r1 r1' h4 => ?_
  subst h4
  have ha := sim_addLoop P cv h2 h3 i.tx.outputs i.adds z.depositAcc (.const 0) r1
  rw [i1.2, i4] at ha
  refine sim_bind ha fun x x' hx => ?_
  obtain ⟨dep, w, r2⟩ := x
  subst hx
  by_cases hs : v.signerProof.length = (signerTreeCfgVar cv P.hs).height - 1
  swap
  · dsimp only [vals3]
    rw [decide_eq_false hs, updateRoot_panic _ _ (by rw [← i5, List.length_map] at hs; exact hs), panic_bind]
    exact sim_panic
  dsimp only [vals3]
  rw [decide_eq_true hs, syn_true]
  refine sim_let (val_updateRoot (signerTreeCfgVar cv P.hs) (val_pkHash cv P.hs.crh) i5 (o' := 0) rfl i6 rfl hs)
    fun sr hsr => ?_
  rw [syn_assoc]
  change vals2 sr = MT.updateRoot (signerTreeCfgVar cv P.hs) v.signerProof 0 v.senderPk z.val.step at hsr
  rw [← hsr]
  refine sim_bind (sim_condEnforceEq' h3 rfl rfl) fun _ _ _ => ?_
  rw [syn_pure]
  refine sim_let (val_call rfl) fun _ h5 => ?_
  refine sim_let (val_callN rfl) fun _ h6 => ?_
  refine sim_let (val_call rfl) fun _ h7 => ?_
  refine sim_let (val_callN rfl) fun _ h8 => ?_
  refine sim_let (val_shaField P.sha _ rfl) fun _ h9 => ?_
  refine sim_bind (sim_withdrawalStep P cv i6 w z.withdrawalAcc) fun _ _ h10 => ?_
  refine sim_let (val_call rfl) fun _ h11 => sim_pure ?_
  simp only [StateW.val, h5, h9, h10, h11, List.map_append, h6, h8, h7, h3, i6]
  rfl

theorem sim_stepBatch (hq : 0 < modBits q) (hpq : modBits q ≤ modBits p) (P : AggC.Params p G) (cv : Curve p q G)
    (is : List (InputsW p G)) (vs : List (AggC.CInputs p G)) (h : List.Forall₂ InputsIs is vs) (z : StateW p) :
    Sim (fun a b => a.val = b) (stepBatch P cv z is) (Wit.stepBatch P cv z.val vs) := by
  induction h generalizing z with
  | nil => exact sim_pure rfl
  | cons h1 _ ih =>
    refine sim_bind (sim_stepOne hq hpq P cv z _ _ h1) fun z1 _ hz => ?_
    subst hz
    exact ih z1

theorem sim_eachR {R : β → γ → Prop} {k : α → Tr p G β} {h : α → γ} (hk : ∀ a, Sim R (k a) (pure (h a))) (l : List α) :
    Sim (List.Forall₂ R) (each k l) (pure (l.map h)) := by
  induction l with
  | nil => exact sim_pure .nil
  | cons a l ih => exact sim_let (hk a) fun b hb => sim_let ih fun bs hbs => sim_pure (.cons hb hbs)

theorem val_allocState (z : AggC.CState p) : Val StateW.val (allocState z : Tr p G _) z := by
  refine sim_let (val_call rfl) fun _ h1 => ?_
  refine sim_let (val_call rfl) fun _ h2 => ?_
  refine sim_let (val_call rfl) fun _ h3 => ?_
  refine sim_let (val_call rfl) fun _ h4 => ?_
  refine sim_let (val_call rfl) fun _ h5 => ?_
  refine sim_let (val_call rfl) fun _ h6 => ?_
  refine sim_let (val_call rfl) fun _ h7 => ?_
  refine sim_let (val_call rfl) fun _ h8 => sim_pure ?_
  simp only [StateW.val, h1, h2, h3, h4, h5, h6, h7, h8]

theorem sim_aggregatorStep (hq : 0 < modBits q) (hpq : modBits q ≤ modBits p) (P : AggC.Params p G) (cv : Curve p q G)
    (z : AggC.CState p) (is : List (AggC.CInputs p G)) :
    Sim (fun a b => a.val = b) (aggregatorStep P cv z is) (Wit.stepBatch P cv z is) := by
  refine sim_let (val_allocState z) fun zw hz => ?_
  refine sim_let (sim_eachR sim_allocInputs is) fun iw hi => ?_
  subst hz
  rw [List.map_id'] at hi
  exact sim_stepBatch hq hpq P cv iw is hi zw

/-! ## Client -/

/-- The values of a block. -/
def BlockW.val (b : BlockW p) : BlockVar (ZMod p) := ⟨b.utxoRoot.val, b.txRoot.val, b.signerRoot.val, b.height.val⟩

theorem val_signerLoop (l : List (UtxoW p G)) (s : Wire G) :
    Val Wire.val (signerLoop l s)
      ((l.map UtxoW.val).foldl (fun pk i => select i.isDummy pk i.pk) s.val) := by
  induction l generalizing s with
  | nil => exact sim_pure rfl
  | cons a l ih =>
    refine sim_let (val_call rfl) fun s1 h => ?_
    have := ih s1
    rw [h] at this
    exact this

theorem val_balanceLoop {op : Wire (ZMod p) → Wire (ZMod p) → Tr p G (Wire (ZMod p))} {op' : ZMod p → ZMod p → ZMod p}
    (hop : ∀ x y, Val Wire.val (op x y) (op' x.val y.val)) {k : Wire G} {k' : G} (hk : k.val = k')
    (l : List (UtxoW p G)) (s : Wire (ZMod p)) :
    Val Wire.val (balanceLoop op k l s)
      ((l.map UtxoW.val).foldl (fun s u => op' s (u.amount * boolF (decide (u.pk = k')))) s.val) := by
  induction l generalizing s with
  | nil => exact sim_pure rfl
  | cons a l ih =>
    refine sim_let (val_call rfl) fun _ h1 => ?_
    refine sim_let (val_call rfl) fun _ h2 => ?_
    refine sim_let (val_call rfl) fun _ h3 => ?_
    refine sim_let (hop _ _) fun s1 h4 => ?_
    have := ih s1
    rw [h4, h3, h2, h1, hk] at this
    exact this

/-- The values of the loop. -/
def LoopW.val (s : LoopW p) : Client.Loop p := ⟨s.balance.val, s.nonce.val, s.prevTxIndex.val⟩

theorem sim_txStep (P : Client.Params p) (cv : Curve p q G) (b : BlockW p) {k : Wire G} {k' : G}
    (hk : k.val = k') (s : LoopW p) {t : TxW p G} {t' : Tx (ZMod p) G} (ht : TxIs t t')
    (i : Wire (ZMod p)) (l m : List (Wire (ZMod p) × Wire (ZMod p))) :
    Sim (fun a b => a.val = b) (txStep P cv b k s t i l m)
      (Wit.txStep P cv b.val k' s.val t' i.val (l.map vals2) (m.map vals2)) := by
  refine sim_let (val_txHash cv P.hs.crh t t' ht) fun _ h1 => ?_
  refine sim_let (val_call rfl) fun _ h2 => ?_
  refine sim_let (val_call rfl) fun regular h3 => ?_
  have hreg : regular.val = decide (txVarCRH cv P.hs.crh t' ≠ Client.dummyHash cv P) := by
    rw [h3, h2, h1]
    by_cases h : txVarCRH cv P.hs.crh t' = Client.dummyHash cv P <;> simp [Wire.const, h]
  unfold Wit.txStep
  rw [← hreg]
  refine sim_bind (sim_isLess _ _) fun _ _ h4 => ?_
  refine sim_bind (sim_condEnforceEq rfl h4 rfl) fun _ _ _ => ?_
  refine sim_bind (sim_checkMembershipIdx (txTreeCfgVar cv P.hs) (val_txHash cv P.hs.crh) rfl rfl ht rfl rfl)
    fun _ _ _ => ?_
  have hsg := val_signerLoop t.inputs (.const 0)
  rw [ht.1] at hsg
  refine sim_let (b := t'.getSigner) hsg fun _ h5 => ?_
  refine sim_bind (sim_checkMembership (signerTreeCfgVar cv P.hs) (val_pkHash cv P.hs.crh) rfl rfl h5 rfl)
    fun _ _ _ => ?_
  refine sim_let (val_call rfl) fun _ h6 => ?_
  refine sim_let (val_call rfl) fun _ h7 => ?_
  refine sim_let (val_call rfl) fun _ h8 => ?_
  have hb1 := val_balanceLoop (p := p) (op := sub) (op' := (· - ·)) (fun _ _ => val_call rfl) hk t.inputs s.balance
  rw [ht.1] at hb1
  refine sim_let hb1 fun b1 h9 => ?_
  have hb2 := val_balanceLoop (p := p) (op := add) (op' := (· + ·)) (fun _ _ => val_call rfl) hk t.outputs b1
  rw [ht.2] at hb2
  refine sim_let hb2 fun _ h10 => ?_
  refine sim_let (val_call rfl) fun _ h11 => ?_
  refine sim_let (val_call rfl) fun _ h12 => ?_
  refine sim_let (val_call rfl) fun _ h13 => ?_
  refine sim_let (val_call rfl) fun _ h14 => ?_
  refine sim_let (val_call rfl) fun _ h15 => ?_
  refine sim_let (val_call rfl) fun _ h16 => sim_pure ?_
  simp only [LoopW.val, h16, h15, h14, h13, h12, h11, h10, h9, h8, h7, h6, h5, hk]
  rfl

/-- The values of one item of the loop. -/
def ItemIs (x : ((TxW p G × Wire (ZMod p)) × List (Wire (ZMod p) × Wire (ZMod p))) × List (Wire (ZMod p) × Wire (ZMod p)))
    (v : ((Tx (ZMod p) G × ZMod p) × List (ZMod p × ZMod p)) × List (ZMod p × ZMod p)) : Prop :=
  TxIs x.1.1.1 v.1.1.1 ∧ x.1.1.2.val = v.1.1.2 ∧ x.1.2.map vals2 = v.1.2 ∧ x.2.map vals2 = v.2

theorem sim_txLoop (P : Client.Params p) (cv : Curve p q G) (b : BlockW p) {k : Wire G} {k' : G} (hk : k.val = k')
    (l : List (((TxW p G × Wire (ZMod p)) × List (Wire (ZMod p) × Wire (ZMod p))) × List (Wire (ZMod p) × Wire (ZMod p))))
    (l' : List (((Tx (ZMod p) G × ZMod p) × List (ZMod p × ZMod p)) × List (ZMod p × ZMod p)))
    (h : List.Forall₂ ItemIs l l') (s : LoopW p) :
    Sim (fun a b => a.val = b) (txLoop P cv b k l s) (Wit.txLoop P cv b.val k' l' s.val) := by
  induction h generalizing s with
  | nil => exact sim_pure rfl
  | @cons x v _ _ h1 _ ih =>
    obtain ⟨⟨⟨t, i⟩, tp⟩, sp⟩ := x
    obtain ⟨⟨⟨t', i'⟩, tp'⟩, sp'⟩ := v
    obtain ⟨e1, e2, e3, e4⟩ := h1
    simp only at e1 e2 e3 e4
    subst e2; subst e3; subst e4
    refine sim_bind (sim_txStep P cv b hk s e1 i tp sp) fun s1 _ hs => ?_
    subst hs
    exact ih s1

/-- The values of the client's inputs. -/
structure AuxIs (a : AuxW p G) (v : Client.UserAuxVar p G) : Prop where
  txProofs : a.txProofs.map (List.map vals2) = v.txProofs
  signerProofs : a.signerProofs.map (List.map vals2) = v.signerProofs
  block : a.block.val = v.block
  transactions : List.Forall₂ (fun x y => TxIs x.1 y.1 ∧ x.2.val = y.2) a.transactions v.transactions
  pk : a.pk.val = v.pk

theorem val_allocPath (l : List (ZMod p × ZMod p)) : Val (List.map vals2) (allocPath l : Tr p G _) l := by
  have := val_each (p := p) (G := G) (g := vals2) (h := fun x : ZMod p × ZMod p => x)
    (k := fun x => do
      let a ← allocF x.1
      let b ← allocF x.2
      pure (a, b))
    (fun x => sim_let (val_call rfl) fun _ h1 => sim_let (val_call rfl) fun _ h2 => sim_pure (by
      simp only [vals2, h1, h2])) l
  rw [List.map_id'] at this
  exact this

theorem sim_allocAux (a : Client.UserAuxVar p G) : Sim AuxIs (allocAux a) (pure a) := by
  refine sim_let (val_each (g := List.map vals2) val_allocPath _) fun _ h1 => ?_
  refine sim_let (val_each (g := List.map vals2) val_allocPath _) fun _ h2 => ?_
  refine sim_let (R := fun x v => BlockW.val x = v) (b := a.block) ?_ fun _ h3 => ?_
  · exact sim_let (val_call rfl) fun _ h1 => sim_let (val_call rfl) fun _ h2 => sim_let (val_call rfl) fun _ h3 =>
      sim_let (val_call rfl) fun _ h4 => sim_pure (by simp only [BlockW.val, h1, h2, h3, h4])
  refine sim_let (sim_eachR (R := fun x y => TxIs x.1 y.1 ∧ x.2.val = y.2) (h := fun y => y) (fun x => ?_) _)
    fun _ h4 => ?_
  · exact sim_let (val_allocTx _) fun _ h1 => sim_let (val_call rfl) fun _ h2 => sim_pure ⟨h1, h2⟩
  refine sim_let (val_call rfl) fun _ h5 => sim_pure ?_
  rw [List.map_id'] at h1 h2 h4
  exact ⟨h1, h2, h3, h4, h5⟩

theorem items_is {ts : List (TxW p G × Wire (ZMod p))} {ts' : List (Tx (ZMod p) G × ZMod p)}
    (h : List.Forall₂ (fun x y => TxIs x.1 y.1 ∧ x.2.val = y.2) ts ts')
    (a b : List (List (Wire (ZMod p) × Wire (ZMod p)))) :
    List.Forall₂ ItemIs ((ts.zip a).zip b)
      ((ts'.zip (a.map (List.map vals2))).zip (b.map (List.map vals2))) := by
  induction h generalizing a b with
  | nil => simp
  | cons h1 _ ih =>
    cases a with
    | nil => simp
    | cons x a => cases b with
      | nil => simp
      | cons y b => exact .cons ⟨h1.1, h1.2, rfl, rfl⟩ (ih a b)

theorem val_accumulate (A : AccKind) (hs : Hashes p) (x y : Wire (ZMod p)) :
    Val Wire.val (accumulate A hs x y : Tr p G _) (A.fn hs x.val y.val) := by
  cases A with
  | poseidon => exact val_call rfl
  | sha s =>
    refine sim_let (val_callN rfl) fun r hr => sim_let (val_callN rfl) fun l hl => sim_let (val_callN rfl) fun d hd => val_call ?_
    show packVar p (d.dropLast.map Wire.val) = packVar p _
    rw [List.map_dropLast, hd, List.map_append, hl, hr]

theorem sim_updateBalance (hs : Hashes p) (A : AccKind) (cv : Curve p q G) (n : Nat) (z : UStateW p) (a : AuxW p G)
    (v : Client.UserAuxVar p G) (h : AuxIs a v) :
    Sim (fun a b => a.val = b) (updateBalance hs A cv n z a) (Wit.updateBalance (A.params hs) cv n z.val v) := by
  obtain ⟨h1, h2, h3, h4, h5⟩ := h
  have hit := items_is h4 a.txProofs a.signerProofs
  have hl := h4.length_eq
  rw [h1, h2] at hit
  refine sim_bind (sim_assert (by rw [← h1, List.length_map])) fun _ _ _ => ?_
  refine sim_bind (sim_assert (by rw [hl])) fun _ _ _ => ?_
  refine sim_bind (sim_assert (by rw [← h2, List.length_map])) fun _ _ _ => ?_
  refine sim_let (val_pkHash cv hs.crh _ _ h5) fun _ e1 => ?_
  refine sim_bind (sim_enforceEq (by rw [e1]; rfl)) fun _ _ _ => ?_
  refine sim_let (R := fun w v => w.val = v) (b := blockVarCRH hs.crh v.block) (val_call (by rw [← h3]; rfl))
    fun _ e2 => ?_
  refine sim_let (val_accumulate A hs _ _) fun _ e3 => ?_
  refine sim_bind (sim_enforceLe rfl (by rw [← h3]; rfl)) fun _ _ _ => ?_
  refine sim_let (val_call rfl) fun _ e4 => ?_
  refine sim_let (val_call rfl) fun pv e5 => ?_
  have ht := sim_txLoop (A.params hs) cv a.block h5 _ _ hit ⟨z.balance, z.nonce, pv⟩
  rw [h3] at ht
  simp only [LoopW.val, e5, e4, e2] at ht
  refine sim_bind ht fun s s' hs => sim_pure ?_
  subst hs
  simp only [UStateW.val, e2, e3, ← h3]
  rfl

theorem val_allocUState (z : Client.UState p) : Val UStateW.val (allocUState z : Tr p G _) z := by
  refine sim_let (val_call rfl) fun _ h1 => ?_
  refine sim_let (val_call rfl) fun _ h2 => ?_
  refine sim_let (val_call rfl) fun _ h3 => ?_
  refine sim_let (val_call rfl) fun _ h4 => ?_
  refine sim_let (val_call rfl) fun _ h5 => ?_
  refine sim_let (val_call rfl) fun _ h6 => ?_
  refine sim_let (val_call rfl) fun _ h7 => sim_pure ?_
  simp only [UStateW.val, h1, h2, h3, h4, h5, h6, h7]

theorem sim_clientStep (hs : Hashes p) (A : AccKind) (cv : Curve p q G) (n : Nat) (z : Client.UState p)
    (a : Client.UserAuxVar p G) :
    Sim (fun a b => a.val = b) (clientStep hs A cv n z a) (Wit.updateBalance (A.params hs) cv n z a) := by
  refine sim_let (val_allocUState z) fun zw hz => ?_
  refine sim_let (sim_allocAux a) fun aw ha => ?_
  subst hz
  exact sim_updateBalance hs A cv n zw aw a ha

end
end PF.Prog
