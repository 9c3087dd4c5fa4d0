import Verif.Spec.ProgramShape
import Verif.Proof.Program

/-!
# The shape of the program does not depend on values nor on variable numbers
-/
set_option linter.unusedSectionVars false

namespace PF.Prog
open PF PF.Circuit
variable {p q : Nat} {G α β γ σ τ : Type}

/-- The shape of a program. -/
def shapes (l : List (Entry p G)) : List (Instr p G) := l.map fun e => e.instr.shape

/-- What remains of an operand without the number of its variable. -/
def Wire.kind (w : Wire α) : Ref α := w.ref.forget

/-- The kinds of the aggregator's state operands. -/
def StateW.kinds (z : StateW p) : List (Ref (ZMod p)) :=
  [z.step.kind, z.utxoRoot.kind, z.txRoot.kind, z.txRootFinal.kind, z.signerRoot.kind, z.signerAcc.kind, z.depositAcc.kind,
    z.withdrawalAcc.kind]
/-- The kinds of the client's state operands. -/
def UStateW.kinds (z : UStateW p) : List (Ref (ZMod p)) :=
  [z.balance.kind, z.nonce.kind, z.pkHash.kind, z.acc.kind, z.prevBlockHash.kind, z.prevBlockNumber.kind, z.prevTxIndex.kind]

/-- Two syntheses, with whatever next variables, emit programs of the same shape, and return results of the same kinds (`f`). -/
def Alike (f : α → σ) (m m' : Tr p G α) : Prop :=
  ∀ n n', (m n = none ∧ m' n' = none) ∨
    ∃ a o a' o', m n = some (a, o) ∧ m' n' = some (a', o') ∧ f a = f a' ∧ shapes o.log = shapes o'.log

theorem alike_pure {f : α → σ} {a a' : α} (h : f a = f a') : Alike f (pure a : Tr p G α) (pure a') :=
  fun _ _ => Or.inr ⟨a, _, a', _, rfl, rfl, h, rfl⟩

theorem alike_bind {f : α → σ} {g : β → τ} {m m' : Tr p G α} {k k' : α → Tr p G β} (hm : Alike f m m')
    (hk : ∀ a a', f a = f a' → Alike g (k a) (k' a')) : Alike g (m >>= k) (m' >>= k') := by
  intro n n'
  rw [bind_def, bind_def]
  rcases hm n n' with ⟨e1, e2⟩ | ⟨a, o, a', o', e1, e2, e3, e4⟩
  · rw [e1, e2]; exact Or.inl ⟨rfl, rfl⟩
  · rw [e1, e2]
    simp only
    rcases hk a a' e3 (n + width o.log) (n' + width o'.log) with ⟨e5, e6⟩ | ⟨b, t, b', t', e5, e6, e7, e8⟩
    · rw [e5, e6]; exact Or.inl ⟨rfl, rfl⟩
    · rw [e5, e6]
      refine Or.inr ⟨_, _, _, _, rfl, rfl, e7, ?_⟩
      simp only [shapes, List.map_append] at e4 e8 ⊢
      rw [e4, e8]

theorem alike_panic {f : α → σ} : Alike f (panic : Tr p G α) panic := fun _ _ => Or.inl ⟨rfl, rfl⟩

theorem alike_assert {f : Unit → σ} {b b' : Bool} (h : b = b') : Alike f (assert b : Tr p G Unit) (assert b') := by
  subst h
  intro n n'
  cases b
  · exact Or.inl ⟨rfl, rfl⟩
  · exact Or.inr ⟨(), _, (), _, rfl, rfl, rfl, rfl⟩

theorem alike_call {k : Wire α → Arg p G} {g : Gadget} {args args' : List (Arg p G)} {v v' : α} (h : args.map Arg.forget = args'.map Arg.forget) :
    Alike Wire.kind (call k g args v) (call k g args' v') := by
  intro n n'
  exact Or.inr ⟨_, _, _, _, rfl, rfl, rfl, by simp [shapes, Entry.instr, Instr.shape, h]⟩

theorem wiresFrom_kinds (vs vs' : List α) (n n' : Nat) (h : vs.length = vs'.length) :
    (wiresFrom n vs).map Wire.kind = (wiresFrom n' vs').map Wire.kind := by
  induction vs generalizing n n' vs' with
  | nil => cases vs' with
    | nil => rfl
    | cons _ _ => simp at h
  | cons v vs ih => cases vs' with
    | nil => simp at h
    | cons v' vs' =>
      simp only [wiresFrom, List.map_cons]
      rw [ih vs' (n + 1) (n' + 1) (by simpa using h)]
      rfl

theorem alike_callN {k : Wire α → Arg p G} {g : Gadget} {args args' : List (Arg p G)} {vs vs' : List α} (h : args.map Arg.forget = args'.map Arg.forget)
    (hl : vs.length = vs'.length) : Alike (List.map Wire.kind) (callN k g args vs) (callN k g args' vs') := by
  intro n n'
  exact Or.inr ⟨_, _, _, _, rfl, rfl, wiresFrom_kinds _ _ _ _ hl, by simp [shapes, Entry.instr, Instr.shape, h, hl]⟩

theorem alike_constrain {f : Unit → σ} {g : Gadget} {args args' : List (Arg p G)} {b b' : Bool} (h : args.map Arg.forget = args'.map Arg.forget) :
    Alike f (constrain g args b) (constrain g args' b') := by
  intro n n'
  exact Or.inr ⟨_, _, _, _, rfl, rfl, rfl, by simp [shapes, Entry.instr, Instr.shape, h]⟩

theorem alike_each {f : α → σ} {g : β → τ} {k k' : α → Tr p G β} {l l' : List α} (hl : l.map f = l'.map f)
    (hk : ∀ a a', f a = f a' → Alike g (k a) (k' a')) : Alike (List.map g) (each k l) (each k' l') := by
  induction l generalizing l' with
  | nil => rw [map_eq_nil' hl]; exact alike_pure rfl
  | cons a l ih =>
    obtain ⟨a', t', rfl, h1, h2⟩ := map_eq_cons hl
    refine alike_bind (hk a a' h1) fun b b' hb => alike_bind (ih h2) fun bs bs' hbs => alike_pure ?_
    simp [hb, hbs]

/-! ## Operands -/

theorem fa_kind {x y : Wire (ZMod p)} (h : x.kind = y.kind) : (fa x : Arg p G).forget = (fa y).forget := congrArg Arg.field h
theorem ba_kind {x y : Wire Bool} (h : x.kind = y.kind) : (ba x : Arg p G).forget = (ba y).forget := congrArg Arg.bool h
theorem pa_kind {x y : Wire G} (h : x.kind = y.kind) : (pa x : Arg p G).forget = (pa y).forget := congrArg Arg.point h

theorem mapf_kind {l l' : List (Wire (ZMod p))} (h : l.map Wire.kind = l'.map Wire.kind) :
    (l.map (fa : _ → Arg p G)).map Arg.forget = (l'.map fa).map Arg.forget := by
  have := congrArg (List.map Arg.field (α := Ref (ZMod p)) (β := Arg p G)) h
  simp only [List.map_map] at this ⊢
  exact this
theorem mapb_kind {l l' : List (Wire Bool)} (h : l.map Wire.kind = l'.map Wire.kind) :
    (l.map (ba : _ → Arg p G)).map Arg.forget = (l'.map ba).map Arg.forget := by
  have := congrArg (List.map Arg.bool (α := Ref (Bool)) (β := Arg p G)) h
  simp only [List.map_map] at this ⊢
  exact this
theorem mapy_kind {l l' : List (Wire Byte)} (h : l.map Wire.kind = l'.map Wire.kind) :
    (l.map (ya : _ → Arg p G)).map Arg.forget = (l'.map ya).map Arg.forget := by
  have := congrArg (List.map Arg.byte (α := Ref (Byte)) (β := Arg p G)) h
  simp only [List.map_map] at this ⊢
  exact this



/-! ## Library gadgets -/

abbrev FKind : Wire (ZMod p) → Ref (ZMod p) := Wire.kind

theorem alike_add {x x' y y' : Wire (ZMod p)} (hx : x.kind = x'.kind) (hy : y.kind = y'.kind) :
    Alike Wire.kind (add x y : Tr p G _) (add x' y') := alike_call (by simp only [List.map_cons, List.map_nil, fa_kind hx, fa_kind hy])
theorem alike_sub {x x' y y' : Wire (ZMod p)} (hx : x.kind = x'.kind) (hy : y.kind = y'.kind) :
    Alike Wire.kind (sub x y : Tr p G _) (sub x' y') := alike_call (by simp only [List.map_cons, List.map_nil, fa_kind hx, fa_kind hy])
theorem alike_mul {x x' y y' : Wire (ZMod p)} (hx : x.kind = x'.kind) (hy : y.kind = y'.kind) :
    Alike Wire.kind (mul x y : Tr p G _) (mul x' y') := alike_call (by simp only [List.map_cons, List.map_nil, fa_kind hx, fa_kind hy])
theorem alike_toField {x x' : Wire Bool} (hx : x.kind = x'.kind) :
    Alike Wire.kind (toField x : Tr p G _) (toField x') := alike_call (by simp only [List.map_cons, List.map_nil, ba_kind hx])
theorem alike_packBits {x x' : List (Wire Bool)} (hx : x.map Wire.kind = x'.map Wire.kind) :
    Alike Wire.kind (packBits x : Tr p G _) (packBits x') := alike_call (mapb_kind hx)
theorem alike_toBits {x x' : Wire (ZMod p)} (hx : x.kind = x'.kind) :
    Alike (List.map Wire.kind) (toBits x : Tr p G _) (toBits x') :=
  alike_callN (by simp only [List.map_cons, List.map_nil, fa_kind hx]) (by simp [toBitsLe, natBits_length])
theorem alike_enforceEq {f : Unit → σ} [DecidableEq α] {k : Wire α → Arg p G}
    {x x' y y' : Wire α} (hx : (k x).forget = (k x').forget) (hy : (k y).forget = (k y').forget) :
    Alike f (enforceEq k x y) (enforceEq k x' y') := alike_constrain (by simp only [List.map_cons, List.map_nil, hx, hy])
theorem alike_condEnforceEq {f : Unit → σ} [DecidableEq α] {k : Wire α → Arg p G}
    {x x' y y' : Wire α} {b b' : Wire Bool} (hx : (k x).forget = (k x').forget) (hy : (k y).forget = (k y').forget) (hb : b.kind = b'.kind) :
    Alike f (condEnforceEq k x y b) (condEnforceEq k x' y' b') := alike_constrain (by simp only [List.map_cons, List.map_nil, hx, hy, ba_kind hb])
theorem alike_isEq [DecidableEq α] {k : Wire α → Arg p G} {x x' y y' : Wire α} (hx : (k x).forget = (k x').forget) (hy : (k y).forget = (k y').forget) :
    Alike Wire.kind (isEq k x y) (isEq k x' y') := alike_call (by simp only [List.map_cons, List.map_nil, hx, hy])
theorem alike_isZero {x x' : Wire (ZMod p)} (hx : x.kind = x'.kind) :
    Alike Wire.kind (isZero x : Tr p G _) (isZero x') := alike_call (by simp only [List.map_cons, List.map_nil, fa_kind hx])
theorem alike_bnot {x x' : Wire Bool} (hx : x.kind = x'.kind) :
    Alike Wire.kind (bnot x : Tr p G _) (bnot x') := alike_call (by simp only [List.map_cons, List.map_nil, ba_kind hx])
theorem alike_band {x x' y y' : Wire Bool} (hx : x.kind = x'.kind) (hy : y.kind = y'.kind) :
    Alike Wire.kind (band x y : Tr p G _) (band x' y') := alike_call (by simp only [List.map_cons, List.map_nil, ba_kind hx, ba_kind hy])
theorem alike_bor {x x' y y' : Wire Bool} (hx : x.kind = x'.kind) (hy : y.kind = y'.kind) :
    Alike Wire.kind (bor x y : Tr p G _) (bor x' y') := alike_call (by simp only [List.map_cons, List.map_nil, ba_kind hx, ba_kind hy])
theorem alike_sel {k : Wire α → Arg p G} {b b' : Wire Bool} {x x' y y' : Wire α} (hb : b.kind = b'.kind)
    (hx : (k x).forget = (k x').forget) (hy : (k y).forget = (k y').forget) : Alike Wire.kind (sel k b x y) (sel k b' x' y') :=
  alike_call (by simp only [List.map_cons, List.map_nil, ba_kind hb, hx, hy])
theorem alike_hash {H : List (ZMod p) → ZMod p} {l l' : List (Wire (ZMod p))} (h : l.map Wire.kind = l'.map Wire.kind) :
    Alike Wire.kind (hash H l : Tr p G _) (hash H l') := alike_call (mapf_kind h)
theorem alike_two {h2 : ZMod p → ZMod p → ZMod p} {x x' y y' : Wire (ZMod p)} (hx : x.kind = x'.kind)
    (hy : y.kind = y'.kind) : Alike Wire.kind (two h2 x y : Tr p G _) (two h2 x' y') :=
  alike_call (by simp only [List.map_cons, List.map_nil, fa_kind hx, fa_kind hy])







theorem alike_toBytes {x x' : Wire (ZMod p)} (hx : x.kind = x'.kind) :
    Alike (List.map Wire.kind) (toBytes x : Tr p G _) (toBytes x') :=
  alike_callN (by simp only [List.map_cons, List.map_nil, fa_kind hx]) (fBytesVar_length _ _)

theorem alike_toByteChunks {l l' : List (Wire Bool)} (h : l.map Wire.kind = l'.map Wire.kind) :
    Alike (List.map Wire.kind) (toByteChunks l : Tr p G _) (toByteChunks l') := by
  refine alike_callN (mapb_kind h) ?_
  unfold bytesOfBits
  rw [List.length_map, List.length_map]
  exact chunks_length _ _ _ (by simpa using len_eq h)

theorem alike_shaField {sha : Sha} {l l' : List (Wire Byte)} (h : l.map Wire.kind = l'.map Wire.kind) :
    Alike Wire.kind (shaField sha l : Tr p G _) (shaField sha l') := by
  refine alike_bind (alike_callN (mapy_kind h) (by rw [sha.len, sha.len])) fun d d' hd => alike_call (mapy_kind ?_)
  rw [List.map_take, List.map_take, hd]

theorem alike_toNBits {x x' : Wire (ZMod p)} (hx : x.kind = x'.kind) (n : Nat) :
    Alike (List.map Wire.kind) (toNBits x n : Tr p G _) (toNBits x' n) := by
  refine alike_bind (alike_callN rfl (by rw [natBits_length, natBits_length])) fun b b' hb =>
    alike_bind (f := id) (alike_constrain (by rw [List.map_append, List.map_append, mapb_kind hb]; simp only [List.map_cons, List.map_nil, fa_kind hx])) fun _ _ _ => alike_pure hb

theorem alike_isLess {x x' y y' : Wire (ZMod p)} (hx : x.kind = x'.kind) (hy : y.kind = y'.kind) :
    Alike Wire.kind (isLess x y : Tr p G _) (isLess x' y') :=
  alike_bind (f := id) (alike_constrain (by simp only [List.map_cons, List.map_nil, fa_kind hx, fa_kind hy])) fun _ _ _ =>
    alike_call (by simp only [List.map_cons, List.map_nil, fa_kind hx, fa_kind hy])

theorem alike_enforceLe {f : Unit → σ} {x x' y y' : Wire (ZMod p)} (hx : x.kind = x'.kind) (hy : y.kind = y'.kind) :
    Alike f (enforceLe x y : Tr p G _) (enforceLe x' y') := alike_constrain (by simp only [List.map_cons, List.map_nil, fa_kind hx, fa_kind hy])

/-! ## Comparison and signatures -/

/-- The variables of a pair. -/
def kinds2 (x : Wire (ZMod p) × Wire (ZMod p)) : Ref (ZMod p) × Ref (ZMod p) := (x.1.kind, x.2.kind)

theorem alike_ltLoop (bs bs' : List (Wire Bool)) (ds ds' : List (Wire (ZMod p))) (c c' r r' : Wire (ZMod p))
    (hb : bs.map Wire.kind = bs'.map Wire.kind) (hd : ds.map Wire.kind = ds'.map Wire.kind) (hc : c.kind = c'.kind)
    (hr : r.kind = r'.kind) : Alike kinds2 (ltLoop bs ds c r : Tr p G _) (ltLoop bs' ds' c' r') := by
  induction bs generalizing bs' ds ds' c c' r r' with
  | nil =>
    rw [map_eq_nil' hb]
    cases ds <;> cases ds' <;> exact alike_pure (by simp [kinds2, hc, hr])
  | cons b bs ih =>
    obtain ⟨b', bs', rfl, h1, h2⟩ := map_eq_cons hb
    cases ds with
    | nil =>
      rw [map_eq_nil' hd]
      exact alike_pure (by simp [kinds2, hc, hr])
    | cons d ds =>
      obtain ⟨d', ds', rfl, h3, h4⟩ := map_eq_cons hd
      refine alike_bind (alike_sel h1 (fa_kind h3) rfl) fun t t' ht => ?_
      refine alike_bind (alike_add hc ht) fun c1 c1' hc1 => ?_
      refine alike_bind (alike_mul hr h3) fun m m' hm => ?_
      refine alike_bind (f := id) (alike_enforceEq (fa_kind hm) rfl) fun _ _ _ => ?_
      refine alike_bind (alike_toField h1) fun f f' hf => ?_
      refine alike_bind (alike_add hr hf) fun r1 r1' hr1 => ?_
      exact ih bs' ds ds' c1 c1' r1 r1' h2 h4 hc1 hr1

theorem getD_kind {l l' : List (Wire α)} (h : l.map Wire.kind = l'.map Wire.kind) (i : Nat) (d : Wire α) :
    (l.getD i d).kind = (l'.getD i d).kind := by
  have := congrArg (fun l : List (Ref α) => l.getD i d.kind) h
  simpa [List.getD_eq_getElem?_getD, List.getElem?_map, Option.getD_map] using this



theorem alike_enforceLt {f : Unit → σ} (W : Nat) {x x' y y' : List (Wire Bool)} (hx : x.map Wire.kind = x'.map Wire.kind)
    (hy : y.map Wire.kind = y'.map Wire.kind) : Alike f (enforceLt W x y : Tr p G _) (enforceLt W x' y') := by
  have hch : ∀ {l l' : List (Wire Bool)}, l.map Wire.kind = l'.map Wire.kind →
      (Schnorr.chunks (W - 1) l).map (List.map Wire.kind) = (Schnorr.chunks (W - 1) l').map (List.map Wire.kind) := by
    intro l l' h
    rw [← chunks_map, ← chunks_map, h]
  refine alike_bind (alike_each (hch hx) fun a a' ha => alike_packBits ha) fun xs xs' hxs => ?_
  refine alike_bind (alike_each (hch hy) fun a a' ha => alike_packBits ha) fun ys ys' hys => ?_
  rw [len_eq hxs, len_eq hys]
  refine alike_bind (alike_each (f := id) (g := Wire.kind) rfl fun i i' hi => ?_) fun ds ds' hds => ?_
  · cases hi
    exact alike_sub (getD_kind hys i _) (getD_kind hxs i _)
  refine alike_bind (alike_callN rfl (by simp [ltHelper_length])) fun hl hl' hh => ?_
  refine alike_bind (alike_ltLoop hl hl' ds ds' _ _ _ _ hh hds rfl rfl) fun cr cr' hcr => ?_
  obtain ⟨c, r⟩ := cr
  obtain ⟨c', r'⟩ := cr'
  simp only [kinds2, Prod.mk.injEq] at hcr
  refine alike_bind (alike_sub hcr.1 rfl) fun c1 c1' hc1 => ?_
  refine alike_bind (alike_callN rfl (by rw [natBits_length, natBits_length])) fun b b' hb => ?_
  refine alike_bind (alike_packBits hb) fun v v' hv => ?_
  refine alike_bind (f := id) (alike_enforceEq (fa_kind hv) (fa_kind hc1)) fun _ _ _ => ?_
  exact alike_enforceEq (fa_kind hcr.2) rfl

section
variable [AddCommGroup G] [Module (ZMod q) G]

theorem alike_coords (cv : Curve p q G) {x x' : Wire G} (hx : x.kind = x'.kind) :
    Alike (List.map Wire.kind) (coords cv x) (coords cv x') := alike_callN (by simp only [List.map_cons, List.map_nil, pa_kind hx]) rfl

theorem alike_pointBytes (cv : Curve p q G) {x x' : Wire G} (hx : x.kind = x'.kind) :
    Alike (List.map Wire.kind) (pointBytes cv x) (pointBytes cv x') := by
  refine alike_callN (by simp only [List.map_cons, List.map_nil, pa_kind hx]) ?_
  unfold pkBytesVar
  simp only [List.length_append, List.length_cons, List.length_nil]
  rw [fBytesVar_length ((cv.xy x.val).getD (0, 0)).1 ((cv.xy x'.val).getD (0, 0)).1,
    fBytesVar_length ((cv.xy x.val).getD (0, 0)).2 ((cv.xy x'.val).getD (0, 0)).2]

theorem alike_scalarMul {x x' : Wire G} {b b' : List (Wire Bool)} (hx : x.kind = x'.kind)
    (hb : b.map Wire.kind = b'.map Wire.kind) : Alike Wire.kind (scalarMul x b : Tr p G _) (scalarMul x' b') :=
  alike_call (by simp only [List.map_cons, List.map_nil, pa_kind hx, mapb_kind hb])

theorem alike_isValid (W : Nat) (cv : Curve p q G) (H : List (ZMod p) → ZMod p) {pk pk' : Wire G}
    {m m' : List (Wire (ZMod p))} {s s' e e' : List (Wire Bool)} (hpk : pk.kind = pk'.kind)
    (hm : m.map Wire.kind = m'.map Wire.kind) (hs : s.map Wire.kind = s'.map Wire.kind)
    (he : e.map Wire.kind = e'.map Wire.kind) :
    Alike Wire.kind (isValid W cv H pk m s e) (isValid W cv H pk' m' s' e') := by
  refine alike_bind (alike_scalarMul rfl hs) fun r1 r1' h1 => ?_
  refine alike_bind (alike_scalarMul hpk he) fun r2 r2' h2 => ?_
  refine alike_bind (alike_call (by simp only [List.map_cons, List.map_nil, pa_kind h1, pa_kind h2])) fun r r' hr => ?_
  refine alike_bind (alike_coords cv hr) fun xy xy' hxy => ?_
  refine alike_bind (alike_hash (by rw [List.map_append, List.map_append, hm, List.map_dropLast, List.map_dropLast, hxy]))
    fun h h' hh => ?_
  refine alike_bind (alike_toBits hh) fun hb hb' hhb => ?_
  have ht : (hb.take (modBits q)).map Wire.kind = (hb'.take (modBits q)).map Wire.kind := by
    rw [List.map_take, List.map_take, hhb]
  refine alike_bind (f := id) (alike_enforceLt W ht rfl) fun _ _ _ => ?_
  have g1 := congrArg (fun l : List (Ref Bool) => l[modBits q - 1]?) ht
  have g2 := congrArg (fun l : List (Ref Bool) => l[modBits q - 1]?) he
  simp only [List.getElem?_map] at g1 g2
  rcases e1 : (hb.take (modBits q))[modBits q - 1]? with _ | x <;>
    rcases e1' : (hb'.take (modBits q))[modBits q - 1]? with _ | x' <;>
    rw [e1, e1'] at g1 <;> simp only [Option.map_none, Option.map_some, Option.some.injEq, reduceCtorEq] at g1
  · exact alike_panic
  · rcases e2 : e[modBits q - 1]? with _ | y <;>
      rcases e2' : e'[modBits q - 1]? with _ | y' <;>
      rw [e2, e2'] at g2 <;> simp only [Option.map_none, Option.map_some, Option.some.injEq, reduceCtorEq] at g2
    · exact alike_panic
    · refine alike_bind (alike_packBits (by rw [List.map_take (l := hb.take _), List.map_take (l := hb'.take _), ht])) fun a a' ha => ?_
      refine alike_bind (alike_packBits (by rw [List.map_take, List.map_take, he])) fun b b' hb => ?_
      refine alike_bind (alike_isEq (fa_kind ha) (fa_kind hb)) fun eq eq' heq => ?_
      refine alike_bind (alike_isEq (ba_kind g1) (ba_kind g2)) fun l l' hl => ?_
      exact alike_band heq hl

/-! ## Data -/

/-- The variables of a UTXO. -/
def UtxoW.kinds (u : UtxoW p G) : Ref (ZMod p) × Ref G × Ref Bool := (u.amount.kind, u.pk.kind, u.isDummy.kind)
/-- The variables of a transaction. -/
def TxW.kinds (t : TxW p G) := (t.inputs.map UtxoW.kinds, t.outputs.map UtxoW.kinds)

theorem UtxoW.kinds_eq {u u' : UtxoW p G} (h : u.kinds = u'.kinds) :
    u.amount.kind = u'.amount.kind ∧ u.pk.kind = u'.pk.kind ∧ u.isDummy.kind = u'.isDummy.kind := by
  simpa [UtxoW.kinds] using h
theorem TxW.kinds_eq {u u' : TxW p G} (h : u.kinds = u'.kinds) :
    u.inputs.map UtxoW.kinds = u'.inputs.map UtxoW.kinds ∧ u.outputs.map UtxoW.kinds = u'.outputs.map UtxoW.kinds := by
  simpa [TxW.kinds] using h

theorem alike_allocUtxo (u u' : UTXO (ZMod p) G) : Alike UtxoW.kinds (allocUtxo u) (allocUtxo u') :=
  alike_bind (alike_call rfl) fun _ _ h1 => alike_bind (alike_call rfl) fun _ _ h2 => alike_bind (alike_call rfl)
    fun _ _ h3 => alike_pure (by simp [UtxoW.kinds, h1, h2, h3])



/-- A loop whose body does not look at the items but for their values. -/
theorem alike_each' {g : β → τ} {k k' : α → Tr p G β} {l l' : List α} (hl : l.length = l'.length)
    (hk : ∀ a a', Alike g (k a) (k' a')) : Alike (List.map g) (each k l) (each k' l') :=
  alike_each (f := fun _ => ()) (unit_map hl) fun a a' _ => hk a a'

theorem alike_allocTx (t t' : Tx (ZMod p) G) : Alike TxW.kinds (allocTx t) (allocTx t') :=
  alike_bind (alike_each' (by simp) alike_allocUtxo) fun _ _ h1 =>
    alike_bind (alike_each' (by simp) alike_allocUtxo) fun _ _ h2 => alike_pure (by simp [TxW.kinds, h1, h2])

theorem alike_utxoFields (cv : Curve p q G) {u u' : UtxoW p G} (h : u.kinds = u'.kinds) :
    Alike (List.map Wire.kind) (utxoFields cv u) (utxoFields cv u') := by
  obtain ⟨h1, h2, h3⟩ := UtxoW.kinds_eq h
  exact alike_bind (alike_toField h3) fun d d' hd => alike_bind (alike_coords cv h2) fun c c' hc =>
    alike_pure (by simp [h1, hd, hc])

theorem alike_txFields (cv : Curve p q G) {t t' : TxW p G} (h : t.kinds = t'.kinds) :
    Alike (List.map Wire.kind) (txFields cv t) (txFields cv t') := by
  obtain ⟨h1, h2⟩ := TxW.kinds_eq h
  refine alike_bind (alike_each (by rw [List.map_append, List.map_append, h1, h2])
    fun a a' ha => alike_utxoFields cv ha) fun l l' hl => alike_pure ?_
  rw [List.map_flatten, List.map_flatten, hl]

theorem alike_utxoHash (cv : Curve p q G) (H : List (ZMod p) → ZMod p) (u u' : UtxoW p G) (h : u.kinds = u'.kinds) :
    Alike Wire.kind (utxoHash cv H u) (utxoHash cv H u') :=
  alike_bind (alike_utxoFields cv h) fun _ _ hl => alike_hash hl

theorem alike_txHash (cv : Curve p q G) (H : List (ZMod p) → ZMod p) (u u' : TxW p G) (h : u.kinds = u'.kinds) :
    Alike Wire.kind (txHash cv H u) (txHash cv H u') :=
  alike_bind (alike_txFields cv h) fun _ _ hl => alike_hash hl

theorem alike_pkHash (cv : Curve p q G) (H : List (ZMod p) → ZMod p) (u u' : Wire G) (h : u.kind = u'.kind) :
    Alike Wire.kind (pkHash cv H u) (pkHash cv H u') :=
  alike_bind (alike_coords cv h) fun _ _ hl => alike_hash hl

/-! ## Trees -/

theorem alike_updateLoop (h2 : ZMod p → ZMod p → ZMod p) (l l' : List (Wire (ZMod p))) (bs bs' : List (Wire Bool))
    (o o' n n' : Wire (ZMod p)) (hl : l.map Wire.kind = l'.map Wire.kind) (hb : bs.map Wire.kind = bs'.map Wire.kind)
    (ho : o.kind = o'.kind) (hn : n.kind = n'.kind) :
    Alike kinds2 (updateLoop h2 l bs o n : Tr p G _) (updateLoop h2 l' bs' o' n') := by
  induction l generalizing l' bs bs' o o' n n' with
  | nil =>
    rw [map_eq_nil' hl]
    cases bs <;> cases bs' <;> exact alike_pure (by simp [kinds2, ho, hn])
  | cons a l ih =>
    obtain ⟨a', l', rfl, ha, hl⟩ := map_eq_cons hl
    cases bs with
    | nil => rw [map_eq_nil' hb]; exact alike_pure (by simp [kinds2, ho, hn])
    | cons b bs =>
      obtain ⟨b', bs', rfl, hb1, hb⟩ := map_eq_cons hb
      refine alike_bind (alike_sel hb1 (fa_kind ha) (fa_kind ho)) fun _ _ h1 => ?_
      refine alike_bind (alike_add ho ha) fun _ _ h2 => ?_
      refine alike_bind (alike_sub h2 h1) fun _ _ h3 => ?_
      refine alike_bind (alike_sel hb1 (fa_kind ha) (fa_kind hn)) fun _ _ h4 => ?_
      refine alike_bind (alike_add hn ha) fun _ _ h5 => ?_
      refine alike_bind (alike_sub h5 h4) fun _ _ h6 => ?_
      refine alike_bind (alike_two h1 h3) fun _ _ h7 => ?_
      refine alike_bind (alike_two h4 h6) fun _ _ h8 => ?_
      exact ih _ _ _ _ _ _ _ hl hb h7 h8

theorem alike_updateRoot {L S : Type} {sk : L → S} {leafHash : L → Tr p G (Wire (ZMod p))}
    (hh : ∀ a a', sk a = sk a' → Alike Wire.kind (leafHash a) (leafHash a')) (h2 : ZMod p → ZMod p → ZMod p) (height : Nat)
    {l l' : List (Wire (ZMod p))} {o o' n n' : L} {i i' : Wire (ZMod p)} (hl : l.map Wire.kind = l'.map Wire.kind)
    (ho : sk o = sk o') (hn : sk n = sk n') (hi : i.kind = i'.kind) :
    Alike kinds2 (updateRoot leafHash h2 height l o n i) (updateRoot leafHash h2 height l' o' n' i') := by
  refine alike_bind (f := id) (alike_assert (by rw [len_eq hl])) fun _ _ _ => ?_
  refine alike_bind (hh _ _ ho) fun _ _ h1 => ?_
  refine alike_bind (hh _ _ hn) fun _ _ h2 => ?_
  refine alike_bind (alike_toBits hi) fun _ _ h3 => ?_
  exact alike_updateLoop _ _ _ _ _ _ _ _ _ hl h3 h1 h2

theorem alike_condUpdate {L S : Type} {sk : L → S} {leafHash : L → Tr p G (Wire (ZMod p))}
    (hh : ∀ a a', sk a = sk a' → Alike Wire.kind (leafHash a) (leafHash a')) (h2 : ZMod p → ZMod p → ZMod p) (height : Nat)
    {on on' : Wire Bool} {l l' : List (Wire (ZMod p))} {o o' n n' : L} {i i' r r' : Wire (ZMod p)}
    (hon : on.kind = on'.kind) (hi : i.kind = i'.kind) (hl : l.map Wire.kind = l'.map Wire.kind)
    (ho : sk o = sk o') (hn : sk n = sk n') (hr : r.kind = r'.kind) :
    Alike Wire.kind (condUpdate leafHash h2 height on i l o n r) (condUpdate leafHash h2 height on' i' l' o' n' r') := by
  refine alike_bind (alike_updateRoot hh h2 height hl ho hn hi) fun u u' hu => ?_
  simp only [kinds2, Prod.mk.injEq] at hu
  refine alike_bind (f := id) (alike_condEnforceEq (fa_kind hr) (fa_kind hu.1) hon) fun _ _ _ => ?_
  exact alike_sel hon (fa_kind hu.2) (fa_kind hr)

theorem alike_memLoop (h2 : ZMod p → ZMod p → ZMod p) {on on' : Wire Bool} (hon : on.kind = on'.kind)
    (l l' : List (Wire (ZMod p) × Wire (ZMod p))) (o o' : Wire (ZMod p)) (hl : l.map kinds2 = l'.map kinds2)
    (ho : o.kind = o'.kind) : Alike Wire.kind (memLoop h2 on l o : Tr p G _) (memLoop h2 on' l' o') := by
  induction l generalizing l' o o' with
  | nil => rw [map_eq_nil' hl]; exact alike_pure ho
  | cons a l ih =>
    obtain ⟨a', l', rfl, ha, hl'⟩ := map_eq_cons hl
    obtain ⟨x, y⟩ := a
    obtain ⟨x', y'⟩ := a'
    simp only [kinds2, Prod.mk.injEq] at ha
    refine alike_bind (alike_call rfl) fun _ _ h1 => ?_
    refine alike_bind (alike_sel h1 (fa_kind ha.1) (fa_kind ha.2)) fun _ _ h3 => ?_
    refine alike_bind (f := id) (alike_condEnforceEq (fa_kind ho) (fa_kind h3) hon) fun _ _ _ => ?_
    refine alike_bind (alike_two ha.1 ha.2) fun _ _ h4 => ?_
    exact ih _ _ _ hl' h4

theorem alike_checkMembership {f : Unit → σ} {L S : Type} {sk : L → S} {leafHash : L → Tr p G (Wire (ZMod p))}
    (hh : ∀ a a', sk a = sk a' → Alike Wire.kind (leafHash a) (leafHash a')) (h2 : ZMod p → ZMod p → ZMod p) (height : Nat)
    {on on' : Wire Bool} {l l' : List (Wire (ZMod p) × Wire (ZMod p))} {o o' : L} {r r' : Wire (ZMod p)}
    (hl : l.map kinds2 = l'.map kinds2) (hr : r.kind = r'.kind) (ho : sk o = sk o') (hon : on.kind = on'.kind) :
    Alike f (checkMembership leafHash h2 height l r o on) (checkMembership leafHash h2 height l' r' o' on') := by
  refine alike_bind (f := id) (alike_assert (by rw [len_eq hl])) fun _ _ _ => ?_
  refine alike_bind (hh _ _ ho) fun _ _ h1 => ?_
  cases l with
  | nil => rw [map_eq_nil' hl]; exact alike_panic
  | cons a l =>
    have hl0 := hl
    obtain ⟨a', l', rfl, ha, hl'⟩ := map_eq_cons hl
    obtain ⟨x, y⟩ := a
    obtain ⟨x', y'⟩ := a'
    simp only [kinds2, Prod.mk.injEq] at ha
    refine alike_bind (alike_call rfl) fun _ _ h2 => ?_
    refine alike_bind (alike_sel h2 (fa_kind ha.1) (fa_kind ha.2)) fun _ _ h3 => ?_
    refine alike_bind (f := id) (alike_condEnforceEq (fa_kind h1) (fa_kind h3) hon) fun _ _ _ => ?_
    refine alike_bind (alike_memLoop _ hon _ _ _ _ hl0 h1) fun _ _ h4 => ?_
    exact alike_condEnforceEq (fa_kind hr) (fa_kind h4) hon

theorem alike_memIdxLoop (h2 : ZMod p → ZMod p → ZMod p) {on on' : Wire Bool} (hon : on.kind = on'.kind)
    (l l' : List (Wire (ZMod p) × Wire (ZMod p))) (bs bs' : List (Wire Bool)) (o o' : Wire (ZMod p))
    (hl : l.map kinds2 = l'.map kinds2) (hb : bs.map Wire.kind = bs'.map Wire.kind)
    (ho : o.kind = o'.kind) : Alike Wire.kind (memIdxLoop h2 on l bs o : Tr p G _) (memIdxLoop h2 on' l' bs' o') := by
  induction l generalizing l' bs bs' o o' with
  | nil => rw [map_eq_nil' hl]; exact alike_pure ho
  | cons a l ih =>
    obtain ⟨a', l', rfl, ha, hl'⟩ := map_eq_cons hl
    obtain ⟨x, y⟩ := a
    obtain ⟨x', y'⟩ := a'
    simp only [kinds2, Prod.mk.injEq] at ha
    cases bs with
    | nil => rw [map_eq_nil' hb]; exact alike_panic
    | cons b bs =>
      obtain ⟨b', bs', rfl, hb1, hb⟩ := map_eq_cons hb
      refine alike_bind (alike_bnot hb1) fun _ _ h1 => ?_
      refine alike_bind (alike_sel h1 (fa_kind ha.1) (fa_kind ha.2)) fun _ _ h3 => ?_
      refine alike_bind (f := id) (alike_condEnforceEq (fa_kind ho) (fa_kind h3) hon) fun _ _ _ => ?_
      refine alike_bind (alike_two ha.1 ha.2) fun _ _ h4 => ?_
      exact ih _ _ _ _ _ hl' hb h4

theorem alike_checkMembershipIdx {f : Unit → σ} {L S : Type} {sk : L → S} {leafHash : L → Tr p G (Wire (ZMod p))}
    (hh : ∀ a a', sk a = sk a' → Alike Wire.kind (leafHash a) (leafHash a')) (h2 : ZMod p → ZMod p → ZMod p) (height : Nat)
    {on on' : Wire Bool} {l l' : List (Wire (ZMod p) × Wire (ZMod p))} {o o' : L} {r r' i i' : Wire (ZMod p)}
    (hl : l.map kinds2 = l'.map kinds2) (hr : r.kind = r'.kind) (ho : sk o = sk o') (hi : i.kind = i'.kind)
    (hon : on.kind = on'.kind) :
    Alike f (checkMembershipIdx leafHash h2 height l r o i on) (checkMembershipIdx leafHash h2 height l' r' o' i' on') := by
  refine alike_bind (f := id) (alike_assert (by rw [len_eq hl])) fun _ _ _ => ?_
  refine alike_bind (hh _ _ ho) fun _ _ h1 => ?_
  refine alike_bind (alike_toBits hi) fun _ _ h2 => ?_
  refine alike_bind (alike_memIdxLoop _ hon _ _ _ _ _ _ hl h2 h1) fun _ _ h4 => ?_
  exact alike_condEnforceEq (fa_kind hr) (fa_kind h4) hon

variable [DecidableEq G]

/-! ## Aggregator -/

theorem alike_ownerLoop {f : Unit → σ} {s s' : Wire G} (hs : s.kind = s'.kind) (l l' : List (UtxoW p G))
    (hl : l.map UtxoW.kinds = l'.map UtxoW.kinds) : Alike f (ownerLoop s l) (ownerLoop s' l') := by
  induction l generalizing l' with
  | nil => rw [map_eq_nil' hl]; exact alike_pure rfl
  | cons a l ih =>
    obtain ⟨a', l', rfl, ha, hl⟩ := map_eq_cons hl
    obtain ⟨-, h2, h3⟩ := UtxoW.kinds_eq ha
    refine alike_bind (alike_bnot h3) fun _ _ h1 => ?_
    refine alike_bind (f := id) (alike_condEnforceEq (pa_kind h2) (pa_kind hs) h1) fun _ _ _ => ?_
    exact ih _ hl

theorem alike_sumLoop {op : Wire (ZMod p) → Wire (ZMod p) → Tr p G (Wire (ZMod p))}
    (hop : ∀ {x x' y y' : Wire (ZMod p)}, x.kind = x'.kind → y.kind = y'.kind → Alike Wire.kind (op x y) (op x' y'))
    (l l' : List (UtxoW p G)) (hl : l.map UtxoW.kinds = l'.map UtxoW.kinds) (s s' : Wire (ZMod p)) (hs : s.kind = s'.kind) :
    Alike Wire.kind (sumLoop op l s) (sumLoop op l' s') := by
  induction l generalizing l' s s' with
  | nil => rw [map_eq_nil' hl]; exact alike_pure hs
  | cons a l ih =>
    obtain ⟨a', l', rfl, ha, hl⟩ := map_eq_cons hl
    obtain ⟨h1, h2, h3⟩ := UtxoW.kinds_eq ha
    refine alike_bind (alike_sel h3 rfl (fa_kind h1)) fun _ _ h1 => ?_
    refine alike_bind (hop hs h1) fun _ _ h => ?_
    exact ih _ hl _ _ h

theorem alike_enforceValid {f : Unit → σ} {t t' : TxW p G} (h : t.kinds = t'.kinds) {s s' : Wire G} (hs : s.kind = s'.kind) :
    Alike f (enforceValid t s) (enforceValid t' s') := by
  obtain ⟨h1, h2⟩ := TxW.kinds_eq h
  refine alike_bind (f := id) (alike_ownerLoop hs _ _ h1) fun _ _ _ => ?_
  refine alike_bind (alike_sumLoop alike_add _ _ h1 _ _ rfl) fun _ _ h3 => ?_
  refine alike_bind (alike_sumLoop alike_sub _ _ h2 _ _ h3) fun _ _ h4 => ?_
  exact alike_enforceEq (fa_kind h4) rfl

/-- The variables of a position with its proof. -/
def posKinds (x : Wire (ZMod p) × List (Wire (ZMod p))) := (x.1.kind, x.2.map Wire.kind)

/-- The variables of the inputs of one transaction. -/
def InputsW.kinds (i : InputsW p G) :=
  (i.tx.kinds, i.txProof.map Wire.kind, i.dels.map posKinds, i.adds.map posKinds, i.signerProof.map Wire.kind,
    i.senderPk.kind, i.sigS.map Wire.kind, i.sigE.map Wire.kind)

theorem InputsW.kinds_eq {i i' : InputsW p G} (h : i.kinds = i'.kinds) :
    i.tx.kinds = i'.tx.kinds ∧ i.txProof.map Wire.kind = i'.txProof.map Wire.kind ∧ i.dels.map posKinds = i'.dels.map posKinds ∧
    i.adds.map posKinds = i'.adds.map posKinds ∧ i.signerProof.map Wire.kind = i'.signerProof.map Wire.kind ∧
    i.senderPk.kind = i'.senderPk.kind ∧ i.sigS.map Wire.kind = i'.sigS.map Wire.kind ∧
    i.sigE.map Wire.kind = i'.sigE.map Wire.kind := by
  simpa only [InputsW.kinds, Prod.mk.injEq] using h

theorem StateW.kinds_eq {z z' : StateW p} (h : z.kinds = z'.kinds) :
    z.step.kind = z'.step.kind ∧ z.utxoRoot.kind = z'.utxoRoot.kind ∧ z.txRoot.kind = z'.txRoot.kind ∧
    z.txRootFinal.kind = z'.txRootFinal.kind ∧ z.signerRoot.kind = z'.signerRoot.kind ∧ z.signerAcc.kind = z'.signerAcc.kind ∧
    z.depositAcc.kind = z'.depositAcc.kind ∧ z.withdrawalAcc.kind = z'.withdrawalAcc.kind := by
  simpa only [StateW.kinds, List.cons.injEq, and_true] using h



theorem zip_posKinds {a a' : List (Wire (ZMod p))} {b b' : List (List (Wire (ZMod p)))} (ha : a.map Wire.kind = a'.map Wire.kind)
    (hb : b.map (List.map Wire.kind) = b'.map (List.map Wire.kind)) :
    (a.zip b).map posKinds = (a'.zip b').map posKinds := by
  have : ∀ (a : List (Wire (ZMod p))) (b : List (List (Wire (ZMod p)))),
      (a.zip b).map posKinds = (a.map Wire.kind).zip (b.map (List.map Wire.kind)) := by
    intro a b
    rw [List.zip_map]
    rfl
  rw [this, this, ha, hb]

theorem alike_allocInputs (i i' : AggC.CInputs p G) (h : lens i = lens i') :
    Alike InputsW.kinds (allocInputs i) (allocInputs i') := by
  simp only [lens, Prod.mk.injEq] at h
  obtain ⟨l1, l2, l3, l4, l5, l6⟩ := h
  refine alike_bind (alike_allocTx _ _) fun _ _ h1 => ?_
  refine alike_bind (alike_callN rfl l1) fun _ _ h2 => ?_
  refine alike_bind (alike_each (f := List.length) (g := List.map Wire.kind) (by simpa [List.map_map, Function.comp_def] using l2)
    fun _ _ h => alike_callN rfl h) fun _ _ h3 => ?_
  refine alike_bind (alike_each' (g := Wire.kind) (by simpa using len_eq l2) fun _ _ => alike_call rfl) fun _ _ h4 => ?_
  refine alike_bind (alike_each (f := List.length) (g := List.map Wire.kind) (by simpa [List.map_map, Function.comp_def] using l3)
    fun _ _ h => alike_callN rfl h) fun _ _ h5 => ?_
  refine alike_bind (alike_each' (g := Wire.kind) (by simpa using len_eq l3) fun _ _ => alike_call rfl) fun _ _ h6 => ?_
  refine alike_bind (alike_callN rfl l4) fun _ _ h7 => ?_
  refine alike_bind (alike_call rfl) fun _ _ h8 => ?_
  refine alike_bind (alike_callN rfl l5) fun _ _ h9 => ?_
  refine alike_bind (alike_callN rfl l6) fun _ _ h10 => alike_pure ?_
  simp only [InputsW.kinds, h1, h2, h7, h8, h9, h10, zip_posKinds h4 h3, zip_posKinds h6 h5]

theorem alike_delLoop (cv : Curve p q G) (hs : Hashes p) {on on' : Wire Bool} (hon : on.kind = on'.kind)
    (us us' : List (UtxoW p G)) (ds ds' : List (Wire (ZMod p) × List (Wire (ZMod p)))) (r r' : Wire (ZMod p))
    (hu : us.map UtxoW.kinds = us'.map UtxoW.kinds) (hd : ds.map posKinds = ds'.map posKinds) (hr : r.kind = r'.kind) :
    Alike Wire.kind (delLoop cv hs on us ds r) (delLoop cv hs on' us' ds' r') := by
  induction us generalizing us' ds ds' r r' with
  | nil =>
    rw [map_eq_nil' hu]
    cases ds with
    | nil => rw [map_eq_nil' hd]; exact alike_pure hr
    | cons d ds =>
      obtain ⟨d', ds', rfl, -, -⟩ := map_eq_cons hd
      exact alike_panic
  | cons u us ih =>
    obtain ⟨u', us', rfl, h1, hu⟩ := map_eq_cons hu
    cases ds with
    | nil => rw [map_eq_nil' hd]; exact alike_panic
    | cons d ds =>
      obtain ⟨d', ds', rfl, h2, hd⟩ := map_eq_cons hd
      simp only [posKinds, Prod.mk.injEq] at h2
      refine alike_bind (alike_bnot (UtxoW.kinds_eq h1).2.2) fun _ _ h3 => ?_
      refine alike_bind (alike_band hon h3) fun _ _ h4 => ?_
      refine alike_bind (alike_condUpdate (alike_utxoHash cv _) _ _ h4 h2.1 h2.2 h1 rfl hr) fun _ _ h5 => ?_
      exact ih _ _ _ _ _ hu hd h5

theorem alike_depositStep (P : AggC.Params p G) (cv : Curve p q G) {on on' : Wire Bool} (hon : on.kind = on'.kind)
    {u u' : UtxoW p G} (h1 : u.kinds = u'.kinds) {d d' : Wire (ZMod p)} (hd : d.kind = d'.kind) :
    Alike Wire.kind (depositStep P cv on u d) (depositStep P cv on' u' d') := by
  obtain ⟨a, b, c⟩ := UtxoW.kinds_eq h1
  unfold depositStep
  by_cases ht : P.transferOnly
  · rw [if_pos ht, if_pos ht]; exact alike_pure hd
  · rw [if_neg ht, if_neg ht]
    refine alike_bind (alike_toBytes hd) fun _ _ h1 => ?_
    refine alike_bind (alike_pointBytes cv b) fun _ _ h2 => ?_
    refine alike_bind (alike_toNBits a 64) fun _ _ h3 => ?_
    refine alike_bind (alike_toByteChunks h3) fun _ _ h4 => ?_
    refine alike_bind (alike_bnot c) fun _ _ h5 => ?_
    refine alike_bind (alike_band hon h5) fun _ _ h6 => ?_
    refine alike_bind (alike_shaField (by simp only [List.map_append, h1, h2, h4])) fun _ _ h7 => ?_
    exact alike_sel h6 (fa_kind h7) (fa_kind hd)

/-- The variables of a triple. -/
def kinds3 (x : Wire (ZMod p) × Wire (ZMod p) × Wire (ZMod p)) := (x.1.kind, x.2.1.kind, x.2.2.kind)

theorem alike_addLoop (P : AggC.Params p G) (cv : Curve p q G) {on on' ok ok' : Wire Bool} (hon : on.kind = on'.kind)
    (hok : ok.kind = ok'.kind)
    (us us' : List (UtxoW p G)) (ds ds' : List (Wire (ZMod p) × List (Wire (ZMod p)))) (d d' w w' r r' : Wire (ZMod p))
    (hu : us.map UtxoW.kinds = us'.map UtxoW.kinds) (hds : ds.map posKinds = ds'.map posKinds) (hd : d.kind = d'.kind)
    (hw : w.kind = w'.kind) (hr : r.kind = r'.kind) :
    Alike kinds3 (addLoop P cv on ok us ds d w r) (addLoop P cv on' ok' us' ds' d' w' r') := by
  induction us generalizing us' ds ds' d d' w w' r r' with
  | nil =>
    rw [map_eq_nil' hu]
    cases ds with
    | nil => rw [map_eq_nil' hds]; exact alike_pure (by simp only [kinds3, hd, hw, hr])
    | cons d ds =>
      obtain ⟨d', ds', rfl, -, -⟩ := map_eq_cons hds
      exact alike_panic
  | cons u us ih =>
    obtain ⟨u', us', rfl, h1, hu⟩ := map_eq_cons hu
    cases ds with
    | nil => rw [map_eq_nil' hds]; exact alike_panic
    | cons a as =>
      obtain ⟨a', as', rfl, h2, hds⟩ := map_eq_cons hds
      simp only [posKinds, Prod.mk.injEq] at h2
      obtain ⟨e1, e2, e3⟩ := UtxoW.kinds_eq h1
      refine alike_bind (alike_isEq (pa_kind e2) rfl) fun _ _ h3 => ?_
      refine alike_bind (alike_depositStep P cv hon h1 hd) fun _ _ h4 => ?_
      refine alike_bind (alike_bnot e3) fun _ _ h5 => ?_
      refine alike_bind (alike_band h3 h5) fun _ _ h6 => ?_
      refine alike_bind (alike_sel h6 (fa_kind e1) rfl) fun _ _ h7 => ?_
      refine alike_bind (alike_add hw h7) fun _ _ h8 => ?_
      refine alike_bind (alike_bnot h3) fun _ _ h9 => ?_
      refine alike_bind (alike_band hok h9) fun _ _ h10 => ?_
      refine alike_bind (alike_bnot e3) fun _ _ h11 => ?_
      refine alike_bind (alike_band h10 h11) fun _ _ h12 => ?_
      refine alike_bind (alike_condUpdate (alike_utxoHash cv _) _ _ h12 h2.1 h2.2 rfl h1 hr) fun _ _ h13 => ?_
      exact ih _ _ _ _ _ _ _ _ _ hu hds h4 h8 h13

theorem alike_withdrawalStep (P : AggC.Params p G) (cv : Curve p q G) {k k' : Wire G} (hk : k.kind = k'.kind)
    {w w' d d' : Wire (ZMod p)} (hw : w.kind = w'.kind) (hd : d.kind = d'.kind) :
    Alike Wire.kind (withdrawalStep P cv k w d) (withdrawalStep P cv k' w' d') := by
  unfold withdrawalStep
  by_cases ht : P.transferOnly
  · rw [if_pos ht, if_pos ht]; exact alike_pure hd
  · rw [if_neg ht, if_neg ht]
    refine alike_bind (alike_toBytes hd) fun _ _ h1 => ?_
    refine alike_bind (alike_pointBytes cv hk) fun _ _ h2 => ?_
    refine alike_bind (alike_toNBits hw 64) fun _ _ h3 => ?_
    refine alike_bind (alike_toByteChunks h3) fun _ _ h4 => ?_
    refine alike_bind (alike_isZero hw) fun _ _ h5 => ?_
    refine alike_bind (alike_shaField (by simp only [List.map_append, h1, h2, h4])) fun _ _ h7 => ?_
    exact alike_sel h5 (fa_kind hd) (fa_kind h7)

theorem alike_stepOne (P : AggC.Params p G) (cv : Curve p q G) (z z' : StateW p) (i i' : InputsW p G)
    (hz : z.kinds = z'.kinds) (hi : i.kinds = i'.kinds) : Alike StateW.kinds (stepOne P cv z i) (stepOne P cv z' i') := by
  obtain ⟨z1, z2, z3, z4, z5, z6, z7, z8⟩ := StateW.kinds_eq hz
  obtain ⟨i1, i2, i3, i4, i5, i6, i7, i8⟩ := InputsW.kinds_eq hi
  obtain ⟨t1, t2⟩ := TxW.kinds_eq i1
  refine alike_bind (f := id) (alike_assert (by rw [len_eq i7, len_eq i8])) fun _ _ _ => ?_
  refine alike_bind (f := id) (alike_enforceValid i1 i6) fun _ _ _ => ?_
  refine alike_bind (alike_updateRoot (alike_txHash cv _) _ _ i2 rfl i1 z1) fun u u' hu => ?_
  simp only [kinds2, Prod.mk.injEq] at hu
  refine alike_bind (f := id) (alike_enforceEq (fa_kind hu.1) (fa_kind z3)) fun _ _ _ => ?_
  refine alike_bind (alike_txFields cv i1) fun m m' hm => ?_
  refine alike_bind (alike_isValid 32 cv _ i6 (by simp only [List.map_append, hm, List.map_cons, List.map_nil, z4]) i7 i8)
    fun sigOk sigOk' h1 => ?_
  refine alike_bind (alike_isEq (pa_kind i6) rfl) fun isC isC' h2 => ?_
  refine alike_bind (alike_bor h1 h2) fun txOk txOk' h3 => ?_
  refine alike_bind (alike_delLoop cv _ h1 _ _ _ _ _ _ t1 i3 z2) fun r1 r1' h4 => ?_
  refine alike_bind (alike_addLoop P cv h2 h3 _ _ _ _ _ _ _ _ _ _ t2 i4 z7 rfl h4) fun x x' hx => ?_
  obtain ⟨dep, w, r2⟩ := x
  obtain ⟨dep', w', r2'⟩ := x'
  simp only [kinds3, Prod.mk.injEq] at hx
  obtain ⟨x1, x2, x3⟩ := hx
  refine alike_bind (alike_updateRoot (alike_pkHash cv _) _ _ i5 rfl i6 z1) fun s s' hs => ?_
  simp only [kinds2, Prod.mk.injEq] at hs
  refine alike_bind (f := id) (alike_condEnforceEq (fa_kind hs.1) (fa_kind z5) h3) fun _ _ _ => ?_
  refine alike_bind (alike_sel h3 (fa_kind hs.2) (fa_kind z5)) fun _ _ h5 => ?_
  refine alike_bind (alike_toBytes z6) fun _ _ h6 => ?_
  refine alike_bind (alike_sel h3 (pa_kind i6) rfl) fun _ _ h7 => ?_
  refine alike_bind (alike_pointBytes cv h7) fun _ _ h8 => ?_
  refine alike_bind (alike_shaField (by simp only [List.map_append, h6, h8])) fun _ _ h9 => ?_
  refine alike_bind (alike_withdrawalStep P cv i6 x2 z8) fun _ _ h10 => ?_
  refine alike_bind (alike_add z1 rfl) fun _ _ h11 => alike_pure ?_
  simp only [StateW.kinds, h11, x3, hu.2, z4, h5, h9, x1, h10]

theorem alike_stepBatch (P : AggC.Params p G) (cv : Curve p q G) (is is' : List (InputsW p G)) (z z' : StateW p)
    (hz : z.kinds = z'.kinds) (hi : is.map InputsW.kinds = is'.map InputsW.kinds) :
    Alike StateW.kinds (stepBatch P cv z is) (stepBatch P cv z' is') := by
  induction is generalizing is' z z' with
  | nil => rw [map_eq_nil' hi]; exact alike_pure hz
  | cons i is ih =>
    obtain ⟨i', is', rfl, h1, h2⟩ := map_eq_cons hi
    exact alike_bind (alike_stepOne P cv _ _ _ _ hz h1) fun _ _ h => ih _ _ _ h h2

theorem alike_allocState (z z' : AggC.CState p) : Alike StateW.kinds (allocState z : Tr p G _) (allocState z') := by
  unfold allocState
  refine alike_bind (alike_call rfl) fun _ _ h1 => ?_
  refine alike_bind (alike_call rfl) fun _ _ h2 => ?_
  refine alike_bind (alike_call rfl) fun _ _ h3 => ?_
  refine alike_bind (alike_call rfl) fun _ _ h4 => ?_
  refine alike_bind (alike_call rfl) fun _ _ h5 => ?_
  refine alike_bind (alike_call rfl) fun _ _ h6 => ?_
  refine alike_bind (alike_call rfl) fun _ _ h7 => ?_
  refine alike_bind (alike_call rfl) fun _ _ h8 => alike_pure ?_
  simp only [StateW.kinds, h1, h2, h3, h4, h5, h6, h7, h8]

theorem alike_aggregatorStep (P : AggC.Params p G) (cv : Curve p q G) (z z' : AggC.CState p)
    (is is' : List (AggC.CInputs p G)) (h : is.map lens = is'.map lens) :
    Alike StateW.kinds (aggregatorStep P cv z is) (aggregatorStep P cv z' is') :=
  alike_bind (alike_allocState z z') fun _ _ h1 =>
    alike_bind (alike_each h alike_allocInputs) fun _ _ h2 => alike_stepBatch P cv _ _ _ _ h1 h2

/-! ## Client -/

/-- The variables of a block. -/
def BlockW.kinds (b : BlockW p) := (b.utxoRoot.kind, b.txRoot.kind, b.signerRoot.kind, b.height.kind)

/-- The variables of a transaction with its index. -/
def txiKinds (x : TxW p G × Wire (ZMod p)) := (x.1.kinds, x.2.kind)

/-- The variables of the client's inputs. -/
def AuxW.kinds (a : AuxW p G) :=
  (a.txProofs.map (List.map kinds2), a.signerProofs.map (List.map kinds2), a.block.kinds, a.transactions.map txiKinds,
    a.pk.kind)



theorem alike_allocBlock (b b' : BlockVar (ZMod p)) : Alike BlockW.kinds (allocBlock b : Tr p G _) (allocBlock b') :=
  alike_bind (alike_call rfl) fun _ _ h1 => alike_bind (alike_call rfl) fun _ _ h2 => alike_bind (alike_call rfl)
    fun _ _ h3 => alike_bind (alike_call rfl) fun _ _ h4 => alike_pure (by simp only [BlockW.kinds, h1, h2, h3, h4])

theorem alike_allocPath (l l' : List (ZMod p × ZMod p)) (h : l.length = l'.length) :
    Alike (List.map kinds2) (allocPath l : Tr p G _) (allocPath l') :=
  alike_each' h fun _ _ => alike_bind (alike_call rfl) fun _ _ h1 => alike_bind (alike_call rfl) fun _ _ h2 =>
    alike_pure (by simp only [kinds2, h1, h2])

theorem alike_allocAux (a a' : Client.UserAuxVar p G) (h : userLens a = userLens a') :
    Alike AuxW.kinds (allocAux a) (allocAux a') := by
  simp only [userLens, Prod.mk.injEq] at h
  refine alike_bind (alike_each h.1 alike_allocPath) fun _ _ h1 => ?_
  refine alike_bind (alike_each h.2.1 alike_allocPath) fun _ _ h2 => ?_
  refine alike_bind (alike_allocBlock _ _) fun _ _ h3 => ?_
  refine alike_bind (alike_each' (g := txiKinds) h.2.2 fun _ _ => ?_) fun _ _ h4 => ?_
  · exact alike_bind (alike_allocTx _ _) fun _ _ h1 => alike_bind (alike_call rfl) fun _ _ h2 =>
      alike_pure (by simp only [txiKinds, h1, h2])
  refine alike_bind (alike_call rfl) fun _ _ h5 => alike_pure ?_
  simp only [AuxW.kinds, h1, h2, h3, h4, h5]

theorem alike_signerLoop (l l' : List (UtxoW p G)) (hl : l.map UtxoW.kinds = l'.map UtxoW.kinds) (s s' : Wire G)
    (hs : s.kind = s'.kind) : Alike Wire.kind (signerLoop l s) (signerLoop l' s') := by
  induction l generalizing l' s s' with
  | nil => rw [map_eq_nil' hl]; exact alike_pure hs
  | cons a l ih =>
    obtain ⟨a', l', rfl, ha, hl⟩ := map_eq_cons hl
    obtain ⟨h1, h2, h3⟩ := UtxoW.kinds_eq ha
    exact alike_bind (alike_sel h3 (pa_kind hs) (pa_kind h2)) fun _ _ h => ih _ hl _ _ h

theorem alike_balanceLoop {op : Wire (ZMod p) → Wire (ZMod p) → Tr p G (Wire (ZMod p))}
    (hop : ∀ {x x' y y' : Wire (ZMod p)}, x.kind = x'.kind → y.kind = y'.kind → Alike Wire.kind (op x y) (op x' y'))
    {k k' : Wire G} (hk : k.kind = k'.kind)
    (l l' : List (UtxoW p G)) (hl : l.map UtxoW.kinds = l'.map UtxoW.kinds) (s s' : Wire (ZMod p)) (hs : s.kind = s'.kind) :
    Alike Wire.kind (balanceLoop op k l s) (balanceLoop op k' l' s') := by
  induction l generalizing l' s s' with
  | nil => rw [map_eq_nil' hl]; exact alike_pure hs
  | cons a l ih =>
    obtain ⟨a', l', rfl, ha, hl⟩ := map_eq_cons hl
    obtain ⟨h1, h2, h3⟩ := UtxoW.kinds_eq ha
    refine alike_bind (alike_isEq (pa_kind h2) (pa_kind hk)) fun _ _ h4 => ?_
    refine alike_bind (alike_toField h4) fun _ _ h5 => ?_
    refine alike_bind (alike_mul h1 h5) fun _ _ h6 => ?_
    refine alike_bind (hop hs h6) fun _ _ h => ?_
    exact ih _ hl _ _ h

/-- The variables of the loop. -/
def LoopW.kinds (s : LoopW p) := (s.balance.kind, s.nonce.kind, s.prevTxIndex.kind)

theorem alike_txStep (P : Client.Params p) (cv : Curve p q G) {b b' : BlockW p} (hb : b.kinds = b'.kinds) {k k' : Wire G}
    (hk : k.kind = k'.kind) {s s' : LoopW p} (hs : s.kinds = s'.kinds) {t t' : TxW p G} (ht : t.kinds = t'.kinds)
    {i i' : Wire (ZMod p)} (hi : i.kind = i'.kind) {l l' m m' : List (Wire (ZMod p) × Wire (ZMod p))}
    (hl : l.map kinds2 = l'.map kinds2) (hm : m.map kinds2 = m'.map kinds2) :
    Alike LoopW.kinds (txStep P cv b k s t i l m) (txStep P cv b' k' s' t' i' l' m') := by
  obtain ⟨t1, t2⟩ := TxW.kinds_eq ht
  simp only [BlockW.kinds, LoopW.kinds, Prod.mk.injEq] at hb hs
  obtain ⟨b1, b2, b3, b4⟩ := hb
  obtain ⟨s1, s2, s3⟩ := hs
  refine alike_bind (alike_txHash cv _ _ _ ht) fun _ _ h1 => ?_
  refine alike_bind (alike_isEq (fa_kind h1) rfl) fun _ _ h2 => ?_
  refine alike_bind (alike_bnot h2) fun _ _ h3 => ?_
  refine alike_bind (alike_isLess s3 hi) fun _ _ h4 => ?_
  refine alike_bind (f := id) (alike_condEnforceEq (ba_kind h4) rfl h3) fun _ _ _ => ?_
  refine alike_bind (f := id) (alike_checkMembershipIdx (alike_txHash cv _) _ _ hl b2 ht hi h3) fun _ _ _ => ?_
  refine alike_bind (alike_signerLoop _ _ t1 _ _ rfl) fun _ _ h5 => ?_
  refine alike_bind (f := id) (alike_checkMembership (alike_pkHash cv _) _ _ hm b3 h5 h3) fun _ _ _ => ?_
  refine alike_bind (alike_isEq (pa_kind hk) (pa_kind h5)) fun _ _ h6 => ?_
  refine alike_bind (alike_toField h6) fun _ _ h7 => ?_
  refine alike_bind (alike_add s2 h7) fun _ _ h8 => ?_
  refine alike_bind (alike_balanceLoop alike_sub hk _ _ t1 _ _ s1) fun _ _ h9 => ?_
  refine alike_bind (alike_balanceLoop alike_add hk _ _ t2 _ _ h9) fun _ _ h10 => ?_
  refine alike_bind (alike_toField h3) fun _ _ h11 => ?_
  refine alike_bind (alike_sub rfl h11) fun _ _ h12 => ?_
  refine alike_bind (alike_mul h12 s3) fun _ _ h13 => ?_
  refine alike_bind (alike_toField h3) fun _ _ h14 => ?_
  refine alike_bind (alike_mul h14 hi) fun _ _ h15 => ?_
  refine alike_bind (alike_add h13 h15) fun _ _ h16 => alike_pure ?_
  simp only [LoopW.kinds, h10, h8, h16]

/-- The variables of one item of the loop. -/
def itemKinds (x : ((TxW p G × Wire (ZMod p)) × List (Wire (ZMod p) × Wire (ZMod p))) × List (Wire (ZMod p) × Wire (ZMod p))) :=
  ((txiKinds x.1.1, x.1.2.map kinds2), x.2.map kinds2)

theorem alike_txLoop (P : Client.Params p) (cv : Curve p q G) {b b' : BlockW p} (hb : b.kinds = b'.kinds) {k k' : Wire G}
    (hk : k.kind = k'.kind)
    (l l' : List (((TxW p G × Wire (ZMod p)) × List (Wire (ZMod p) × Wire (ZMod p))) × List (Wire (ZMod p) × Wire (ZMod p))))
    (hl : l.map itemKinds = l'.map itemKinds) (s s' : LoopW p) (hs : s.kinds = s'.kinds) :
    Alike LoopW.kinds (txLoop P cv b k l s) (txLoop P cv b' k' l' s') := by
  induction l generalizing l' s s' with
  | nil => rw [map_eq_nil' hl]; exact alike_pure hs
  | cons a l ih =>
    obtain ⟨a', l', rfl, ha, hl⟩ := map_eq_cons hl
    simp only [itemKinds, txiKinds, Prod.mk.injEq] at ha
    exact alike_bind (alike_txStep P cv hb hk hs ha.1.1.1 ha.1.1.2 ha.1.2 ha.2) fun _ _ h => ih _ hl _ _ h

theorem items_kind {a a' : AuxW p G} (h : a.kinds = a'.kinds) :
    ((a.transactions.zip a.txProofs).zip a.signerProofs).map itemKinds =
      ((a'.transactions.zip a'.txProofs).zip a'.signerProofs).map itemKinds := by
  have : ∀ a : AuxW p G, ((a.transactions.zip a.txProofs).zip a.signerProofs).map itemKinds =
      ((a.transactions.map txiKinds).zip (a.txProofs.map (List.map kinds2))).zip (a.signerProofs.map (List.map kinds2)) := by
    intro a
    rw [List.zip_map, List.zip_map]
    rfl
  simp only [AuxW.kinds, Prod.mk.injEq] at h
  rw [this, this, h.1, h.2.1, h.2.2.2.1]

theorem alike_accumulate (A : AccKind) (hs : Hashes p) {x x' y y' : Wire (ZMod p)} (hx : x.kind = x'.kind) (hy : y.kind = y'.kind) :
    Alike Wire.kind (accumulate A hs x y : Tr p G _) (accumulate A hs x' y') := by
  cases A with
  | poseidon => exact alike_two hx hy
  | sha s =>
    refine alike_bind (alike_toBytes hy) fun _ _ h1 => ?_
    refine alike_bind (alike_toBytes hx) fun _ _ h2 => ?_
    refine alike_bind (alike_callN (mapy_kind (by rw [List.map_append, List.map_append, h2, h1])) (by rw [s.len, s.len]))
      fun _ _ h3 => alike_call (mapy_kind ?_)
    rw [List.map_dropLast, List.map_dropLast, h3]

theorem alike_updateBalance (hs : Hashes p) (A : AccKind) (cv : Curve p q G) (n : Nat) (z z' : UStateW p) (a a' : AuxW p G)
    (hz : z.kinds = z'.kinds) (ha : a.kinds = a'.kinds) :
    Alike UStateW.kinds (updateBalance hs A cv n z a) (updateBalance hs A cv n z' a') := by
  have hit := items_kind ha
  simp only [UStateW.kinds, List.cons.injEq, and_true] at hz
  obtain ⟨z1, z2, z3, z4, z5, z6, z7⟩ := hz
  simp only [AuxW.kinds, Prod.mk.injEq] at ha
  obtain ⟨a1, a2, a3, a4, a5⟩ := ha
  have hb := a3
  simp only [BlockW.kinds, Prod.mk.injEq] at a3
  obtain ⟨b1, b2, b3, b4⟩ := a3
  refine alike_bind (f := id) (alike_assert (by rw [len_eq a1])) fun _ _ _ => ?_
  refine alike_bind (f := id) (alike_assert (by rw [len_eq a4])) fun _ _ _ => ?_
  refine alike_bind (f := id) (alike_assert (by rw [len_eq a2])) fun _ _ _ => ?_
  refine alike_bind (alike_pkHash cv _ _ _ a5) fun _ _ h1 => ?_
  refine alike_bind (f := id) (alike_enforceEq (fa_kind h1) (fa_kind z3)) fun _ _ _ => ?_
  refine alike_bind (alike_hash (by simp only [List.map_cons, List.map_nil, b1, b2, b3, b4])) fun _ _ h2 => ?_
  refine alike_bind (alike_accumulate A hs z4 h2) fun _ _ h3 => ?_
  refine alike_bind (f := id) (alike_enforceLe z6 b4) fun _ _ _ => ?_
  refine alike_bind (alike_isEq (fa_kind h2) (fa_kind z5)) fun _ _ h4 => ?_
  refine alike_bind (alike_sel h4 (fa_kind z7) rfl) fun _ _ h5 => ?_
  refine alike_bind (alike_txLoop (A.params hs) cv hb a5 _ _ hit _ _ (by simp only [LoopW.kinds, z1, z2, h5])) fun s s' hs => ?_
  simp only [LoopW.kinds, Prod.mk.injEq] at hs
  refine alike_pure ?_
  simp only [UStateW.kinds, hs.1, hs.2.1, hs.2.2, z3, h3, h2, b4]

theorem alike_allocUState (z z' : Client.UState p) : Alike UStateW.kinds (allocUState z : Tr p G _) (allocUState z') := by
  unfold allocUState
  refine alike_bind (alike_call rfl) fun _ _ h1 => ?_
  refine alike_bind (alike_call rfl) fun _ _ h2 => ?_
  refine alike_bind (alike_call rfl) fun _ _ h3 => ?_
  refine alike_bind (alike_call rfl) fun _ _ h4 => ?_
  refine alike_bind (alike_call rfl) fun _ _ h5 => ?_
  refine alike_bind (alike_call rfl) fun _ _ h6 => ?_
  refine alike_bind (alike_call rfl) fun _ _ h7 => alike_pure ?_
  simp only [UStateW.kinds, h1, h2, h3, h4, h5, h6, h7]

theorem alike_clientStep (hs : Hashes p) (A : AccKind) (cv : Curve p q G) (n : Nat) (z z' : Client.UState p)
    (a a' : Client.UserAuxVar p G) (h : userLens a = userLens a') :
    Alike UStateW.kinds (clientStep hs A cv n z a) (clientStep hs A cv n z' a') :=
  alike_bind (alike_allocUState z z') fun _ _ h1 =>
    alike_bind (alike_allocAux a a' h) fun _ _ h2 => alike_updateBalance hs A cv n _ _ _ _ h1 h2

end
end PF.Prog
