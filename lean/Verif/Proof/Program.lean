import Verif.Spec.Program
import Verif.Spec.Witness
import Verif.Proof.Circuit
import Verif.Proof.Accumulator
import Verif.Proof.Schnorr

/-!
# The program does not depend on values
-/
set_option linter.unusedSectionVars false

namespace PF.Prog
open PF PF.Circuit
variable {p q : Nat} {G α β γ σ τ : Type}

/-- Two syntheses emit the same program, and return results with the same variables (`f`). -/
def Same (f : α → σ) (m m' : Tr p G α) : Prop :=
  ∀ n, (m n = none ∧ m' n = none) ∨
    ∃ a o a' o', m n = some (a, o) ∧ m' n = some (a', o') ∧ f a = f a' ∧
      o.log.map Entry.instr = o'.log.map Entry.instr

theorem bind_def (m : Tr p G α) (k : α → Tr p G β) (n : Nat) :
    (m >>= k) n = match m n with
      | none => none
      | some (a, o) =>
        match k a (n + width o.log) with
        | none => none
        | some (b, o') => some (b, ⟨o.log ++ o'.log, o.ok && o'.ok⟩) := rfl

theorem width_eq {l l' : List (Entry p G)} (h : l.map Entry.instr = l'.map Entry.instr) : width l = width l' := by
  induction l generalizing l' with
  | nil => cases l' with
    | nil => rfl
    | cons _ _ => simp at h
  | cons e l ih => cases l' with
    | nil => simp at h
    | cons e' l' =>
      simp only [List.map_cons, List.cons.injEq] at h
      have := congrArg Instr.results h.1
      simp only [Entry.instr] at this
      simp only [width, this, ih h.2]

theorem same_pure {f : α → σ} {a a' : α} (h : f a = f a') : Same f (pure a : Tr p G α) (pure a') :=
  fun _ => Or.inr ⟨a, _, a', _, rfl, rfl, h, rfl⟩

theorem same_bind {f : α → σ} {g : β → τ} {m m' : Tr p G α} {k k' : α → Tr p G β} (hm : Same f m m')
    (hk : ∀ a a', f a = f a' → Same g (k a) (k' a')) : Same g (m >>= k) (m' >>= k') := by
  intro n
  rw [bind_def, bind_def]
  rcases hm n with ⟨e1, e2⟩ | ⟨a, o, a', o', e1, e2, e3, e4⟩
  · rw [e1, e2]; exact Or.inl ⟨rfl, rfl⟩
  · rw [e1, e2]
    simp only
    rw [width_eq e4]
    rcases hk a a' e3 (n + width o'.log) with ⟨e5, e6⟩ | ⟨b, t, b', t', e5, e6, e7, e8⟩
    · rw [e5, e6]; exact Or.inl ⟨rfl, rfl⟩
    · rw [e5, e6]
      exact Or.inr ⟨_, _, _, _, rfl, rfl, e7, by simp only [List.map_append, e4, e8]⟩

theorem same_panic {f : α → σ} : Same f (panic : Tr p G α) panic := fun _ => Or.inl ⟨rfl, rfl⟩

theorem same_assert {f : Unit → σ} {b b' : Bool} (h : b = b') : Same f (assert b : Tr p G Unit) (assert b') := by
  subst h
  intro n
  cases b
  · exact Or.inl ⟨rfl, rfl⟩
  · exact Or.inr ⟨(), _, (), _, rfl, rfl, rfl, rfl⟩

theorem same_call {k : Wire α → Arg p G} {g : Gadget} {args args' : List (Arg p G)} {v v' : α} (h : args = args') :
    Same Wire.ref (call k g args v) (call k g args' v') := by
  intro n
  exact Or.inr ⟨_, _, _, _, rfl, rfl, rfl, by simp [Entry.instr, h]⟩

theorem wiresFrom_refs (vs vs' : List α) (n : Nat) (h : vs.length = vs'.length) :
    (wiresFrom n vs).map Wire.ref = (wiresFrom n vs').map Wire.ref := by
  induction vs generalizing n vs' with
  | nil => cases vs' with
    | nil => rfl
    | cons _ _ => simp at h
  | cons v vs ih => cases vs' with
    | nil => simp at h
    | cons v' vs' =>
      simp only [wiresFrom, List.map_cons]
      rw [ih vs' (n + 1) (by simpa using h)]

theorem same_callN {k : Wire α → Arg p G} {g : Gadget} {args args' : List (Arg p G)} {vs vs' : List α} (h : args = args')
    (hl : vs.length = vs'.length) : Same (List.map Wire.ref) (callN k g args vs) (callN k g args' vs') := by
  intro n
  exact Or.inr ⟨_, _, _, _, rfl, rfl, wiresFrom_refs _ _ _ hl, by simp [Entry.instr, h, hl]⟩

theorem same_constrain {f : Unit → σ} {g : Gadget} {args args' : List (Arg p G)} {b b' : Bool} (h : args = args') :
    Same f (constrain g args b) (constrain g args' b') := by
  intro n
  exact Or.inr ⟨_, _, _, _, rfl, rfl, rfl, by simp [Entry.instr, h]⟩

theorem map_eq_cons {α σ : Type} {f : α → σ} {a : α} {l l' : List α} (h : (a :: l).map f = l'.map f) :
    ∃ a' t', l' = a' :: t' ∧ f a = f a' ∧ l.map f = t'.map f := by
  cases l' with
  | nil => simp at h
  | cons a' t' =>
    simp only [List.map_cons, List.cons.injEq] at h
    exact ⟨a', t', rfl, h.1, h.2⟩

theorem map_eq_nil' {α σ : Type} {f : α → σ} {l' : List α} (h : ([] : List α).map f = l'.map f) : l' = [] := by
  cases l' with
  | nil => rfl
  | cons _ _ => simp at h

theorem same_each {f : α → σ} {g : β → τ} {k k' : α → Tr p G β} {l l' : List α} (hl : l.map f = l'.map f)
    (hk : ∀ a a', f a = f a' → Same g (k a) (k' a')) : Same (List.map g) (each k l) (each k' l') := by
  induction l generalizing l' with
  | nil => rw [map_eq_nil' hl]; exact same_pure rfl
  | cons a l ih =>
    obtain ⟨a', t', rfl, h1, h2⟩ := map_eq_cons hl
    refine same_bind (hk a a' h1) fun b b' hb => same_bind (ih h2) fun bs bs' hbs => same_pure ?_
    simp [hb, hbs]

/-! ## Operands -/

theorem fa_eq {x y : Wire (ZMod p)} (h : x.ref = y.ref) : (fa x : Arg p G) = fa y := by simp [fa, h]
theorem ba_eq {x y : Wire Bool} (h : x.ref = y.ref) : (ba x : Arg p G) = ba y := by simp [ba, h]
theorem pa_eq {x y : Wire G} (h : x.ref = y.ref) : (pa x : Arg p G) = pa y := by simp [pa, h]

theorem mapf_eq {l l' : List (Wire (ZMod p))} (h : l.map Wire.ref = l'.map Wire.ref) :
    l.map (fa : _ → Arg p G) = l'.map fa := by
  have := congrArg (List.map Arg.field (α := Ref (ZMod p)) (β := Arg p G)) h
  simp only [List.map_map] at this
  exact this
theorem mapb_eq {l l' : List (Wire Bool)} (h : l.map Wire.ref = l'.map Wire.ref) :
    l.map (ba : _ → Arg p G) = l'.map ba := by
  have := congrArg (List.map Arg.bool (α := Ref Bool) (β := Arg p G)) h
  simp only [List.map_map] at this
  exact this
theorem mapy_eq {l l' : List (Wire Byte)} (h : l.map Wire.ref = l'.map Wire.ref) :
    l.map (ya : _ → Arg p G) = l'.map ya := by
  have := congrArg (List.map Arg.byte (α := Ref Byte) (β := Arg p G)) h
  simp only [List.map_map] at this
  exact this

theorem len_eq {f : α → σ} {l l' : List α} (h : l.map f = l'.map f) : l.length = l'.length := by
  simpa using congrArg List.length h

/-! ## Library gadgets -/

abbrev FRef : Wire (ZMod p) → Ref (ZMod p) := Wire.ref

theorem same_add {x x' y y' : Wire (ZMod p)} (hx : x.ref = x'.ref) (hy : y.ref = y'.ref) :
    Same Wire.ref (add x y : Tr p G _) (add x' y') := same_call (by rw [fa_eq hx, fa_eq hy])
theorem same_sub {x x' y y' : Wire (ZMod p)} (hx : x.ref = x'.ref) (hy : y.ref = y'.ref) :
    Same Wire.ref (sub x y : Tr p G _) (sub x' y') := same_call (by rw [fa_eq hx, fa_eq hy])
theorem same_mul {x x' y y' : Wire (ZMod p)} (hx : x.ref = x'.ref) (hy : y.ref = y'.ref) :
    Same Wire.ref (mul x y : Tr p G _) (mul x' y') := same_call (by rw [fa_eq hx, fa_eq hy])
theorem same_toField {x x' : Wire Bool} (hx : x.ref = x'.ref) :
    Same Wire.ref (toField x : Tr p G _) (toField x') := same_call (by rw [ba_eq hx])
theorem same_packBits {x x' : List (Wire Bool)} (hx : x.map Wire.ref = x'.map Wire.ref) :
    Same Wire.ref (packBits x : Tr p G _) (packBits x') := same_call (mapb_eq hx)
theorem same_toBits {x x' : Wire (ZMod p)} (hx : x.ref = x'.ref) :
    Same (List.map Wire.ref) (toBits x : Tr p G _) (toBits x') :=
  same_callN (by rw [fa_eq hx]) (by simp [toBitsLe, natBits_length])
theorem same_enforceEq {f : Unit → σ} [DecidableEq α] {k : Wire α → Arg p G}
    {x x' y y' : Wire α} (hx : k x = k x') (hy : k y = k y') :
    Same f (enforceEq k x y) (enforceEq k x' y') := same_constrain (by rw [hx, hy])
theorem same_condEnforceEq {f : Unit → σ} [DecidableEq α] {k : Wire α → Arg p G}
    {x x' y y' : Wire α} {b b' : Wire Bool} (hx : k x = k x') (hy : k y = k y') (hb : b.ref = b'.ref) :
    Same f (condEnforceEq k x y b) (condEnforceEq k x' y' b') := same_constrain (by rw [hx, hy, ba_eq hb])
theorem same_isEq [DecidableEq α] {k : Wire α → Arg p G} {x x' y y' : Wire α} (hx : k x = k x') (hy : k y = k y') :
    Same Wire.ref (isEq k x y) (isEq k x' y') := same_call (by rw [hx, hy])
theorem same_isZero {x x' : Wire (ZMod p)} (hx : x.ref = x'.ref) :
    Same Wire.ref (isZero x : Tr p G _) (isZero x') := same_call (by rw [fa_eq hx])
theorem same_bnot {x x' : Wire Bool} (hx : x.ref = x'.ref) :
    Same Wire.ref (bnot x : Tr p G _) (bnot x') := same_call (by rw [ba_eq hx])
theorem same_band {x x' y y' : Wire Bool} (hx : x.ref = x'.ref) (hy : y.ref = y'.ref) :
    Same Wire.ref (band x y : Tr p G _) (band x' y') := same_call (by rw [ba_eq hx, ba_eq hy])
theorem same_bor {x x' y y' : Wire Bool} (hx : x.ref = x'.ref) (hy : y.ref = y'.ref) :
    Same Wire.ref (bor x y : Tr p G _) (bor x' y') := same_call (by rw [ba_eq hx, ba_eq hy])
theorem same_sel {k : Wire α → Arg p G} {b b' : Wire Bool} {x x' y y' : Wire α} (hb : b.ref = b'.ref)
    (hx : k x = k x') (hy : k y = k y') : Same Wire.ref (sel k b x y) (sel k b' x' y') :=
  same_call (by rw [ba_eq hb, hx, hy])
theorem same_hash {H : List (ZMod p) → ZMod p} {l l' : List (Wire (ZMod p))} (h : l.map Wire.ref = l'.map Wire.ref) :
    Same Wire.ref (hash H l : Tr p G _) (hash H l') := same_call (mapf_eq h)
theorem same_two {h2 : ZMod p → ZMod p → ZMod p} {x x' y y' : Wire (ZMod p)} (hx : x.ref = x'.ref)
    (hy : y.ref = y'.ref) : Same Wire.ref (two h2 x y : Tr p G _) (two h2 x' y') :=
  same_call (by rw [fa_eq hx, fa_eq hy])

theorem chunks_length {α β : Type} (w : Nat) (l : List α) (l' : List β) (h : l.length = l'.length) :
    (Schnorr.chunks w l).length = (Schnorr.chunks w l').length := by
  induction n : l.length using Nat.strong_induction_on generalizing l l' with
  | _ n ih =>
    cases l with
    | nil => cases l' with
      | nil => simp [Schnorr.chunks]
      | cons _ _ => simp at h
    | cons a t => cases l' with
      | nil => simp at h
      | cons b t' =>
        rw [Schnorr.chunks, Schnorr.chunks, List.length_cons, List.length_cons]
        simp only [List.length_cons, Nat.add_right_cancel_iff] at h n
        rw [ih (t.drop w).length (by rw [List.length_drop]; omega) (t.drop w) (t'.drop w)
          (by rw [List.length_drop, List.length_drop, h]) rfl]

theorem chunks_map {α β : Type} (f : α → β) (w : Nat) (l : List α) :
    Schnorr.chunks w (l.map f) = (Schnorr.chunks w l).map (List.map f) := by
  induction n : l.length using Nat.strong_induction_on generalizing l with
  | _ n ih =>
    cases l with
    | nil => simp [Schnorr.chunks]
    | cons a t =>
      rw [List.map_cons, Schnorr.chunks, Schnorr.chunks, List.map_cons]
      simp only [List.length_cons] at n
      rw [← List.map_drop, ih (t.drop w).length (by rw [List.length_drop]; omega) (t.drop w) rfl]
      simp [List.map_take]

theorem fBytesVar_length (x y : ZMod p) : (fBytesVar x).length = (fBytesVar y).length := by
  unfold fBytesVar bytesOfBits
  rw [List.length_map, List.length_map]
  exact chunks_length _ _ _ (by simp [toBitsLe, natBits_length])

theorem same_toBytes {x x' : Wire (ZMod p)} (hx : x.ref = x'.ref) :
    Same (List.map Wire.ref) (toBytes x : Tr p G _) (toBytes x') :=
  same_callN (by rw [fa_eq hx]) (fBytesVar_length _ _)

theorem same_toByteChunks {l l' : List (Wire Bool)} (h : l.map Wire.ref = l'.map Wire.ref) :
    Same (List.map Wire.ref) (toByteChunks l : Tr p G _) (toByteChunks l') := by
  refine same_callN (mapb_eq h) ?_
  unfold bytesOfBits
  rw [List.length_map, List.length_map]
  exact chunks_length _ _ _ (by simpa using len_eq h)

theorem same_shaField {sha : Sha} {l l' : List (Wire Byte)} (h : l.map Wire.ref = l'.map Wire.ref) :
    Same Wire.ref (shaField sha l : Tr p G _) (shaField sha l') := by
  refine same_bind (same_callN (mapy_eq h) (by rw [sha.len, sha.len])) fun d d' hd => same_call (mapy_eq ?_)
  rw [List.map_take, List.map_take, hd]

theorem same_toNBits {x x' : Wire (ZMod p)} (hx : x.ref = x'.ref) (n : Nat) :
    Same (List.map Wire.ref) (toNBits x n : Tr p G _) (toNBits x' n) := by
  refine same_bind (same_callN rfl (by rw [natBits_length, natBits_length])) fun b b' hb =>
    same_bind (f := id) (same_constrain (by rw [mapb_eq hb, fa_eq hx])) fun _ _ _ => same_pure hb

theorem same_isLess {x x' y y' : Wire (ZMod p)} (hx : x.ref = x'.ref) (hy : y.ref = y'.ref) :
    Same Wire.ref (isLess x y : Tr p G _) (isLess x' y') :=
  same_bind (f := id) (same_constrain (by rw [fa_eq hx, fa_eq hy])) fun _ _ _ =>
    same_call (by rw [fa_eq hx, fa_eq hy])

theorem same_enforceLe {f : Unit → σ} {x x' y y' : Wire (ZMod p)} (hx : x.ref = x'.ref) (hy : y.ref = y'.ref) :
    Same f (enforceLe x y : Tr p G _) (enforceLe x' y') := same_constrain (by rw [fa_eq hx, fa_eq hy])

/-! ## Comparison and signatures -/

/-- The variables of a pair. -/
def refs2 (x : Wire (ZMod p) × Wire (ZMod p)) : Ref (ZMod p) × Ref (ZMod p) := (x.1.ref, x.2.ref)

theorem same_ltLoop (bs bs' : List (Wire Bool)) (ds ds' : List (Wire (ZMod p))) (c c' r r' : Wire (ZMod p))
    (hb : bs.map Wire.ref = bs'.map Wire.ref) (hd : ds.map Wire.ref = ds'.map Wire.ref) (hc : c.ref = c'.ref)
    (hr : r.ref = r'.ref) : Same refs2 (ltLoop bs ds c r : Tr p G _) (ltLoop bs' ds' c' r') := by
  induction bs generalizing bs' ds ds' c c' r r' with
  | nil =>
    rw [map_eq_nil' hb]
    cases ds <;> cases ds' <;> exact same_pure (by simp [refs2, hc, hr])
  | cons b bs ih =>
    obtain ⟨b', bs', rfl, h1, h2⟩ := map_eq_cons hb
    cases ds with
    | nil =>
      rw [map_eq_nil' hd]
      exact same_pure (by simp [refs2, hc, hr])
    | cons d ds =>
      obtain ⟨d', ds', rfl, h3, h4⟩ := map_eq_cons hd
      refine same_bind (same_sel h1 (fa_eq h3) rfl) fun t t' ht => ?_
      refine same_bind (same_add hc ht) fun c1 c1' hc1 => ?_
      refine same_bind (same_mul hr h3) fun m m' hm => ?_
      refine same_bind (f := id) (same_enforceEq (fa_eq hm) rfl) fun _ _ _ => ?_
      refine same_bind (same_toField h1) fun f f' hf => ?_
      refine same_bind (same_add hr hf) fun r1 r1' hr1 => ?_
      exact ih bs' ds ds' c1 c1' r1 r1' h2 h4 hc1 hr1

theorem getD_ref {l l' : List (Wire α)} (h : l.map Wire.ref = l'.map Wire.ref) (i : Nat) (d : Wire α) :
    (l.getD i d).ref = (l'.getD i d).ref := by
  have := congrArg (fun l : List (Ref α) => l.getD i d.ref) h
  simpa [List.getD_eq_getElem?_getD, List.getElem?_map, Option.getD_map] using this

theorem ltHelper_length (l : List (ZMod p × ZMod p)) : (Wit.ltHelper l).length = l.length := by
  induction l with
  | nil => rfl
  | cons a l ih => obtain ⟨x, y⟩ := a; simp [Wit.ltHelper, ih]

theorem same_enforceLt {f : Unit → σ} (W : Nat) {x x' y y' : List (Wire Bool)} (hx : x.map Wire.ref = x'.map Wire.ref)
    (hy : y.map Wire.ref = y'.map Wire.ref) : Same f (enforceLt W x y : Tr p G _) (enforceLt W x' y') := by
  have hch : ∀ {l l' : List (Wire Bool)}, l.map Wire.ref = l'.map Wire.ref →
      (Schnorr.chunks (W - 1) l).map (List.map Wire.ref) = (Schnorr.chunks (W - 1) l').map (List.map Wire.ref) := by
    intro l l' h
    rw [← chunks_map, ← chunks_map, h]
  refine same_bind (same_each (hch hx) fun a a' ha => same_packBits ha) fun xs xs' hxs => ?_
  refine same_bind (same_each (hch hy) fun a a' ha => same_packBits ha) fun ys ys' hys => ?_
  rw [len_eq hxs, len_eq hys]
  refine same_bind (same_each (f := id) (g := Wire.ref) rfl fun i i' hi => ?_) fun ds ds' hds => ?_
  · cases hi
    exact same_sub (getD_ref hys i _) (getD_ref hxs i _)
  refine same_bind (same_callN rfl (by simp [ltHelper_length])) fun hl hl' hh => ?_
  refine same_bind (same_ltLoop hl hl' ds ds' _ _ _ _ hh hds rfl rfl) fun cr cr' hcr => ?_
  obtain ⟨c, r⟩ := cr
  obtain ⟨c', r'⟩ := cr'
  simp only [refs2, Prod.mk.injEq] at hcr
  refine same_bind (same_sub hcr.1 rfl) fun c1 c1' hc1 => ?_
  refine same_bind (same_callN rfl (by rw [natBits_length, natBits_length])) fun b b' hb => ?_
  refine same_bind (same_packBits hb) fun v v' hv => ?_
  refine same_bind (f := id) (same_enforceEq (fa_eq hv) (fa_eq hc1)) fun _ _ _ => ?_
  exact same_enforceEq (fa_eq hcr.2) rfl

section
variable [AddCommGroup G] [Module (ZMod q) G]

theorem same_coords (cv : Curve p q G) {x x' : Wire G} (hx : x.ref = x'.ref) :
    Same (List.map Wire.ref) (coords cv x) (coords cv x') := same_callN (by rw [pa_eq hx]) rfl

theorem same_pointBytes (cv : Curve p q G) {x x' : Wire G} (hx : x.ref = x'.ref) :
    Same (List.map Wire.ref) (pointBytes cv x) (pointBytes cv x') := by
  refine same_callN (by rw [pa_eq hx]) ?_
  unfold pkBytesVar
  simp only [List.length_append, List.length_cons, List.length_nil]
  rw [fBytesVar_length ((cv.xy x.val).getD (0, 0)).1 ((cv.xy x'.val).getD (0, 0)).1,
    fBytesVar_length ((cv.xy x.val).getD (0, 0)).2 ((cv.xy x'.val).getD (0, 0)).2]

theorem same_scalarMul {x x' : Wire G} {b b' : List (Wire Bool)} (hx : x.ref = x'.ref)
    (hb : b.map Wire.ref = b'.map Wire.ref) : Same Wire.ref (scalarMul x b : Tr p G _) (scalarMul x' b') :=
  same_call (by rw [pa_eq hx, mapb_eq hb])

theorem same_isValid (W : Nat) (cv : Curve p q G) (H : List (ZMod p) → ZMod p) {pk pk' : Wire G}
    {m m' : List (Wire (ZMod p))} {s s' e e' : List (Wire Bool)} (hpk : pk.ref = pk'.ref)
    (hm : m.map Wire.ref = m'.map Wire.ref) (hs : s.map Wire.ref = s'.map Wire.ref)
    (he : e.map Wire.ref = e'.map Wire.ref) :
    Same Wire.ref (isValid W cv H pk m s e) (isValid W cv H pk' m' s' e') := by
  refine same_bind (same_scalarMul rfl hs) fun r1 r1' h1 => ?_
  refine same_bind (same_scalarMul hpk he) fun r2 r2' h2 => ?_
  refine same_bind (same_call (by rw [pa_eq h1, pa_eq h2])) fun r r' hr => ?_
  refine same_bind (same_coords cv hr) fun xy xy' hxy => ?_
  refine same_bind (same_hash (by rw [List.map_append, List.map_append, hm, List.map_dropLast, List.map_dropLast, hxy]))
    fun h h' hh => ?_
  refine same_bind (same_toBits hh) fun hb hb' hhb => ?_
  have ht : (hb.take (modBits q)).map Wire.ref = (hb'.take (modBits q)).map Wire.ref := by
    rw [List.map_take, List.map_take, hhb]
  refine same_bind (f := id) (same_enforceLt W ht rfl) fun _ _ _ => ?_
  have g1 := congrArg (fun l : List (Ref Bool) => l[modBits q - 1]?) ht
  have g2 := congrArg (fun l : List (Ref Bool) => l[modBits q - 1]?) he
  simp only [List.getElem?_map] at g1 g2
  rcases e1 : (hb.take (modBits q))[modBits q - 1]? with _ | x <;>
    rcases e1' : (hb'.take (modBits q))[modBits q - 1]? with _ | x' <;>
    rw [e1, e1'] at g1 <;> simp only [Option.map_none, Option.map_some, Option.some.injEq, reduceCtorEq] at g1
  · exact same_panic
  · rcases e2 : e[modBits q - 1]? with _ | y <;>
      rcases e2' : e'[modBits q - 1]? with _ | y' <;>
      rw [e2, e2'] at g2 <;> simp only [Option.map_none, Option.map_some, Option.some.injEq, reduceCtorEq] at g2
    · exact same_panic
    · refine same_bind (same_packBits (by rw [List.map_take (l := hb.take _), List.map_take (l := hb'.take _), ht])) fun a a' ha => ?_
      refine same_bind (same_packBits (by rw [List.map_take, List.map_take, he])) fun b b' hb => ?_
      refine same_bind (same_isEq (fa_eq ha) (fa_eq hb)) fun eq eq' heq => ?_
      refine same_bind (same_isEq (ba_eq g1) (ba_eq g2)) fun l l' hl => ?_
      exact same_band heq hl

/-! ## Data -/

/-- The variables of a UTXO. -/
def UtxoW.refs (u : UtxoW p G) : Ref (ZMod p) × Ref G × Ref Bool := (u.amount.ref, u.pk.ref, u.isDummy.ref)
/-- The variables of a transaction. -/
def TxW.refs (t : TxW p G) := (t.inputs.map UtxoW.refs, t.outputs.map UtxoW.refs)

theorem UtxoW.refs_eq {u u' : UtxoW p G} (h : u.refs = u'.refs) :
    u.amount.ref = u'.amount.ref ∧ u.pk.ref = u'.pk.ref ∧ u.isDummy.ref = u'.isDummy.ref := by
  simpa [UtxoW.refs] using h
theorem TxW.refs_eq {u u' : TxW p G} (h : u.refs = u'.refs) :
    u.inputs.map UtxoW.refs = u'.inputs.map UtxoW.refs ∧ u.outputs.map UtxoW.refs = u'.outputs.map UtxoW.refs := by
  simpa [TxW.refs] using h

theorem same_allocUtxo (u u' : UTXO (ZMod p) G) : Same UtxoW.refs (allocUtxo u) (allocUtxo u') :=
  same_bind (same_call rfl) fun _ _ h1 => same_bind (same_call rfl) fun _ _ h2 => same_bind (same_call rfl)
    fun _ _ h3 => same_pure (by simp [UtxoW.refs, h1, h2, h3])

theorem unit_map {l l' : List α} (h : l.length = l'.length) :
    l.map (fun _ => ()) = l'.map (fun _ => ()) := by
  simp [h]

/-- A loop whose body does not look at the items but for their values. -/
theorem same_each' {g : β → τ} {k k' : α → Tr p G β} {l l' : List α} (hl : l.length = l'.length)
    (hk : ∀ a a', Same g (k a) (k' a')) : Same (List.map g) (each k l) (each k' l') :=
  same_each (f := fun _ => ()) (unit_map hl) fun a a' _ => hk a a'

theorem same_allocTx (t t' : Tx (ZMod p) G) : Same TxW.refs (allocTx t) (allocTx t') :=
  same_bind (same_each' (by simp) same_allocUtxo) fun _ _ h1 =>
    same_bind (same_each' (by simp) same_allocUtxo) fun _ _ h2 => same_pure (by simp [TxW.refs, h1, h2])

theorem same_utxoFields (cv : Curve p q G) {u u' : UtxoW p G} (h : u.refs = u'.refs) :
    Same (List.map Wire.ref) (utxoFields cv u) (utxoFields cv u') := by
  obtain ⟨h1, h2, h3⟩ := UtxoW.refs_eq h
  exact same_bind (same_toField h3) fun d d' hd => same_bind (same_coords cv h2) fun c c' hc =>
    same_pure (by simp [h1, hd, hc])

theorem same_txFields (cv : Curve p q G) {t t' : TxW p G} (h : t.refs = t'.refs) :
    Same (List.map Wire.ref) (txFields cv t) (txFields cv t') := by
  obtain ⟨h1, h2⟩ := TxW.refs_eq h
  refine same_bind (same_each (by rw [List.map_append, List.map_append, h1, h2])
    fun a a' ha => same_utxoFields cv ha) fun l l' hl => same_pure ?_
  rw [List.map_flatten, List.map_flatten, hl]

theorem same_utxoHash (cv : Curve p q G) (H : List (ZMod p) → ZMod p) (u u' : UtxoW p G) (h : u.refs = u'.refs) :
    Same Wire.ref (utxoHash cv H u) (utxoHash cv H u') :=
  same_bind (same_utxoFields cv h) fun _ _ hl => same_hash hl

theorem same_txHash (cv : Curve p q G) (H : List (ZMod p) → ZMod p) (u u' : TxW p G) (h : u.refs = u'.refs) :
    Same Wire.ref (txHash cv H u) (txHash cv H u') :=
  same_bind (same_txFields cv h) fun _ _ hl => same_hash hl

theorem same_pkHash (cv : Curve p q G) (H : List (ZMod p) → ZMod p) (u u' : Wire G) (h : u.ref = u'.ref) :
    Same Wire.ref (pkHash cv H u) (pkHash cv H u') :=
  same_bind (same_coords cv h) fun _ _ hl => same_hash hl

/-! ## Trees -/

theorem same_updateLoop (h2 : ZMod p → ZMod p → ZMod p) (l l' : List (Wire (ZMod p))) (bs bs' : List (Wire Bool))
    (o o' n n' : Wire (ZMod p)) (hl : l.map Wire.ref = l'.map Wire.ref) (hb : bs.map Wire.ref = bs'.map Wire.ref)
    (ho : o.ref = o'.ref) (hn : n.ref = n'.ref) :
    Same refs2 (updateLoop h2 l bs o n : Tr p G _) (updateLoop h2 l' bs' o' n') := by
  induction l generalizing l' bs bs' o o' n n' with
  | nil =>
    rw [map_eq_nil' hl]
    cases bs <;> cases bs' <;> exact same_pure (by simp [refs2, ho, hn])
  | cons a l ih =>
    obtain ⟨a', l', rfl, ha, hl⟩ := map_eq_cons hl
    cases bs with
    | nil => rw [map_eq_nil' hb]; exact same_pure (by simp [refs2, ho, hn])
    | cons b bs =>
      obtain ⟨b', bs', rfl, hb1, hb⟩ := map_eq_cons hb
      refine same_bind (same_sel hb1 (fa_eq ha) (fa_eq ho)) fun _ _ h1 => ?_
      refine same_bind (same_add ho ha) fun _ _ h2 => ?_
      refine same_bind (same_sub h2 h1) fun _ _ h3 => ?_
      refine same_bind (same_sel hb1 (fa_eq ha) (fa_eq hn)) fun _ _ h4 => ?_
      refine same_bind (same_add hn ha) fun _ _ h5 => ?_
      refine same_bind (same_sub h5 h4) fun _ _ h6 => ?_
      refine same_bind (same_two h1 h3) fun _ _ h7 => ?_
      refine same_bind (same_two h4 h6) fun _ _ h8 => ?_
      exact ih _ _ _ _ _ _ _ hl hb h7 h8

theorem same_updateRoot {L S : Type} {sk : L → S} {leafHash : L → Tr p G (Wire (ZMod p))}
    (hh : ∀ a a', sk a = sk a' → Same Wire.ref (leafHash a) (leafHash a')) (h2 : ZMod p → ZMod p → ZMod p) (height : Nat)
    {l l' : List (Wire (ZMod p))} {o o' n n' : L} {i i' : Wire (ZMod p)} (hl : l.map Wire.ref = l'.map Wire.ref)
    (ho : sk o = sk o') (hn : sk n = sk n') (hi : i.ref = i'.ref) :
    Same refs2 (updateRoot leafHash h2 height l o n i) (updateRoot leafHash h2 height l' o' n' i') := by
  refine same_bind (f := id) (same_assert (by rw [len_eq hl])) fun _ _ _ => ?_
  refine same_bind (hh _ _ ho) fun _ _ h1 => ?_
  refine same_bind (hh _ _ hn) fun _ _ h2 => ?_
  refine same_bind (same_toBits hi) fun _ _ h3 => ?_
  exact same_updateLoop _ _ _ _ _ _ _ _ _ hl h3 h1 h2

theorem same_condUpdate {L S : Type} {sk : L → S} {leafHash : L → Tr p G (Wire (ZMod p))}
    (hh : ∀ a a', sk a = sk a' → Same Wire.ref (leafHash a) (leafHash a')) (h2 : ZMod p → ZMod p → ZMod p) (height : Nat)
    {on on' : Wire Bool} {l l' : List (Wire (ZMod p))} {o o' n n' : L} {i i' r r' : Wire (ZMod p)}
    (hon : on.ref = on'.ref) (hi : i.ref = i'.ref) (hl : l.map Wire.ref = l'.map Wire.ref)
    (ho : sk o = sk o') (hn : sk n = sk n') (hr : r.ref = r'.ref) :
    Same Wire.ref (condUpdate leafHash h2 height on i l o n r) (condUpdate leafHash h2 height on' i' l' o' n' r') := by
  refine same_bind (same_updateRoot hh h2 height hl ho hn hi) fun u u' hu => ?_
  simp only [refs2, Prod.mk.injEq] at hu
  refine same_bind (f := id) (same_condEnforceEq (fa_eq hr) (fa_eq hu.1) hon) fun _ _ _ => ?_
  exact same_sel hon (fa_eq hu.2) (fa_eq hr)

theorem same_memLoop (h2 : ZMod p → ZMod p → ZMod p) {on on' : Wire Bool} (hon : on.ref = on'.ref)
    (l l' : List (Wire (ZMod p) × Wire (ZMod p))) (o o' : Wire (ZMod p)) (hl : l.map refs2 = l'.map refs2)
    (ho : o.ref = o'.ref) : Same Wire.ref (memLoop h2 on l o : Tr p G _) (memLoop h2 on' l' o') := by
  induction l generalizing l' o o' with
  | nil => rw [map_eq_nil' hl]; exact same_pure ho
  | cons a l ih =>
    obtain ⟨a', l', rfl, ha, hl'⟩ := map_eq_cons hl
    obtain ⟨x, y⟩ := a
    obtain ⟨x', y'⟩ := a'
    simp only [refs2, Prod.mk.injEq] at ha
    refine same_bind (same_call rfl) fun _ _ h1 => ?_
    refine same_bind (same_sel h1 (fa_eq ha.1) (fa_eq ha.2)) fun _ _ h3 => ?_
    refine same_bind (f := id) (same_condEnforceEq (fa_eq ho) (fa_eq h3) hon) fun _ _ _ => ?_
    refine same_bind (same_two ha.1 ha.2) fun _ _ h4 => ?_
    exact ih _ _ _ hl' h4

theorem same_checkMembership {f : Unit → σ} {L S : Type} {sk : L → S} {leafHash : L → Tr p G (Wire (ZMod p))}
    (hh : ∀ a a', sk a = sk a' → Same Wire.ref (leafHash a) (leafHash a')) (h2 : ZMod p → ZMod p → ZMod p) (height : Nat)
    {on on' : Wire Bool} {l l' : List (Wire (ZMod p) × Wire (ZMod p))} {o o' : L} {r r' : Wire (ZMod p)}
    (hl : l.map refs2 = l'.map refs2) (hr : r.ref = r'.ref) (ho : sk o = sk o') (hon : on.ref = on'.ref) :
    Same f (checkMembership leafHash h2 height l r o on) (checkMembership leafHash h2 height l' r' o' on') := by
  refine same_bind (f := id) (same_assert (by rw [len_eq hl])) fun _ _ _ => ?_
  refine same_bind (hh _ _ ho) fun _ _ h1 => ?_
  cases l with
  | nil => rw [map_eq_nil' hl]; exact same_panic
  | cons a l =>
    have hl0 := hl
    obtain ⟨a', l', rfl, ha, hl'⟩ := map_eq_cons hl
    obtain ⟨x, y⟩ := a
    obtain ⟨x', y'⟩ := a'
    simp only [refs2, Prod.mk.injEq] at ha
    refine same_bind (same_call rfl) fun _ _ h2 => ?_
    refine same_bind (same_sel h2 (fa_eq ha.1) (fa_eq ha.2)) fun _ _ h3 => ?_
    refine same_bind (f := id) (same_condEnforceEq (fa_eq h1) (fa_eq h3) hon) fun _ _ _ => ?_
    refine same_bind (same_memLoop _ hon _ _ _ _ hl0 h1) fun _ _ h4 => ?_
    exact same_condEnforceEq (fa_eq hr) (fa_eq h4) hon

theorem same_memIdxLoop (h2 : ZMod p → ZMod p → ZMod p) {on on' : Wire Bool} (hon : on.ref = on'.ref)
    (l l' : List (Wire (ZMod p) × Wire (ZMod p))) (bs bs' : List (Wire Bool)) (o o' : Wire (ZMod p))
    (hl : l.map refs2 = l'.map refs2) (hb : bs.map Wire.ref = bs'.map Wire.ref)
    (ho : o.ref = o'.ref) : Same Wire.ref (memIdxLoop h2 on l bs o : Tr p G _) (memIdxLoop h2 on' l' bs' o') := by
  induction l generalizing l' bs bs' o o' with
  | nil => rw [map_eq_nil' hl]; exact same_pure ho
  | cons a l ih =>
    obtain ⟨a', l', rfl, ha, hl'⟩ := map_eq_cons hl
    obtain ⟨x, y⟩ := a
    obtain ⟨x', y'⟩ := a'
    simp only [refs2, Prod.mk.injEq] at ha
    cases bs with
    | nil => rw [map_eq_nil' hb]; exact same_panic
    | cons b bs =>
      obtain ⟨b', bs', rfl, hb1, hb⟩ := map_eq_cons hb
      refine same_bind (same_bnot hb1) fun _ _ h1 => ?_
      refine same_bind (same_sel h1 (fa_eq ha.1) (fa_eq ha.2)) fun _ _ h3 => ?_
      refine same_bind (f := id) (same_condEnforceEq (fa_eq ho) (fa_eq h3) hon) fun _ _ _ => ?_
      refine same_bind (same_two ha.1 ha.2) fun _ _ h4 => ?_
      exact ih _ _ _ _ _ hl' hb h4

theorem same_checkMembershipIdx {f : Unit → σ} {L S : Type} {sk : L → S} {leafHash : L → Tr p G (Wire (ZMod p))}
    (hh : ∀ a a', sk a = sk a' → Same Wire.ref (leafHash a) (leafHash a')) (h2 : ZMod p → ZMod p → ZMod p) (height : Nat)
    {on on' : Wire Bool} {l l' : List (Wire (ZMod p) × Wire (ZMod p))} {o o' : L} {r r' i i' : Wire (ZMod p)}
    (hl : l.map refs2 = l'.map refs2) (hr : r.ref = r'.ref) (ho : sk o = sk o') (hi : i.ref = i'.ref)
    (hon : on.ref = on'.ref) :
    Same f (checkMembershipIdx leafHash h2 height l r o i on) (checkMembershipIdx leafHash h2 height l' r' o' i' on') := by
  refine same_bind (f := id) (same_assert (by rw [len_eq hl])) fun _ _ _ => ?_
  refine same_bind (hh _ _ ho) fun _ _ h1 => ?_
  refine same_bind (same_toBits hi) fun _ _ h2 => ?_
  refine same_bind (same_memIdxLoop _ hon _ _ _ _ _ _ hl h2 h1) fun _ _ h4 => ?_
  exact same_condEnforceEq (fa_eq hr) (fa_eq h4) hon

variable [DecidableEq G]

/-! ## Aggregator -/

theorem same_ownerLoop {f : Unit → σ} {s s' : Wire G} (hs : s.ref = s'.ref) (l l' : List (UtxoW p G))
    (hl : l.map UtxoW.refs = l'.map UtxoW.refs) : Same f (ownerLoop s l) (ownerLoop s' l') := by
  induction l generalizing l' with
  | nil => rw [map_eq_nil' hl]; exact same_pure rfl
  | cons a l ih =>
    obtain ⟨a', l', rfl, ha, hl⟩ := map_eq_cons hl
    obtain ⟨-, h2, h3⟩ := UtxoW.refs_eq ha
    refine same_bind (same_bnot h3) fun _ _ h1 => ?_
    refine same_bind (f := id) (same_condEnforceEq (pa_eq h2) (pa_eq hs) h1) fun _ _ _ => ?_
    exact ih _ hl

theorem same_sumLoop {op : Wire (ZMod p) → Wire (ZMod p) → Tr p G (Wire (ZMod p))}
    (hop : ∀ {x x' y y' : Wire (ZMod p)}, x.ref = x'.ref → y.ref = y'.ref → Same Wire.ref (op x y) (op x' y'))
    (l l' : List (UtxoW p G)) (hl : l.map UtxoW.refs = l'.map UtxoW.refs) (s s' : Wire (ZMod p)) (hs : s.ref = s'.ref) :
    Same Wire.ref (sumLoop op l s) (sumLoop op l' s') := by
  induction l generalizing l' s s' with
  | nil => rw [map_eq_nil' hl]; exact same_pure hs
  | cons a l ih =>
    obtain ⟨a', l', rfl, ha, hl⟩ := map_eq_cons hl
    obtain ⟨h1, h2, h3⟩ := UtxoW.refs_eq ha
    refine same_bind (same_sel h3 rfl (fa_eq h1)) fun _ _ h1 => ?_
    refine same_bind (hop hs h1) fun _ _ h => ?_
    exact ih _ hl _ _ h

theorem same_enforceValid {f : Unit → σ} {t t' : TxW p G} (h : t.refs = t'.refs) {s s' : Wire G} (hs : s.ref = s'.ref) :
    Same f (enforceValid t s) (enforceValid t' s') := by
  obtain ⟨h1, h2⟩ := TxW.refs_eq h
  refine same_bind (f := id) (same_ownerLoop hs _ _ h1) fun _ _ _ => ?_
  refine same_bind (same_sumLoop same_add _ _ h1 _ _ rfl) fun _ _ h3 => ?_
  refine same_bind (same_sumLoop same_sub _ _ h2 _ _ h3) fun _ _ h4 => ?_
  exact same_enforceEq (fa_eq h4) rfl

/-- The variables of a position with its proof. -/
def posRefs (x : Wire (ZMod p) × List (Wire (ZMod p))) := (x.1.ref, x.2.map Wire.ref)

/-- The variables of the inputs of one transaction. -/
def InputsW.refs (i : InputsW p G) :=
  (i.tx.refs, i.txProof.map Wire.ref, i.dels.map posRefs, i.adds.map posRefs, i.signerProof.map Wire.ref,
    i.senderPk.ref, i.sigS.map Wire.ref, i.sigE.map Wire.ref)

theorem InputsW.refs_eq {i i' : InputsW p G} (h : i.refs = i'.refs) :
    i.tx.refs = i'.tx.refs ∧ i.txProof.map Wire.ref = i'.txProof.map Wire.ref ∧ i.dels.map posRefs = i'.dels.map posRefs ∧
    i.adds.map posRefs = i'.adds.map posRefs ∧ i.signerProof.map Wire.ref = i'.signerProof.map Wire.ref ∧
    i.senderPk.ref = i'.senderPk.ref ∧ i.sigS.map Wire.ref = i'.sigS.map Wire.ref ∧
    i.sigE.map Wire.ref = i'.sigE.map Wire.ref := by
  simpa only [InputsW.refs, Prod.mk.injEq] using h

theorem StateW.refs_eq {z z' : StateW p} (h : z.refs = z'.refs) :
    z.step.ref = z'.step.ref ∧ z.utxoRoot.ref = z'.utxoRoot.ref ∧ z.txRoot.ref = z'.txRoot.ref ∧
    z.txRootFinal.ref = z'.txRootFinal.ref ∧ z.signerRoot.ref = z'.signerRoot.ref ∧ z.signerAcc.ref = z'.signerAcc.ref ∧
    z.depositAcc.ref = z'.depositAcc.ref ∧ z.withdrawalAcc.ref = z'.withdrawalAcc.ref := by
  simpa only [StateW.refs, List.cons.injEq, and_true] using h

/-- The lengths of the inputs of one transaction. -/
def lens (i : AggC.CInputs p G) :=
  (i.txProof.length, i.dels.map (·.2.length), i.adds.map (·.2.length), i.signerProof.length, i.sigS.length,
    i.sigE.length)

theorem zip_posRefs {a a' : List (Wire (ZMod p))} {b b' : List (List (Wire (ZMod p)))} (ha : a.map Wire.ref = a'.map Wire.ref)
    (hb : b.map (List.map Wire.ref) = b'.map (List.map Wire.ref)) :
    (a.zip b).map posRefs = (a'.zip b').map posRefs := by
  have : ∀ (a : List (Wire (ZMod p))) (b : List (List (Wire (ZMod p)))),
      (a.zip b).map posRefs = (a.map Wire.ref).zip (b.map (List.map Wire.ref)) := by
    intro a b
    rw [List.zip_map]
    rfl
  rw [this, this, ha, hb]

theorem same_allocInputs (i i' : AggC.CInputs p G) (h : lens i = lens i') :
    Same InputsW.refs (allocInputs i) (allocInputs i') := by
  simp only [lens, Prod.mk.injEq] at h
  obtain ⟨l1, l2, l3, l4, l5, l6⟩ := h
  refine same_bind (same_allocTx _ _) fun _ _ h1 => ?_
  refine same_bind (same_callN rfl l1) fun _ _ h2 => ?_
  refine same_bind (same_each (f := List.length) (g := List.map Wire.ref) (by simpa [List.map_map, Function.comp_def] using l2)
    fun _ _ h => same_callN rfl h) fun _ _ h3 => ?_
  refine same_bind (same_each' (g := Wire.ref) (by simpa using len_eq l2) fun _ _ => same_call rfl) fun _ _ h4 => ?_
  refine same_bind (same_each (f := List.length) (g := List.map Wire.ref) (by simpa [List.map_map, Function.comp_def] using l3)
    fun _ _ h => same_callN rfl h) fun _ _ h5 => ?_
  refine same_bind (same_each' (g := Wire.ref) (by simpa using len_eq l3) fun _ _ => same_call rfl) fun _ _ h6 => ?_
  refine same_bind (same_callN rfl l4) fun _ _ h7 => ?_
  refine same_bind (same_call rfl) fun _ _ h8 => ?_
  refine same_bind (same_callN rfl l5) fun _ _ h9 => ?_
  refine same_bind (same_callN rfl l6) fun _ _ h10 => same_pure ?_
  simp only [InputsW.refs, h1, h2, h7, h8, h9, h10, zip_posRefs h4 h3, zip_posRefs h6 h5]

theorem same_delLoop (cv : Curve p q G) (hs : Hashes p) {on on' : Wire Bool} (hon : on.ref = on'.ref)
    (us us' : List (UtxoW p G)) (ds ds' : List (Wire (ZMod p) × List (Wire (ZMod p)))) (r r' : Wire (ZMod p))
    (hu : us.map UtxoW.refs = us'.map UtxoW.refs) (hd : ds.map posRefs = ds'.map posRefs) (hr : r.ref = r'.ref) :
    Same Wire.ref (delLoop cv hs on us ds r) (delLoop cv hs on' us' ds' r') := by
  induction us generalizing us' ds ds' r r' with
  | nil =>
    rw [map_eq_nil' hu]
    cases ds with
    | nil => rw [map_eq_nil' hd]; exact same_pure hr
    | cons d ds =>
      obtain ⟨d', ds', rfl, -, -⟩ := map_eq_cons hd
      exact same_panic
  | cons u us ih =>
    obtain ⟨u', us', rfl, h1, hu⟩ := map_eq_cons hu
    cases ds with
    | nil => rw [map_eq_nil' hd]; exact same_panic
    | cons d ds =>
      obtain ⟨d', ds', rfl, h2, hd⟩ := map_eq_cons hd
      simp only [posRefs, Prod.mk.injEq] at h2
      refine same_bind (same_bnot (UtxoW.refs_eq h1).2.2) fun _ _ h3 => ?_
      refine same_bind (same_band hon h3) fun _ _ h4 => ?_
      refine same_bind (same_condUpdate (same_utxoHash cv _) _ _ h4 h2.1 h2.2 h1 rfl hr) fun _ _ h5 => ?_
      exact ih _ _ _ _ _ hu hd h5

theorem same_depositStep (P : AggC.Params p G) (cv : Curve p q G) {on on' : Wire Bool} (hon : on.ref = on'.ref)
    {u u' : UtxoW p G} (h1 : u.refs = u'.refs) {d d' : Wire (ZMod p)} (hd : d.ref = d'.ref) :
    Same Wire.ref (depositStep P cv on u d) (depositStep P cv on' u' d') := by
  obtain ⟨a, b, c⟩ := UtxoW.refs_eq h1
  unfold depositStep
  by_cases ht : P.transferOnly
  · rw [if_pos ht, if_pos ht]; exact same_pure hd
  · rw [if_neg ht, if_neg ht]
    refine same_bind (same_toBytes hd) fun _ _ h1 => ?_
    refine same_bind (same_pointBytes cv b) fun _ _ h2 => ?_
    refine same_bind (same_toNBits a 64) fun _ _ h3 => ?_
    refine same_bind (same_toByteChunks h3) fun _ _ h4 => ?_
    refine same_bind (same_bnot c) fun _ _ h5 => ?_
    refine same_bind (same_band hon h5) fun _ _ h6 => ?_
    refine same_bind (same_shaField (by simp only [List.map_append, h1, h2, h4])) fun _ _ h7 => ?_
    exact same_sel h6 (fa_eq h7) (fa_eq hd)

/-- The variables of a triple. -/
def refs3 (x : Wire (ZMod p) × Wire (ZMod p) × Wire (ZMod p)) := (x.1.ref, x.2.1.ref, x.2.2.ref)

theorem same_addLoop (P : AggC.Params p G) (cv : Curve p q G) {on on' ok ok' : Wire Bool} (hon : on.ref = on'.ref)
    (hok : ok.ref = ok'.ref)
    (us us' : List (UtxoW p G)) (ds ds' : List (Wire (ZMod p) × List (Wire (ZMod p)))) (d d' w w' r r' : Wire (ZMod p))
    (hu : us.map UtxoW.refs = us'.map UtxoW.refs) (hds : ds.map posRefs = ds'.map posRefs) (hd : d.ref = d'.ref)
    (hw : w.ref = w'.ref) (hr : r.ref = r'.ref) :
    Same refs3 (addLoop P cv on ok us ds d w r) (addLoop P cv on' ok' us' ds' d' w' r') := by
  induction us generalizing us' ds ds' d d' w w' r r' with
  | nil =>
    rw [map_eq_nil' hu]
    cases ds with
    | nil => rw [map_eq_nil' hds]; exact same_pure (by simp only [refs3, hd, hw, hr])
    | cons d ds =>
      obtain ⟨d', ds', rfl, -, -⟩ := map_eq_cons hds
      exact same_panic
  | cons u us ih =>
    obtain ⟨u', us', rfl, h1, hu⟩ := map_eq_cons hu
    cases ds with
    | nil => rw [map_eq_nil' hds]; exact same_panic
    | cons a as =>
      obtain ⟨a', as', rfl, h2, hds⟩ := map_eq_cons hds
      simp only [posRefs, Prod.mk.injEq] at h2
      obtain ⟨e1, e2, e3⟩ := UtxoW.refs_eq h1
      refine same_bind (same_isEq (pa_eq e2) rfl) fun _ _ h3 => ?_
      refine same_bind (same_depositStep P cv hon h1 hd) fun _ _ h4 => ?_
      refine same_bind (same_bnot e3) fun _ _ h5 => ?_
      refine same_bind (same_band h3 h5) fun _ _ h6 => ?_
      refine same_bind (same_sel h6 (fa_eq e1) rfl) fun _ _ h7 => ?_
      refine same_bind (same_add hw h7) fun _ _ h8 => ?_
      refine same_bind (same_bnot h3) fun _ _ h9 => ?_
      refine same_bind (same_band hok h9) fun _ _ h10 => ?_
      refine same_bind (same_bnot e3) fun _ _ h11 => ?_
      refine same_bind (same_band h10 h11) fun _ _ h12 => ?_
      refine same_bind (same_condUpdate (same_utxoHash cv _) _ _ h12 h2.1 h2.2 rfl h1 hr) fun _ _ h13 => ?_
      exact ih _ _ _ _ _ _ _ _ _ hu hds h4 h8 h13

theorem same_withdrawalStep (P : AggC.Params p G) (cv : Curve p q G) {k k' : Wire G} (hk : k.ref = k'.ref)
    {w w' d d' : Wire (ZMod p)} (hw : w.ref = w'.ref) (hd : d.ref = d'.ref) :
    Same Wire.ref (withdrawalStep P cv k w d) (withdrawalStep P cv k' w' d') := by
  unfold withdrawalStep
  by_cases ht : P.transferOnly
  · rw [if_pos ht, if_pos ht]; exact same_pure hd
  · rw [if_neg ht, if_neg ht]
    refine same_bind (same_toBytes hd) fun _ _ h1 => ?_
    refine same_bind (same_pointBytes cv hk) fun _ _ h2 => ?_
    refine same_bind (same_toNBits hw 64) fun _ _ h3 => ?_
    refine same_bind (same_toByteChunks h3) fun _ _ h4 => ?_
    refine same_bind (same_isZero hw) fun _ _ h5 => ?_
    refine same_bind (same_shaField (by simp only [List.map_append, h1, h2, h4])) fun _ _ h7 => ?_
    exact same_sel h5 (fa_eq hd) (fa_eq h7)

theorem same_stepOne (P : AggC.Params p G) (cv : Curve p q G) (z z' : StateW p) (i i' : InputsW p G)
    (hz : z.refs = z'.refs) (hi : i.refs = i'.refs) : Same StateW.refs (stepOne P cv z i) (stepOne P cv z' i') := by
  obtain ⟨z1, z2, z3, z4, z5, z6, z7, z8⟩ := StateW.refs_eq hz
  obtain ⟨i1, i2, i3, i4, i5, i6, i7, i8⟩ := InputsW.refs_eq hi
  obtain ⟨t1, t2⟩ := TxW.refs_eq i1
  refine same_bind (f := id) (same_assert (by rw [len_eq i7, len_eq i8])) fun _ _ _ => ?_
  refine same_bind (f := id) (same_enforceValid i1 i6) fun _ _ _ => ?_
  refine same_bind (same_updateRoot (same_txHash cv _) _ _ i2 rfl i1 z1) fun u u' hu => ?_
  simp only [refs2, Prod.mk.injEq] at hu
  refine same_bind (f := id) (same_enforceEq (fa_eq hu.1) (fa_eq z3)) fun _ _ _ => ?_
  refine same_bind (same_txFields cv i1) fun m m' hm => ?_
  refine same_bind (same_isValid 32 cv _ i6 (by simp only [List.map_append, hm, List.map_cons, List.map_nil, z4]) i7 i8)
    fun sigOk sigOk' h1 => ?_
  refine same_bind (same_isEq (pa_eq i6) rfl) fun isC isC' h2 => ?_
  refine same_bind (same_bor h1 h2) fun txOk txOk' h3 => ?_
  refine same_bind (same_delLoop cv _ h1 _ _ _ _ _ _ t1 i3 z2) fun r1 r1' h4 => ?_
  refine same_bind (same_addLoop P cv h2 h3 _ _ _ _ _ _ _ _ _ _ t2 i4 z7 rfl h4) fun x x' hx => ?_
  obtain ⟨dep, w, r2⟩ := x
  obtain ⟨dep', w', r2'⟩ := x'
  simp only [refs3, Prod.mk.injEq] at hx
  obtain ⟨x1, x2, x3⟩ := hx
  refine same_bind (same_updateRoot (same_pkHash cv _) _ _ i5 rfl i6 z1) fun s s' hs => ?_
  simp only [refs2, Prod.mk.injEq] at hs
  refine same_bind (f := id) (same_condEnforceEq (fa_eq hs.1) (fa_eq z5) h3) fun _ _ _ => ?_
  refine same_bind (same_sel h3 (fa_eq hs.2) (fa_eq z5)) fun _ _ h5 => ?_
  refine same_bind (same_toBytes z6) fun _ _ h6 => ?_
  refine same_bind (same_sel h3 (pa_eq i6) rfl) fun _ _ h7 => ?_
  refine same_bind (same_pointBytes cv h7) fun _ _ h8 => ?_
  refine same_bind (same_shaField (by simp only [List.map_append, h6, h8])) fun _ _ h9 => ?_
  refine same_bind (same_withdrawalStep P cv i6 x2 z8) fun _ _ h10 => ?_
  refine same_bind (same_add z1 rfl) fun _ _ h11 => same_pure ?_
  simp only [StateW.refs, h11, x3, hu.2, z4, h5, h9, x1, h10]

theorem same_stepBatch (P : AggC.Params p G) (cv : Curve p q G) (is is' : List (InputsW p G)) (z z' : StateW p)
    (hz : z.refs = z'.refs) (hi : is.map InputsW.refs = is'.map InputsW.refs) :
    Same StateW.refs (stepBatch P cv z is) (stepBatch P cv z' is') := by
  induction is generalizing is' z z' with
  | nil => rw [map_eq_nil' hi]; exact same_pure hz
  | cons i is ih =>
    obtain ⟨i', is', rfl, h1, h2⟩ := map_eq_cons hi
    exact same_bind (same_stepOne P cv _ _ _ _ hz h1) fun _ _ h => ih _ _ _ h h2

theorem same_allocState (z z' : AggC.CState p) : Same StateW.refs (allocState z : Tr p G _) (allocState z') := by
  unfold allocState
  refine same_bind (same_call rfl) fun _ _ h1 => ?_
  refine same_bind (same_call rfl) fun _ _ h2 => ?_
  refine same_bind (same_call rfl) fun _ _ h3 => ?_
  refine same_bind (same_call rfl) fun _ _ h4 => ?_
  refine same_bind (same_call rfl) fun _ _ h5 => ?_
  refine same_bind (same_call rfl) fun _ _ h6 => ?_
  refine same_bind (same_call rfl) fun _ _ h7 => ?_
  refine same_bind (same_call rfl) fun _ _ h8 => same_pure ?_
  simp only [StateW.refs, h1, h2, h3, h4, h5, h6, h7, h8]

theorem same_aggregatorStep (P : AggC.Params p G) (cv : Curve p q G) (z z' : AggC.CState p)
    (is is' : List (AggC.CInputs p G)) (h : is.map lens = is'.map lens) :
    Same StateW.refs (aggregatorStep P cv z is) (aggregatorStep P cv z' is') :=
  same_bind (same_allocState z z') fun _ _ h1 =>
    same_bind (same_each h same_allocInputs) fun _ _ h2 => same_stepBatch P cv _ _ _ _ h1 h2

/-! ## Client -/

/-- The variables of a block. -/
def BlockW.refs (b : BlockW p) := (b.utxoRoot.ref, b.txRoot.ref, b.signerRoot.ref, b.height.ref)

/-- The variables of a transaction with its index. -/
def txiRefs (x : TxW p G × Wire (ZMod p)) := (x.1.refs, x.2.ref)

/-- The variables of the client's inputs. -/
def AuxW.refs (a : AuxW p G) :=
  (a.txProofs.map (List.map refs2), a.signerProofs.map (List.map refs2), a.block.refs, a.transactions.map txiRefs,
    a.pk.ref)

/-- The lengths of the client's inputs. -/
def userLens (a : Client.UserAuxVar p G) :=
  (a.txProofs.map List.length, a.signerProofs.map List.length, a.transactions.length)

theorem same_allocBlock (b b' : BlockVar (ZMod p)) : Same BlockW.refs (allocBlock b : Tr p G _) (allocBlock b') :=
  same_bind (same_call rfl) fun _ _ h1 => same_bind (same_call rfl) fun _ _ h2 => same_bind (same_call rfl)
    fun _ _ h3 => same_bind (same_call rfl) fun _ _ h4 => same_pure (by simp only [BlockW.refs, h1, h2, h3, h4])

theorem same_allocPath (l l' : List (ZMod p × ZMod p)) (h : l.length = l'.length) :
    Same (List.map refs2) (allocPath l : Tr p G _) (allocPath l') :=
  same_each' h fun _ _ => same_bind (same_call rfl) fun _ _ h1 => same_bind (same_call rfl) fun _ _ h2 =>
    same_pure (by simp only [refs2, h1, h2])

theorem same_allocAux (a a' : Client.UserAuxVar p G) (h : userLens a = userLens a') :
    Same AuxW.refs (allocAux a) (allocAux a') := by
  simp only [userLens, Prod.mk.injEq] at h
  refine same_bind (same_each h.1 same_allocPath) fun _ _ h1 => ?_
  refine same_bind (same_each h.2.1 same_allocPath) fun _ _ h2 => ?_
  refine same_bind (same_allocBlock _ _) fun _ _ h3 => ?_
  refine same_bind (same_each' (g := txiRefs) h.2.2 fun _ _ => ?_) fun _ _ h4 => ?_
  · exact same_bind (same_allocTx _ _) fun _ _ h1 => same_bind (same_call rfl) fun _ _ h2 =>
      same_pure (by simp only [txiRefs, h1, h2])
  refine same_bind (same_call rfl) fun _ _ h5 => same_pure ?_
  simp only [AuxW.refs, h1, h2, h3, h4, h5]

theorem same_signerLoop (l l' : List (UtxoW p G)) (hl : l.map UtxoW.refs = l'.map UtxoW.refs) (s s' : Wire G)
    (hs : s.ref = s'.ref) : Same Wire.ref (signerLoop l s) (signerLoop l' s') := by
  induction l generalizing l' s s' with
  | nil => rw [map_eq_nil' hl]; exact same_pure hs
  | cons a l ih =>
    obtain ⟨a', l', rfl, ha, hl⟩ := map_eq_cons hl
    obtain ⟨h1, h2, h3⟩ := UtxoW.refs_eq ha
    exact same_bind (same_sel h3 (pa_eq hs) (pa_eq h2)) fun _ _ h => ih _ hl _ _ h

theorem same_balanceLoop {op : Wire (ZMod p) → Wire (ZMod p) → Tr p G (Wire (ZMod p))}
    (hop : ∀ {x x' y y' : Wire (ZMod p)}, x.ref = x'.ref → y.ref = y'.ref → Same Wire.ref (op x y) (op x' y'))
    {k k' : Wire G} (hk : k.ref = k'.ref)
    (l l' : List (UtxoW p G)) (hl : l.map UtxoW.refs = l'.map UtxoW.refs) (s s' : Wire (ZMod p)) (hs : s.ref = s'.ref) :
    Same Wire.ref (balanceLoop op k l s) (balanceLoop op k' l' s') := by
  induction l generalizing l' s s' with
  | nil => rw [map_eq_nil' hl]; exact same_pure hs
  | cons a l ih =>
    obtain ⟨a', l', rfl, ha, hl⟩ := map_eq_cons hl
    obtain ⟨h1, h2, h3⟩ := UtxoW.refs_eq ha
    refine same_bind (same_isEq (pa_eq h2) (pa_eq hk)) fun _ _ h4 => ?_
    refine same_bind (same_toField h4) fun _ _ h5 => ?_
    refine same_bind (same_mul h1 h5) fun _ _ h6 => ?_
    refine same_bind (hop hs h6) fun _ _ h => ?_
    exact ih _ hl _ _ h

/-- The variables of the loop. -/
def LoopW.refs (s : LoopW p) := (s.balance.ref, s.nonce.ref, s.prevTxIndex.ref)

theorem same_txStep (P : Client.Params p) (cv : Curve p q G) {b b' : BlockW p} (hb : b.refs = b'.refs) {k k' : Wire G}
    (hk : k.ref = k'.ref) {s s' : LoopW p} (hs : s.refs = s'.refs) {t t' : TxW p G} (ht : t.refs = t'.refs)
    {i i' : Wire (ZMod p)} (hi : i.ref = i'.ref) {l l' m m' : List (Wire (ZMod p) × Wire (ZMod p))}
    (hl : l.map refs2 = l'.map refs2) (hm : m.map refs2 = m'.map refs2) :
    Same LoopW.refs (txStep P cv b k s t i l m) (txStep P cv b' k' s' t' i' l' m') := by
  obtain ⟨t1, t2⟩ := TxW.refs_eq ht
  simp only [BlockW.refs, LoopW.refs, Prod.mk.injEq] at hb hs
  obtain ⟨b1, b2, b3, b4⟩ := hb
  obtain ⟨s1, s2, s3⟩ := hs
  refine same_bind (same_txHash cv _ _ _ ht) fun _ _ h1 => ?_
  refine same_bind (same_isEq (fa_eq h1) rfl) fun _ _ h2 => ?_
  refine same_bind (same_bnot h2) fun _ _ h3 => ?_
  refine same_bind (same_isLess s3 hi) fun _ _ h4 => ?_
  refine same_bind (f := id) (same_condEnforceEq (ba_eq h4) rfl h3) fun _ _ _ => ?_
  refine same_bind (f := id) (same_checkMembershipIdx (same_txHash cv _) _ _ hl b2 ht hi h3) fun _ _ _ => ?_
  refine same_bind (same_signerLoop _ _ t1 _ _ rfl) fun _ _ h5 => ?_
  refine same_bind (f := id) (same_checkMembership (same_pkHash cv _) _ _ hm b3 h5 h3) fun _ _ _ => ?_
  refine same_bind (same_isEq (pa_eq hk) (pa_eq h5)) fun _ _ h6 => ?_
  refine same_bind (same_toField h6) fun _ _ h7 => ?_
  refine same_bind (same_add s2 h7) fun _ _ h8 => ?_
  refine same_bind (same_balanceLoop same_sub hk _ _ t1 _ _ s1) fun _ _ h9 => ?_
  refine same_bind (same_balanceLoop same_add hk _ _ t2 _ _ h9) fun _ _ h10 => ?_
  refine same_bind (same_toField h3) fun _ _ h11 => ?_
  refine same_bind (same_sub rfl h11) fun _ _ h12 => ?_
  refine same_bind (same_mul h12 s3) fun _ _ h13 => ?_
  refine same_bind (same_toField h3) fun _ _ h14 => ?_
  refine same_bind (same_mul h14 hi) fun _ _ h15 => ?_
  refine same_bind (same_add h13 h15) fun _ _ h16 => same_pure ?_
  simp only [LoopW.refs, h10, h8, h16]

/-- The variables of one item of the loop. -/
def itemRefs (x : ((TxW p G × Wire (ZMod p)) × List (Wire (ZMod p) × Wire (ZMod p))) × List (Wire (ZMod p) × Wire (ZMod p))) :=
  ((txiRefs x.1.1, x.1.2.map refs2), x.2.map refs2)

theorem same_txLoop (P : Client.Params p) (cv : Curve p q G) {b b' : BlockW p} (hb : b.refs = b'.refs) {k k' : Wire G}
    (hk : k.ref = k'.ref)
    (l l' : List (((TxW p G × Wire (ZMod p)) × List (Wire (ZMod p) × Wire (ZMod p))) × List (Wire (ZMod p) × Wire (ZMod p))))
    (hl : l.map itemRefs = l'.map itemRefs) (s s' : LoopW p) (hs : s.refs = s'.refs) :
    Same LoopW.refs (txLoop P cv b k l s) (txLoop P cv b' k' l' s') := by
  induction l generalizing l' s s' with
  | nil => rw [map_eq_nil' hl]; exact same_pure hs
  | cons a l ih =>
    obtain ⟨a', l', rfl, ha, hl⟩ := map_eq_cons hl
    simp only [itemRefs, txiRefs, Prod.mk.injEq] at ha
    exact same_bind (same_txStep P cv hb hk hs ha.1.1.1 ha.1.1.2 ha.1.2 ha.2) fun _ _ h => ih _ hl _ _ h

theorem items_eq {a a' : AuxW p G} (h : a.refs = a'.refs) :
    ((a.transactions.zip a.txProofs).zip a.signerProofs).map itemRefs =
      ((a'.transactions.zip a'.txProofs).zip a'.signerProofs).map itemRefs := by
  have : ∀ a : AuxW p G, ((a.transactions.zip a.txProofs).zip a.signerProofs).map itemRefs =
      ((a.transactions.map txiRefs).zip (a.txProofs.map (List.map refs2))).zip (a.signerProofs.map (List.map refs2)) := by
    intro a
    rw [List.zip_map, List.zip_map]
    rfl
  simp only [AuxW.refs, Prod.mk.injEq] at h
  rw [this, this, h.1, h.2.1, h.2.2.2.1]

theorem same_accumulate (A : AccKind) (hs : Hashes p) {x x' y y' : Wire (ZMod p)} (hx : x.ref = x'.ref) (hy : y.ref = y'.ref) :
    Same Wire.ref (accumulate A hs x y : Tr p G _) (accumulate A hs x' y') := by
  cases A with
  | poseidon => exact same_two hx hy
  | sha s =>
    refine same_bind (same_toBytes hy) fun _ _ h1 => ?_
    refine same_bind (same_toBytes hx) fun _ _ h2 => ?_
    refine same_bind (same_callN (mapy_eq (by rw [List.map_append, List.map_append, h2, h1])) (by rw [s.len, s.len]))
      fun _ _ h3 => same_call (mapy_eq ?_)
    rw [List.map_dropLast, List.map_dropLast, h3]

theorem same_updateBalance (hs : Hashes p) (A : AccKind) (cv : Curve p q G) (n : Nat) (z z' : UStateW p) (a a' : AuxW p G)
    (hz : z.refs = z'.refs) (ha : a.refs = a'.refs) :
    Same UStateW.refs (updateBalance hs A cv n z a) (updateBalance hs A cv n z' a') := by
  have hit := items_eq ha
  simp only [UStateW.refs, List.cons.injEq, and_true] at hz
  obtain ⟨z1, z2, z3, z4, z5, z6, z7⟩ := hz
  simp only [AuxW.refs, Prod.mk.injEq] at ha
  obtain ⟨a1, a2, a3, a4, a5⟩ := ha
  have hb := a3
  simp only [BlockW.refs, Prod.mk.injEq] at a3
  obtain ⟨b1, b2, b3, b4⟩ := a3
  refine same_bind (f := id) (same_assert (by rw [len_eq a1])) fun _ _ _ => ?_
  refine same_bind (f := id) (same_assert (by rw [len_eq a4])) fun _ _ _ => ?_
  refine same_bind (f := id) (same_assert (by rw [len_eq a2])) fun _ _ _ => ?_
  refine same_bind (same_pkHash cv _ _ _ a5) fun _ _ h1 => ?_
  refine same_bind (f := id) (same_enforceEq (fa_eq h1) (fa_eq z3)) fun _ _ _ => ?_
  refine same_bind (same_hash (by simp only [List.map_cons, List.map_nil, b1, b2, b3, b4])) fun _ _ h2 => ?_
  refine same_bind (same_accumulate A hs z4 h2) fun _ _ h3 => ?_
  refine same_bind (f := id) (same_enforceLe z6 b4) fun _ _ _ => ?_
  refine same_bind (same_isEq (fa_eq h2) (fa_eq z5)) fun _ _ h4 => ?_
  refine same_bind (same_sel h4 (fa_eq z7) rfl) fun _ _ h5 => ?_
  refine same_bind (same_txLoop (A.params hs) cv hb a5 _ _ hit _ _ (by simp only [LoopW.refs, z1, z2, h5])) fun s s' hs => ?_
  simp only [LoopW.refs, Prod.mk.injEq] at hs
  refine same_pure ?_
  simp only [UStateW.refs, hs.1, hs.2.1, hs.2.2, z3, h3, h2, b4]

theorem same_allocUState (z z' : Client.UState p) : Same UStateW.refs (allocUState z : Tr p G _) (allocUState z') := by
  unfold allocUState
  refine same_bind (same_call rfl) fun _ _ h1 => ?_
  refine same_bind (same_call rfl) fun _ _ h2 => ?_
  refine same_bind (same_call rfl) fun _ _ h3 => ?_
  refine same_bind (same_call rfl) fun _ _ h4 => ?_
  refine same_bind (same_call rfl) fun _ _ h5 => ?_
  refine same_bind (same_call rfl) fun _ _ h6 => ?_
  refine same_bind (same_call rfl) fun _ _ h7 => same_pure ?_
  simp only [UStateW.refs, h1, h2, h3, h4, h5, h6, h7]

theorem same_clientStep (hs : Hashes p) (A : AccKind) (cv : Curve p q G) (n : Nat) (z z' : Client.UState p)
    (a a' : Client.UserAuxVar p G) (h : userLens a = userLens a') :
    Same UStateW.refs (clientStep hs A cv n z a) (clientStep hs A cv n z' a') :=
  same_bind (same_allocUState z z') fun _ _ h1 =>
    same_bind (same_allocAux a a' h) fun _ _ h2 => same_updateBalance hs A cv n _ _ _ _ h1 h2

end
end PF.Prog
