import Verif.Spec.Assignment
import Verif.Proof.ProgramValues

/-!
# Every assignment that satisfies the program satisfies the relation
-/
set_option linter.unusedSectionVars false

namespace PF.Prog
open PF PF.Circuit
variable {p q : Nat} {G α β γ : Type}

/-- The value an assignment gives to an operand. -/
abbrev Assignment.fw (e : Assignment p G) (w : Wire (ZMod p)) : ZMod p := e.f w.ref
/-- The same for a Boolean. -/
abbrev Assignment.bw (e : Assignment p G) (w : Wire Bool) : Bool := e.b w.ref
/-- The same for a point. -/
abbrev Assignment.pw (e : Assignment p G) (w : Wire G) : G := e.g w.ref
/-- The same for a byte. -/
abbrev Assignment.yw (e : Assignment p G) (w : Wire Byte) : Byte := e.y w.ref

variable [AddCommGroup G] [Module (ZMod q) G]
variable {L : Lib p q G} {e : Assignment p G}

theorem satisfies_append (l l' : List (Instr p G)) (n : Nat) :
    Satisfies L e n (l ++ l') ↔ Satisfies L e n l ∧ Satisfies L e (n + (l.map Instr.results).sum) l' := by
  induction l generalizing n with
  | nil => simp [Satisfies]
  | cons i l ih => simp [Satisfies, ih, and_assoc, Nat.add_assoc]

theorem width_results (l : List (Entry p G)) : ((l.map Entry.instr).map Instr.results).sum = width l := by
  induction l with
  | nil => rfl
  | cons x l ih => simp only [List.map_cons, List.sum_cons, ih, width, Entry.instr]

/-- Whenever the assignment satisfies what the synthesis emits, its results satisfy `R`. -/
def Snd (L : Lib p q G) (e : Assignment p G) (m : Tr p G α) (R : α → Prop) : Prop :=
  ∀ n a o, m n = some (a, o) → Satisfies L e n (o.log.map Entry.instr) → R a

theorem bind_some {m : Tr p G α} {k : α → Tr p G β} {n : Nat} {b : β} {o : Out p G} (h : (m >>= k) n = some (b, o)) :
    ∃ a o1 o2, m n = some (a, o1) ∧ k a (n + width o1.log) = some (b, o2) ∧ o.log = o1.log ++ o2.log ∧
      o.ok = (o1.ok && o2.ok) := by
  rw [bind_def] at h
  cases hm : m n with
  | none => rw [hm] at h; cases h
  | some x =>
    obtain ⟨a, o1⟩ := x
    rw [hm] at h
    simp only at h
    cases hk : k a (n + width o1.log) with
    | none => rw [hk] at h; cases h
    | some x =>
      obtain ⟨b', o2⟩ := x
      rw [hk] at h
      cases h
      exact ⟨a, o1, o2, rfl, hk, rfl, rfl⟩

theorem snd_bind {R : α → Prop} {R' : β → Prop} {m : Tr p G α} {k : α → Tr p G β} (hm : Snd L e m R)
    (hk : ∀ a, R a → Snd L e (k a) R') : Snd L e (m >>= k) R' := by
  intro n b o h hs
  obtain ⟨a, o1, o2, h1, h2, h3, -⟩ := bind_some h
  rw [h3, List.map_append, satisfies_append, width_results] at hs
  exact hk a (hm n a o1 h1 hs.1) _ b o2 h2 hs.2

theorem snd_pure {R : α → Prop} {a : α} (h : R a) : Snd L e (pure a : Tr p G α) R := by
  intro n a' o h' _
  cases h'
  exact h

theorem snd_weaken {R R' : α → Prop} {m : Tr p G α} (h : Snd L e m R) (hr : ∀ a, R a → R' a) : Snd L e m R' :=
  fun n a o h1 h2 => hr a (h n a o h1 h2)

theorem snd_panic {R : α → Prop} : Snd L e (panic : Tr p G α) R := fun _ _ _ h => by cases h

theorem snd_assert (b : Bool) : Snd L e (assert b : Tr p G Unit) fun _ => b = true := by
  intro n a o h _
  cases b
  · cases h
  · rfl

theorem snd_call {k : Wire α → Arg p G} {R : Wire α → Prop} {g : Gadget} {args : List (Arg p G)} {v : α}
    (h : ∀ n, Holds L e n ⟨g, args, 1⟩ → R ⟨.var n, v⟩) : Snd L e (call k g args v) R := by
  intro n a o h' hs
  cases h'
  exact h n hs.1

theorem snd_callN {k : Wire α → Arg p G} {R : List (Wire α) → Prop} {g : Gadget} {args : List (Arg p G)} {vs : List α}
    (h : ∀ n, Holds L e n ⟨g, args, vs.length⟩ → R (wiresFrom n vs)) : Snd L e (callN k g args vs) R := by
  intro n a o h' hs
  cases h'
  refine h n ?_
  have := hs.1
  simpa [Entry.instr] using this

theorem snd_constrain {R : Prop} {g : Gadget} {args : List (Arg p G)} {b : Bool}
    (h : ∀ n, Holds L e n ⟨g, args, 0⟩ → R) : Snd L e (constrain g args b) fun _ => R := by
  intro n a o h' hs
  cases h'
  exact h n hs.1

/-- As `each`, with a relation that only looks at the results. -/
theorem snd_each {k : α → Tr p G β} {h : α → β → Prop} (hk : ∀ a, Snd L e (k a) (h a)) (l : List α) :
    Snd L e (each k l) (List.Forall₂ h l) := by
  induction l with
  | nil => exact snd_pure .nil
  | cons a l ih => exact snd_bind (hk a) fun b hb => snd_bind ih fun bs hbs => snd_pure (.cons hb hbs)

/-- As `each`, for functions of the operands. -/
theorem snd_each_map {k : α → Tr p G β} {v : β → γ} {h : α → γ} (hk : ∀ a, Snd L e (k a) fun b => v b = h a) (l : List α) :
    Snd L e (each k l) fun bs => bs.map v = l.map h := by
  induction l with
  | nil => exact snd_pure rfl
  | cons a l ih =>
    exact snd_bind (hk a) fun b hb => snd_bind ih fun bs hbs => snd_pure (by simp [hb, hbs])

theorem wiresFrom_length (vs : List α) (n : Nat) : (wiresFrom n vs).length = vs.length := by
  induction vs generalizing n with
  | nil => rfl
  | cons v vs ih => simp [wiresFrom, ih]

theorem consecutive_zero {α : Type} (v : Nat → α) (n k : Nat) :
    consecutive v n (k + 1) = v n :: consecutive v (n + 1) k := by
  simp only [consecutive, List.range_succ_eq_map, List.map_cons, List.map_map, Nat.add_zero, Function.comp_def,
    Nat.succ_eq_add_one, Nat.add_assoc, Nat.add_comm 1]

theorem wiresFrom_read (v : Nat → α) (vs : List α) (n : Nat) :
    (wiresFrom n vs).map (fun w => w.ref.read v) = consecutive v n vs.length := by
  induction vs generalizing n with
  | nil => rfl
  | cons x vs ih =>
    rw [List.length_cons, consecutive_zero]
    simp only [wiresFrom, List.map_cons, ih]
    rfl

theorem refs_map {k : Ref α → Arg p G} {l : List (Wire α)} {xs : List (Ref α)} (hk : ∀ x y, k x = k y → x = y)
    (h : (l.map fun w => k w.ref) = xs.map k) : xs = l.map Wire.ref := by
  induction l generalizing xs with
  | nil => cases xs with
    | nil => rfl
    | cons _ _ => simp at h
  | cons w l ih => cases xs with
    | nil => simp at h
    | cons x xs =>
      simp only [List.map_cons, List.cons.injEq] at h
      rw [List.map_cons, ← ih h.2, hk _ _ h.1]

theorem field_inj (x y : Ref (ZMod p)) (h : (Arg.field x : Arg p G) = .field y) : x = y := by cases h; rfl
theorem bool_inj (x y : Ref Bool) (h : (Arg.bool x : Arg p G) = .bool y) : x = y := by cases h; rfl
theorem byte_inj (x y : Ref Byte) (h : (Arg.byte x : Arg p G) = .byte y) : x = y := by cases h; rfl

/-! ## Library gadgets -/

theorem snd_allocF (v : ZMod p) : Snd L e (allocF v : Tr p G _) fun _ => True := snd_call fun _ _ => trivial
theorem snd_allocB (v : Bool) : Snd L e (allocB v : Tr p G _) fun _ => True := snd_call fun _ _ => trivial
theorem snd_allocP (v : G) : Snd L e (allocP v : Tr p G _) fun _ => True := snd_call fun _ _ => trivial
theorem snd_allocBs (v : List Bool) : Snd L e (allocBs v : Tr p G _) fun l => l.length = v.length :=
  snd_callN fun n _ => wiresFrom_length v n
theorem snd_allocFs (v : List (ZMod p)) : Snd L e (allocFs v : Tr p G _) fun l => l.length = v.length :=
  snd_callN fun n _ => wiresFrom_length v n

theorem snd_add (x y : Wire (ZMod p)) : Snd L e (add x y : Tr p G _) fun a => e.fw a = e.fw x + e.fw y :=
  snd_call fun _ h => h
theorem snd_sub (x y : Wire (ZMod p)) : Snd L e (sub x y : Tr p G _) fun a => e.fw a = e.fw x - e.fw y :=
  snd_call fun _ h => h
theorem snd_mul (x y : Wire (ZMod p)) : Snd L e (mul x y : Tr p G _) fun a => e.fw a = e.fw x * e.fw y :=
  snd_call fun _ h => h
theorem snd_toField (x : Wire Bool) : Snd L e (toField x : Tr p G _) fun a => e.fw a = boolF (e.bw x) :=
  snd_call fun _ h => h
theorem snd_packBits (x : List (Wire Bool)) :
    Snd L e (packBits x : Tr p G _) fun a => e.fw a = ((bitsVal (x.map e.bw) : Nat) : ZMod p) :=
  snd_call fun n h => by
    obtain ⟨xs, h1, h2⟩ := h
    rw [refs_map bool_inj h1, List.map_map] at h2
    exact h2
theorem snd_toBits (x : Wire (ZMod p)) : Snd L e (toBits x : Tr p G _) fun a => a.map e.bw = toBitsLe (e.fw x) :=
  snd_callN fun n h => (wiresFrom_read _ _ _).trans h
theorem snd_enforceEq (x y : Wire (ZMod p)) : Snd L e (enforceEq fa x y : Tr p G _) fun _ => e.fw x = e.fw y :=
  snd_constrain fun _ h => h
theorem snd_condF (x y : Wire (ZMod p)) (on : Wire Bool) :
    Snd L e (condEnforceEq fa x y on : Tr p G _) fun _ => condEq (e.bw on) (e.fw x) (e.fw y) :=
  snd_constrain fun _ h => h
theorem snd_condB (x y : Wire Bool) (on : Wire Bool) :
    Snd L e (condEnforceEq ba x y on : Tr p G _) fun _ => condEq (e.bw on) (e.bw x) (e.bw y) :=
  snd_constrain fun _ h => h
theorem snd_condP [DecidableEq G] (x y : Wire G) (on : Wire Bool) :
    Snd L e (condEnforceEq pa x y on : Tr p G _) fun _ => condEq (e.bw on) (e.pw x) (e.pw y) :=
  snd_constrain fun _ h => h

theorem bool_decide {b : Bool} {P : Prop} [Decidable P] (h : b = true ↔ P) : b = decide P := by
  cases b
  · exact (decide_eq_false fun hp => by simp at h; exact h hp).symm
  · exact (decide_eq_true (h.1 rfl)).symm

theorem snd_isEqF (x y : Wire (ZMod p)) :
    Snd L e (isEq fa x y : Tr p G _) fun a => e.bw a = decide (e.fw x = e.fw y) := snd_call fun _ h => bool_decide h
theorem snd_isEqB (x y : Wire Bool) :
    Snd L e (isEq ba x y : Tr p G _) fun a => e.bw a = decide (e.bw x = e.bw y) := snd_call fun _ h => bool_decide h
theorem snd_isEqP [DecidableEq G] (x y : Wire G) :
    Snd L e (isEq pa x y : Tr p G _) fun a => e.bw a = decide (e.pw x = e.pw y) := snd_call fun _ h => bool_decide h
theorem snd_isZero (x : Wire (ZMod p)) :
    Snd L e (isZero x : Tr p G _) fun a => e.bw a = decide (e.fw x = 0) := snd_call fun _ h => bool_decide h
theorem snd_bnot (x : Wire Bool) : Snd L e (bnot x : Tr p G _) fun a => e.bw a = !e.bw x := snd_call fun _ h => h
theorem snd_band (x y : Wire Bool) : Snd L e (band x y : Tr p G _) fun a => e.bw a = (e.bw x && e.bw y) :=
  snd_call fun _ h => h
theorem snd_bor (x y : Wire Bool) : Snd L e (bor x y : Tr p G _) fun a => e.bw a = (e.bw x || e.bw y) :=
  snd_call fun _ h => h
theorem snd_selF (b : Wire Bool) (x y : Wire (ZMod p)) :
    Snd L e (sel fa b x y : Tr p G _) fun a => e.fw a = select (e.bw b) (e.fw x) (e.fw y) := snd_call fun _ h => h
theorem snd_selP (b : Wire Bool) (x y : Wire G) :
    Snd L e (sel pa b x y : Tr p G _) fun a => e.pw a = select (e.bw b) (e.pw x) (e.pw y) := snd_call fun _ h => h
theorem snd_hash (l : List (Wire (ZMod p))) :
    Snd L e (hash L.crh l : Tr p G _) fun a => e.fw a = L.crh (l.map e.fw) := snd_call fun n h => by
  obtain ⟨xs, h1, h2⟩ := h
  rw [refs_map field_inj h1, List.map_map] at h2
  exact h2
theorem snd_two (x y : Wire (ZMod p)) : Snd L e (two L.h2 x y : Tr p G _) fun a => e.fw a = L.h2 (e.fw x) (e.fw y) :=
  snd_call fun _ h => h
theorem snd_toBytes (x : Wire (ZMod p)) : Snd L e (toBytes x : Tr p G _) fun a => a.map e.yw = fBytesVar (e.fw x) :=
  snd_callN fun n h => (wiresFrom_read _ _ _).trans h
theorem snd_toByteChunks (l : List (Wire Bool)) :
    Snd L e (toByteChunks l : Tr p G _) fun a => a.map e.yw = bytesOfBits (l.map e.bw) := snd_callN fun n h => by
  obtain ⟨xs, h1, h2⟩ := h
  rw [refs_map bool_inj h1, List.map_map] at h2
  exact (wiresFrom_read _ _ _).trans h2
theorem snd_digest (l : List (Wire Byte)) :
    Snd L e (digest L.sha l : Tr p G _) fun a => a.map e.yw = L.sha.digest (l.map e.yw) := snd_callN fun n h => by
  obtain ⟨xs, h1, h2⟩ := h
  rw [refs_map byte_inj h1, List.map_map] at h2
  exact (wiresFrom_read _ _ _).trans h2
theorem snd_packBytes (l : List (Wire Byte)) :
    Snd L e (packBytes l : Tr p G _) fun a => e.fw a = packVar p (l.map e.yw) := snd_call fun n h => by
  obtain ⟨xs, h1, h2⟩ := h
  rw [refs_map byte_inj h1, List.map_map] at h2
  exact h2
theorem snd_shaField (l : List (Wire Byte)) :
    Snd L e (shaField L.sha l : Tr p G _) fun a => e.fw a = shaFieldVar p L.sha (l.map e.yw) := by
  refine snd_bind (snd_digest l) fun d hd => snd_weaken (snd_packBytes _) fun a ha => ?_
  rw [ha, List.map_take, hd]
  rfl
theorem snd_coords (x : Wire G) : Snd L e (coords L.cv x) fun a => a.map e.fw = pkEncVar L.cv (e.pw x) :=
  snd_callN fun n h => (wiresFrom_read _ _ _).trans h
theorem snd_pointBytes (x : Wire G) : Snd L e (pointBytes L.cv x) fun a => a.map e.yw = pkBytesVar L.cv (e.pw x) :=
  snd_callN fun n h => (wiresFrom_read _ _ _).trans h
theorem snd_scalarMul (x : Wire G) (l : List (Wire Bool)) :
    Snd L e (scalarMul x l) fun a => e.pw a = bitsVal (l.map e.bw) • e.pw x := snd_call fun n h => by
  obtain ⟨xs, h1, h2⟩ := h
  rw [refs_map bool_inj h1, List.map_map] at h2
  exact h2
theorem snd_pointAdd (x y : Wire G) : Snd L e (pointAdd x y : Tr p G _) fun a => e.pw a = e.pw x + e.pw y :=
  snd_call fun _ h => h

theorem snd_toNBits (x : Wire (ZMod p)) (n : Nat) :
    Snd L e (toNBits x n : Tr p G _) fun a => Circuit.toNBits (e.fw x) n (a.map e.bw) := by
  refine snd_bind (snd_allocBs _) fun bits hb => ?_
  refine snd_bind (R := fun _ => Circuit.toNBits (e.fw x) n (bits.map e.bw)) (snd_constrain fun m h => ?_) fun _ h => snd_pure h
  obtain ⟨xs, y, h1, h2, h3⟩ := h
  have h4 := List.append_inj' h1 rfl
  have h5 := refs_map bool_inj h4.1
  have h6 : (x.ref : Ref (ZMod p)) = y := by
    have := h4.2
    simpa [fa] using this
  rw [natBits_length] at hb
  subst h5
  rw [List.map_map, List.length_map] at h2
  rw [List.map_map, ← h6] at h3
  exact ⟨by rw [List.length_map, hb], fun hp => h2 (by rw [hb]; exact hp), h3⟩

theorem snd_isLess (x y : Wire (ZMod p)) :
    Snd L e (isLess x y : Tr p G _) fun a => Circuit.isLess (e.fw x) (e.fw y) (e.bw a) := by
  refine snd_bind (R := fun _ => cmpRange (e.fw x) (e.fw y)) (snd_constrain fun n h => ?_) fun _ h1 => snd_call fun n h => ?_
  · exact h
  · exact ⟨h1, h⟩

theorem snd_enforceLe (x y : Wire (ZMod p)) :
    Snd L e (enforceLe x y : Tr p G _) fun _ => Circuit.enforceLe (e.fw x) (e.fw y) := snd_constrain fun _ h => h

/-! ## Comparison and signatures -/

theorem snd_ltLoop (bs : List (Wire Bool)) (ds : List (Wire (ZMod p))) (c r : Wire (ZMod p)) :
    Snd L e (ltLoop bs ds c r : Tr p G _) fun a => ∀ k : ZMod p → ZMod p → Prop, k (e.fw a.1) (e.fw a.2) →
      Schnorr.ltLoop (bs.map e.bw) (ds.map e.fw) (e.fw c) (e.fw r) k := by
  induction bs generalizing ds c r with
  | nil => cases ds <;> exact snd_pure fun k h => h
  | cons b bs ih =>
    cases ds with
    | nil => exact snd_pure fun k h => h
    | cons d ds =>
      refine snd_bind (snd_selF _ _ _) fun t ht => snd_bind (snd_add _ _) fun c1 hc => snd_bind (snd_mul _ _) fun m hm =>
        snd_bind (snd_enforceEq _ _) fun _ h0 => snd_bind (snd_toField _) fun f hf => snd_bind (snd_add _ _) fun r1 hr =>
        snd_weaken (ih ds c1 r1) fun a ha k hk => ?_
      have := ha k hk
      refine ⟨?_, ?_⟩
      · rw [← hm]; exact h0
      · rw [hc, ht, hr, hf] at this
        exact this

theorem getD_read {l : List (Wire α)} (v : Wire α → β) (i : Nat) (d : Wire α) :
    v (l.getD i d) = (l.map v).getD i (v d) := by
  simp [List.getD_eq_getElem?_getD, List.getElem?_map, Option.getD_map]

theorem snd_enforceLt (W : Nat) (x y : List (Wire Bool)) :
    Snd L e (enforceLt W x y : Tr p G _) fun _ => Schnorr.enforceLt p W (x.map e.bw) (y.map e.bw) := by
  have hch : ∀ l : List (Wire Bool), Snd L e (each packBits (Schnorr.chunks (W - 1) l) : Tr p G _) fun xs =>
      xs.map e.fw = Schnorr.chunkVals p W (l.map e.bw) := by
    intro l
    unfold Schnorr.chunkVals
    rw [chunks_map, List.map_map]
    exact snd_each_map (fun a => snd_packBits a) _
  refine snd_bind (hch x) fun xs hxs => snd_bind (hch y) fun ys hys => ?_
  have lx : xs.length = (Schnorr.chunkVals p W (x.map e.bw)).length := by rw [← hxs, List.length_map]
  have ly : ys.length = (Schnorr.chunkVals p W (y.map e.bw)).length := by rw [← hys, List.length_map]
  unfold Schnorr.enforceLt
  generalize Schnorr.chunkVals p W (x.map e.bw) = X at *
  generalize Schnorr.chunkVals p W (y.map e.bw) = Y at *
  have hg : ∀ i : Nat, e.fw (xs.getD i (.const 0)) = X.getD i 0 := fun i => by rw [getD_read e.fw, hxs]; rfl
  have hg' : ∀ i : Nat, e.fw (ys.getD i (.const 0)) = Y.getD i 0 := fun i => by rw [getD_read e.fw, hys]; rfl
  rw [lx, ly]
  refine snd_bind (R := fun ds => ds.map e.fw = Schnorr.deltas X Y) (snd_each_map (fun i => ?_) _) fun ds hds => ?_
  · exact snd_weaken (snd_sub _ _) fun a ha => by rw [ha, hg, hg']
  refine snd_bind (snd_allocBs _) fun hl hh => ?_
  refine snd_bind (snd_ltLoop hl ds _ _) fun cr hcr => ?_
  obtain ⟨c, r⟩ := cr
  refine snd_bind (snd_sub _ _) fun c1 hc1 => snd_bind (snd_allocBs _) fun bits hbits => snd_bind (snd_packBits _) fun v hv =>
    snd_bind (snd_enforceEq _ _) fun _ h1 => snd_weaken (snd_enforceEq _ _) fun _ h2 => ?_
  refine ⟨hl.map e.bw, bits.map e.bw, ?_, by rw [List.length_map, hbits, natBits_length], ?_⟩
  · have : ds.length = (List.range (max X.length Y.length)).length := by
      have := congrArg List.length hds
      simpa [Schnorr.deltas] using this
    rw [List.length_map, hh, ← hds, List.length_map, this, ltHelper_length, List.length_map]
  · rw [← hds]
    refine hcr _ ⟨?_, h2⟩
    rw [← hv, h1, hc1]
    rfl

theorem snd_isValid (W : Nat) (pk : Wire G) (m : List (Wire (ZMod p))) (s c : List (Wire Bool)) :
    Snd L e (isValid W L.cv L.crh pk m s c) fun a =>
      Schnorr.isValidGadget W L.cv L.crh (e.pw pk) (m.map e.fw) (s.map e.bw) (c.map e.bw) (e.bw a) := by
  refine snd_bind (snd_scalarMul _ _) fun r1 h1 => snd_bind (snd_scalarMul _ _) fun r2 h2 =>
    snd_bind (snd_pointAdd _ _) fun r hr => snd_bind (snd_coords _) fun xy hxy => snd_bind (snd_hash _) fun h hh =>
    snd_bind (snd_toBits _) fun hb hhb => ?_
  have hch : (hb.take (modBits q)).map e.bw =
      Schnorr.challengeBits L.cv L.crh (e.pw pk) (m.map e.fw) (s.map e.bw) (c.map e.bw) := by
    rw [List.map_take, hhb, hh, List.map_append, List.map_dropLast, hxy, hr, h1, h2]
    rfl
  refine snd_bind (snd_enforceLt W _ _) fun _ hlt => ?_
  rw [hch, List.map_map, show (e.bw ∘ Wire.const) = (id : Bool → Bool) from rfl, List.map_id] at hlt
  unfold Schnorr.isValidGadget
  rw [← hch] at hlt ⊢
  generalize hb.take (modBits q) = hb1 at *
  cases g1 : hb1[modBits q - 1]? with
  | none => exact snd_panic
  | some x =>
    cases g2 : c[modBits q - 1]? with
    | none => exact snd_panic
    | some y =>
      refine snd_bind (snd_packBits _) fun a ha => snd_bind (snd_packBits _) fun b hb => snd_bind (snd_isEqF _ _) fun eq heq =>
        snd_bind (snd_isEqB _ _) fun l hl => snd_weaken (snd_band _ _) fun o ho => ⟨hlt, ?_⟩
      rw [ho, heq, hl, ha, hb, List.getElem?_map, List.getElem?_map, g1, g2]
      simp only [Option.map_some, Option.some.injEq, List.map_take]

/-! ## Data -/

/-- The UTXO an assignment gives. -/
def UtxoW.read (e : Assignment p G) (u : UtxoW p G) : UTXO (ZMod p) G := ⟨e.fw u.amount, e.pw u.pk, e.bw u.isDummy⟩
/-- The transaction an assignment gives. -/
def TxReads (e : Assignment p G) (t : TxW p G) (v : Tx (ZMod p) G) : Prop :=
  t.inputs.map (UtxoW.read e) = v.inputs.toList ∧ t.outputs.map (UtxoW.read e) = v.outputs.toList

theorem snd_allocUtxo (u : UTXO (ZMod p) G) : Snd L e (allocUtxo u) fun _ => True :=
  snd_bind (snd_allocF _) fun _ _ => snd_bind (snd_allocP _) fun _ _ => snd_bind (snd_allocB _) fun _ _ => snd_pure trivial

theorem snd_each_length {k : α → Tr p G β} (hk : ∀ a, Snd L e (k a) fun _ => True) (l : List α) :
    Snd L e (each k l) fun bs => bs.length = l.length := by
  induction l with
  | nil => exact snd_pure rfl
  | cons a l ih =>
    exact snd_bind (hk a) fun b hb => snd_bind ih fun bs hbs => snd_pure (by simp [hbs])

theorem tx_reads (t : TxW p G) (h1 : t.inputs.length = TX_IO_SIZE) (h2 : t.outputs.length = TX_IO_SIZE) :
    ∃ v, TxReads e t v :=
  ⟨⟨⟨(t.inputs.map (UtxoW.read e)).toArray, by simp [h1]⟩, ⟨(t.outputs.map (UtxoW.read e)).toArray, by simp [h2]⟩⟩,
    by simp [Vector.toList], by simp [Vector.toList]⟩

theorem snd_allocTx (t : Tx (ZMod p) G) : Snd L e (allocTx t) fun a => ∃ v, TxReads e a v :=
  snd_bind (snd_each_length snd_allocUtxo _) fun _ h1 => snd_bind (snd_each_length snd_allocUtxo _) fun _ h2 =>
    snd_pure (tx_reads _ (by rw [h1]; simp) (by rw [h2]; simp))

theorem constUtxo_read (u : UTXO (ZMod p) G) : (constUtxo u).read e = u := rfl

theorem constTx_reads (t : Tx (ZMod p) G) : TxReads e (constTx t) t := by
  constructor <;> simp [constTx, Function.comp_def, constUtxo_read]

theorem snd_utxoFields (u : UtxoW p G) :
    Snd L e (utxoFields L.cv u) fun a => a.map e.fw = utxoEncVar L.cv (u.read e) :=
  snd_bind (snd_toField _) fun _ h1 => snd_bind (snd_coords _) fun _ h2 => snd_pure (by
    rw [List.map_cons, List.map_cons, h1, h2]; rfl)

theorem snd_txFields {t : TxW p G} {v : Tx (ZMod p) G} (h : TxReads e t v) :
    Snd L e (txFields L.cv t) fun a => a.map e.fw = txEncVar L.cv v := by
  refine snd_bind (snd_each_map (v := List.map e.fw) snd_utxoFields _) fun l hl => snd_pure ?_
  rw [List.map_flatten, hl]
  unfold txEncVar Tx.ios
  rw [← h.1, ← h.2, ← List.map_append, List.flatMap_def, List.map_map]
  rfl

theorem snd_utxoHash (u : UtxoW p G) (v : UTXO (ZMod p) G) (h : u.read e = v) :
    Snd L e (utxoHash L.cv L.crh u) fun a => e.fw a = utxoVarCRH L.cv L.crh v := by
  subst h
  exact snd_bind (snd_utxoFields u) fun l hl => snd_weaken (snd_hash _) fun a ha => by rw [ha, hl]; rfl

theorem snd_txHash (t : TxW p G) (v : Tx (ZMod p) G) (h : TxReads e t v) :
    Snd L e (txHash L.cv L.crh t) fun a => e.fw a = txVarCRH L.cv L.crh v :=
  snd_bind (snd_txFields h) fun l hl => snd_weaken (snd_hash _) fun a ha => by rw [ha, hl]; rfl

theorem snd_pkHash (t : Wire G) (v : G) (h : e.pw t = v) :
    Snd L e (pkHash L.cv L.crh t) fun a => e.fw a = pkVarCRH L.cv L.crh v := by
  subst h
  exact snd_bind (snd_coords t) fun l hl => snd_weaken (snd_hash _) fun a ha => by rw [ha, hl]; rfl

/-! ## Trees -/

/-- The values of a pair. -/
def Assignment.fw2 (e : Assignment p G) (x : Wire (ZMod p) × Wire (ZMod p)) : ZMod p × ZMod p := (e.fw x.1, e.fw x.2)

theorem snd_updateLoop (l : List (Wire (ZMod p))) (bs : List (Wire Bool)) (o n : Wire (ZMod p)) :
    Snd L e (updateLoop L.h2 l bs o n : Tr p G _) fun a =>
      e.fw2 a = MT.updateRootLoop L.h2 (l.map e.fw) (bs.map e.bw) (e.fw o) (e.fw n) := by
  induction l generalizing bs o n with
  | nil => cases bs <;> exact snd_pure rfl
  | cons a l ih =>
    cases bs with
    | nil => exact snd_pure rfl
    | cons b bs =>
      refine snd_bind (snd_selF _ _ _) fun ol h1 => snd_bind (snd_add _ _) fun t h2 => snd_bind (snd_sub _ _) fun or h3 =>
        snd_bind (snd_selF _ _ _) fun nl h4 => snd_bind (snd_add _ _) fun t' h5 => snd_bind (snd_sub _ _) fun nr h6 =>
        snd_bind (snd_two _ _) fun o1 h7 => snd_bind (snd_two _ _) fun n1 h8 =>
        snd_weaken (ih bs o1 n1) fun r hr => ?_
      rw [hr, h7, h8, h6, h5, h4, h3, h2, h1]
      rfl

theorem snd_updateRoot {Lf Lf' : Type} {LR : Lf → Lf' → Prop} (cfg : MT.Config Lf' (ZMod p)) (h2 : cfg.h2 = L.h2)
    {leafHash : Lf → Tr p G (Wire (ZMod p))} (hh : ∀ a b, LR a b → Snd L e (leafHash a) fun w => e.fw w = cfg.leafHash b)
    {l : List (Wire (ZMod p))} {o n : Lf} {o' n' : Lf'} {i : Wire (ZMod p)} (ho : LR o o') (hn : LR n n') :
    Snd L e (updateRoot leafHash L.h2 cfg.height l o n i) fun a => (l.map e.fw).length = cfg.height - 1 ∧
      e.fw2 a = MT.updateRoot cfg (l.map e.fw) o' n' (e.fw i) := by
  refine snd_bind (snd_assert _) fun _ h0 => snd_bind (hh o o' ho) fun a ha => snd_bind (hh n n' hn) fun b hb =>
    snd_bind (snd_toBits _) fun bits hbits => snd_weaken (snd_updateLoop _ _ _ _) fun r hr => ⟨?_, ?_⟩
  · rw [List.length_map]; exact of_decide_eq_true h0
  · rw [hr, hbits, ha, hb]
    unfold MT.updateRoot
    rw [h2]

theorem snd_condUpdate {Lf Lf' : Type} {LR : Lf → Lf' → Prop} (cfg : MT.Config Lf' (ZMod p)) (h2 : cfg.h2 = L.h2)
    {leafHash : Lf → Tr p G (Wire (ZMod p))} (hh : ∀ a b, LR a b → Snd L e (leafHash a) fun w => e.fw w = cfg.leafHash b)
    {on : Wire Bool} {l : List (Wire (ZMod p))} {o n : Lf} {o' n' : Lf'} {i r : Wire (ZMod p)} (ho : LR o o') (hn : LR n n') :
    Snd L e (condUpdate leafHash L.h2 cfg.height on i l o n r) fun a =>
      AggC.condUpdate cfg (e.bw on) (e.fw i) (l.map e.fw) o' n' (e.fw r) (e.fw a) := by
  refine snd_bind (snd_updateRoot cfg h2 hh ho hn) fun u hu => snd_bind (snd_condF _ _ _) fun _ hc =>
    snd_weaken (snd_selF _ _ _) fun a ha => ⟨hu.1, ?_, ?_⟩
  · rw [← hu.2]; exact hc
  · rw [← hu.2]; exact ha

theorem snd_memLoop (on : Wire Bool) (root : ZMod p) (path : List (Wire (ZMod p) × Wire (ZMod p))) (prev : Wire (ZMod p)) :
    Snd L e (memLoop L.h2 on path prev : Tr p G _) fun a => condEq (e.bw on) root (e.fw a) →
      MT.memGadgetLoop L.h2 (e.bw on) root (path.map e.fw2) (e.fw prev) := by
  induction path generalizing prev with
  | nil => exact snd_pure fun h => h
  | cons x path ih =>
    obtain ⟨l, r⟩ := x
    refine snd_bind (snd_allocB _) fun b _ => snd_bind (snd_selF _ _ _) fun x hx => snd_bind (snd_condF _ _ _) fun _ hc =>
      snd_bind (snd_two _ _) fun h hh => snd_weaken (ih h) fun a ha hroot => ⟨⟨e.bw b, ?_⟩, ?_⟩
    · rw [hx] at hc; exact hc
    · have := ha hroot
      rw [hh] at this
      exact this

theorem snd_checkMembership {Lf Lf' : Type} {LR : Lf → Lf' → Prop} (cfg : MT.Config Lf' (ZMod p)) (h2 : cfg.h2 = L.h2)
    {leafHash : Lf → Tr p G (Wire (ZMod p))} (hh : ∀ a b, LR a b → Snd L e (leafHash a) fun w => e.fw w = cfg.leafHash b)
    (path : List (Wire (ZMod p) × Wire (ZMod p))) (root : Wire (ZMod p)) (leaf : Lf) (leaf' : Lf') (on : Wire Bool)
    (hl : LR leaf leaf') :
    Snd L e (checkMembership leafHash L.h2 cfg.height path root leaf on) fun _ =>
      MT.condCheckMembership cfg (path.map e.fw2) (e.fw root) leaf' (e.bw on) := by
  refine snd_bind (snd_assert _) fun _ h0 => snd_bind (hh _ _ hl) fun lh hlh => ?_
  cases path with
  | nil => exact snd_panic
  | cons x path =>
    obtain ⟨l, r⟩ := x
    refine snd_bind (snd_allocB _) fun b _ => snd_bind (snd_selF _ _ _) fun x hx => snd_bind (snd_condF _ _ _) fun _ hc =>
      snd_bind (snd_memLoop on (e.fw root) _ _) fun prev hprev => snd_weaken (snd_condF _ _ _) fun _ hroot => ⟨?_, ?_, ?_⟩
    · rw [List.length_map]; exact of_decide_eq_true h0
    · refine ⟨_, _, _, rfl, e.bw b, ?_⟩
      rw [← hlh, ← hx]
      exact hc
    · rw [h2, ← hlh]
      exact hprev hroot

theorem snd_memIdxLoop (on : Wire Bool) (root : ZMod p) (path : List (Wire (ZMod p) × Wire (ZMod p)))
    (bits : List (Wire Bool)) (prev : Wire (ZMod p)) :
    Snd L e (memIdxLoop L.h2 on path bits prev : Tr p G _) fun a => condEq (e.bw on) root (e.fw a) →
      MT.memIdxGadgetLoop L.h2 (e.bw on) root (path.map e.fw2) (bits.map e.bw) (e.fw prev) := by
  induction path generalizing prev bits with
  | nil => exact snd_pure fun h => h
  | cons x path ih =>
    obtain ⟨l, r⟩ := x
    cases bits with
    | nil => exact snd_panic
    | cons bit bits =>
      refine snd_bind (snd_bnot _) fun b hb => snd_bind (snd_selF _ _ _) fun x hx => snd_bind (snd_condF _ _ _) fun _ hc =>
        snd_bind (snd_two _ _) fun h hh => snd_weaken (ih bits h) fun a ha hroot => ⟨?_, ?_⟩
      · rw [hx, hb] at hc; exact hc
      · have := ha hroot
        rw [hh] at this
        exact this

theorem snd_checkMembershipIdx {Lf Lf' : Type} {LR : Lf → Lf' → Prop} (cfg : MT.Config Lf' (ZMod p)) (h2 : cfg.h2 = L.h2)
    {leafHash : Lf → Tr p G (Wire (ZMod p))} (hh : ∀ a b, LR a b → Snd L e (leafHash a) fun w => e.fw w = cfg.leafHash b)
    (path : List (Wire (ZMod p) × Wire (ZMod p))) (root : Wire (ZMod p)) (leaf : Lf) (leaf' : Lf') (index : Wire (ZMod p))
    (on : Wire Bool) (hl : LR leaf leaf') :
    Snd L e (checkMembershipIdx leafHash L.h2 cfg.height path root leaf index on) fun _ =>
      MT.condCheckMembershipIdx cfg (path.map e.fw2) (e.fw root) leaf' (e.fw index) (e.bw on) := by
  refine snd_bind (snd_assert _) fun _ h0 => snd_bind (hh _ _ hl) fun lh hlh => snd_bind (snd_toBits _) fun bits hbits =>
    snd_bind (snd_memIdxLoop on (e.fw root) _ _ _) fun prev hprev => snd_weaken (snd_condF _ _ _) fun _ hroot => ⟨?_, ?_⟩
  · rw [List.length_map]; exact of_decide_eq_true h0
  · rw [h2, ← hlh, ← hbits]
    exact hprev hroot

/-! ## Aggregator -/

variable [DecidableEq G]

theorem snd_ownerLoop (sender : Wire G) (us : List (UtxoW p G)) :
    Snd L e (ownerLoop sender us) fun _ => ∀ i ∈ us.map (UtxoW.read e), condEq (!i.isDummy) i.pk (e.pw sender) := by
  induction us with
  | nil => exact snd_pure fun i hi => by simp at hi
  | cons u us ih =>
    refine snd_bind (snd_bnot _) fun nd hnd => snd_bind (snd_condP _ _ _) fun _ hc => snd_weaken ih fun _ h i hi => ?_
    rcases List.mem_cons.1 (List.map_cons ▸ hi) with rfl | hi
    · rw [hnd] at hc; exact hc
    · exact h i hi

theorem snd_sumLoop {op : Wire (ZMod p) → Wire (ZMod p) → Tr p G (Wire (ZMod p))} {f : ZMod p → ZMod p → ZMod p}
    (hop : ∀ x y, Snd L e (op x y) fun a => e.fw a = f (e.fw x) (e.fw y)) (us : List (UtxoW p G)) (s : Wire (ZMod p)) :
    Snd L e (sumLoop op us s) fun a =>
      e.fw a = (us.map (UtxoW.read e)).foldl (fun s i => f s (select i.isDummy 0 i.amount)) (e.fw s) := by
  induction us generalizing s with
  | nil => exact snd_pure rfl
  | cons u us ih =>
    refine snd_bind (snd_selF _ _ _) fun x hx => snd_bind (hop _ _) fun s1 hs => snd_weaken (ih s1) fun a ha => ?_
    rw [ha, hs, hx]
    rfl

theorem snd_enforceValid {t : TxW p G} {v : Tx (ZMod p) G} (h : TxReads e t v) (sender : Wire G) :
    Snd L e (enforceValid t sender) fun _ => v.enforceValid (e.pw sender) := by
  refine snd_bind (snd_ownerLoop _ _) fun _ h1 => snd_bind (snd_sumLoop (f := fun x y => x + y) snd_add _ _) fun s hs =>
    snd_bind (snd_sumLoop (f := fun x y => x - y) snd_sub _ _) fun s' hs' => snd_weaken (snd_enforceEq _ _) fun _ h0 => ⟨?_, ?_⟩
  · rw [← h.1]; exact h1
  · show (_ : ZMod p) = 0
    rw [← h.1, ← h.2]
    rw [hs', hs] at h0
    exact h0

/-- The inputs of one transaction an assignment gives. -/
structure InReads (e : Assignment p G) (w : InputsW p G) (i : AggC.CInputs p G) : Prop where
  tx : TxReads e w.tx i.tx
  txProof : w.txProof.map e.fw = i.txProof
  dels : w.dels.map (fun d => (e.fw d.1, d.2.map e.fw)) = i.dels
  adds : w.adds.map (fun d => (e.fw d.1, d.2.map e.fw)) = i.adds
  signerProof : w.signerProof.map e.fw = i.signerProof
  senderPk : e.pw w.senderPk = i.senderPk
  sigS : w.sigS.map e.bw = i.sigS
  sigE : w.sigE.map e.bw = i.sigE

theorem snd_true {m : Tr p G α} : Snd L e m fun _ => True := fun _ _ _ _ _ => trivial

theorem snd_allocInputs (i : AggC.CInputs p G) : Snd L e (allocInputs i) fun a => ∃ i', InReads e a i' := by
  refine snd_bind (snd_allocTx _) fun t ht => snd_bind snd_true fun _ _ => snd_bind snd_true fun _ _ =>
    snd_bind snd_true fun _ _ => snd_bind snd_true fun _ _ => snd_bind snd_true fun _ _ => snd_bind snd_true fun _ _ =>
    snd_bind snd_true fun _ _ => snd_bind snd_true fun _ _ => snd_bind snd_true fun _ _ => snd_pure ?_
  obtain ⟨v, hv⟩ := ht
  exact ⟨⟨v, _, _, _, _, _, _, _⟩, hv, rfl, rfl, rfl, rfl, rfl, rfl, rfl⟩

/-- The state an assignment gives. -/
def StateW.read (e : Assignment p G) (z : StateW p) : AggC.CState p :=
  { step := e.fw z.step, utxoRoot := e.fw z.utxoRoot, txRoot := e.fw z.txRoot, txRootFinal := e.fw z.txRootFinal,
    signerRoot := e.fw z.signerRoot, signerAcc := e.fw z.signerAcc, depositAcc := e.fw z.depositAcc,
    withdrawalAcc := e.fw z.withdrawalAcc }

variable {P : AggC.Params p G} {cv : Curve p q G}

theorem snd_delLoop (hL : ForAgg L P cv) (sigOk : Wire Bool) (us : List (UtxoW p G))
    (ds : List (Wire (ZMod p) × List (Wire (ZMod p)))) (r : Wire (ZMod p)) :
    Snd L e (delLoop cv P.hs sigOk us ds r) fun a =>
      AggC.delLoop cv P.hs (e.bw sigOk) (us.map (UtxoW.read e)) (ds.map fun d => (e.fw d.1, d.2.map e.fw)) (e.fw r) (e.fw a) := by
  induction us generalizing ds r with
  | nil => cases ds with
    | nil => exact snd_pure rfl
    | cons _ _ => exact snd_panic
  | cons u us ih => cases ds with
    | nil => exact snd_panic
    | cons d ds =>
      refine snd_bind (snd_bnot _) fun nd h1 => snd_bind (snd_band _ _) fun on h2 => ?_
      have := snd_condUpdate (L := L) (e := e) (LR := fun u v => UtxoW.read e u = v) (utxoTreeCfgVar cv P.hs) hL.h2
        (leafHash := utxoHash L.cv L.crh) (fun a b h => by
          show Snd L e _ fun w => e.fw w = utxoVarCRH cv P.hs.crh b
          rw [hL.cv, hL.crh]
          exact snd_utxoHash a b h) (on := on) (l := d.2) (i := d.1) (r := r) (o := u) (n := constUtxo UTXO.dummy) rfl rfl
      rw [← hL.cv, ← hL.crh, ← hL.h2] at this
      refine snd_bind this fun r1 hr => snd_weaken (ih ds r1) fun a ha => ⟨_, ?_, ha⟩
      rw [h2, h1] at hr
      exact hr

theorem snd_depositStep (hL : ForAgg L P cv) (c : Wire Bool) (u : UtxoW p G) (dep : Wire (ZMod p)) :
    Snd L e (depositStep P cv c u dep) fun a => AggC.depositStep P cv (e.bw c) (u.read e) (e.fw dep) (e.fw a) := by
  unfold depositStep AggC.depositStep
  split
  · exact snd_pure rfl
  · rw [hL.cv, hL.sha]
    refine snd_bind (snd_toBytes _) fun b1 h1 => snd_bind (snd_pointBytes _) fun b2 h2 => snd_bind (snd_toNBits _ _) fun bits hb =>
      snd_bind (snd_toByteChunks _) fun b3 h3 => snd_bind (snd_bnot _) fun nd h4 => snd_bind (snd_band _ _) fun on h5 =>
      snd_bind (snd_shaField _) fun f hf => snd_weaken (snd_selF _ _ _) fun a ha => ⟨_, hb, ?_⟩
    rw [ha, hf, h5, h4, List.map_append, List.map_append, h1, h2, h3]
    rfl

theorem snd_addLoop (hL : ForAgg L P cv) (c ok : Wire Bool) (us : List (UtxoW p G))
    (as : List (Wire (ZMod p) × List (Wire (ZMod p)))) (dep w r : Wire (ZMod p)) :
    Snd L e (addLoop P cv c ok us as dep w r) fun a =>
      AggC.addLoop P cv (e.bw c) (e.bw ok) (us.map (UtxoW.read e)) (as.map fun d => (e.fw d.1, d.2.map e.fw)) (e.fw dep) (e.fw w)
        (e.fw r) (e.fw a.1) (e.fw a.2.1) (e.fw a.2.2) := by
  induction us generalizing as dep w r with
  | nil => cases as with
    | nil => exact snd_pure ⟨rfl, rfl, rfl⟩
    | cons _ _ => exact snd_panic
  | cons u us ih => cases as with
    | nil => exact snd_panic
    | cons d as =>
      refine snd_bind (snd_isEqP _ _) fun rc h1 => snd_bind (snd_depositStep hL _ _ _) fun dep1 h2 =>
        snd_bind (snd_bnot _) fun nd h3 => snd_bind (snd_band _ _) fun isW h4 => snd_bind (snd_selF _ _ _) fun x h5 =>
        snd_bind (snd_add _ _) fun w1 h6 => snd_bind (snd_bnot _) fun nrc h7 => snd_bind (snd_band _ _) fun on1 h8 =>
        snd_bind (snd_bnot _) fun nd' h9 => snd_bind (snd_band _ _) fun on h10 => ?_
      have := snd_condUpdate (L := L) (e := e) (LR := fun u v => UtxoW.read e u = v) (utxoTreeCfgVar cv P.hs) hL.h2
        (leafHash := utxoHash L.cv L.crh) (fun a b h => by
          show Snd L e _ fun w => e.fw w = utxoVarCRH cv P.hs.crh b
          rw [hL.cv, hL.crh]
          exact snd_utxoHash a b h) (on := on) (l := d.2) (i := d.1) (r := r) (o := constUtxo UTXO.dummy) (n := u) rfl rfl
      rw [← hL.cv, ← hL.crh, ← hL.h2] at this
      refine snd_bind this fun r1 hr => snd_weaken (ih as dep1 w1 r1) fun a ha => ⟨e.fw dep1, e.fw r1, h2, ?_, ?_⟩
      · rw [h10, h9, h8, h7, h1] at hr
        exact hr
      · rw [h6, h5, h4, h3, h1] at ha
        exact ha

theorem snd_withdrawalStep (hL : ForAgg L P cv) (pk : Wire G) (w acc : Wire (ZMod p)) :
    Snd L e (withdrawalStep P cv pk w acc) fun a => AggC.withdrawalStep P cv (e.pw pk) (e.fw w) (e.fw acc) (e.fw a) := by
  unfold withdrawalStep AggC.withdrawalStep
  split
  · exact snd_pure rfl
  · rw [hL.cv, hL.sha]
    refine snd_bind (snd_toBytes _) fun b1 h1 => snd_bind (snd_pointBytes _) fun b2 h2 => snd_bind (snd_toNBits _ _) fun bits hb =>
      snd_bind (snd_toByteChunks _) fun b3 h3 => snd_bind (snd_isZero _) fun z h4 =>
      snd_bind (snd_shaField _) fun f hf => snd_weaken (snd_selF _ _ _) fun a ha => ⟨_, hb, ?_⟩
    rw [ha, hf, h4, List.map_append, List.map_append, h1, h2, h3]

theorem snd_stepOne (hL : ForAgg L P cv) (z : StateW p) (i : InputsW p G) (v : AggC.CInputs p G) (hi : InReads e i v) :
    Snd L e (stepOne P cv z i) fun a => AggC.stepOne P cv (z.read e) v (a.read e) := by
  refine snd_bind (snd_assert _) fun _ h0 => ?_
  have h0 := of_decide_eq_true h0
  refine snd_bind (snd_enforceValid hi.tx _) fun _ h1 => ?_
  have ht := snd_updateRoot (L := L) (e := e) (LR := TxReads e) (txTreeCfgVar cv P.hs) hL.h2
    (leafHash := txHash L.cv L.crh) (fun a b h => by
      show Snd L e _ fun w => e.fw w = txVarCRH cv P.hs.crh b
      rw [hL.cv, hL.crh]
      exact snd_txHash a b h) (l := i.txProof) (i := z.step) (constTx_reads Tx.default) hi.tx
  have hs := snd_updateRoot (L := L) (e := e) (LR := fun w v => e.pw w = v) (signerTreeCfgVar cv P.hs) hL.h2
    (leafHash := pkHash L.cv L.crh) (fun a b h => by
      show Snd L e _ fun w => e.fw w = pkVarCRH cv P.hs.crh b
      rw [hL.cv, hL.crh]
      exact snd_pkHash a b h) (l := i.signerProof) (i := z.step) (o := .const 0) (n := i.senderPk) rfl rfl
  rw [← hL.cv, ← hL.crh, ← hL.h2] at ht hs
  refine snd_bind ht fun u hu => snd_bind (snd_enforceEq _ _) fun _ h2 => ?_
  have hm := snd_txFields (L := L) hi.tx
  rw [← hL.cv] at hm
  refine snd_bind hm fun m hm => ?_
  have hv := snd_isValid (L := L) (e := e) 32 i.senderPk (m ++ [z.txRootFinal]) i.sigS i.sigE
  rw [← hL.cv, ← hL.crh] at hv
  refine snd_bind hv fun sigOk hsig => snd_bind (snd_isEqP _ _) fun isC h3 => snd_bind (snd_bor _ _) fun txOk h4 =>
    snd_bind (snd_delLoop hL _ _ _ _) fun r1 h5 => snd_bind (snd_addLoop hL _ _ _ _ _ _ _) fun dwr h6 => ?_
  obtain ⟨dep, w, r2⟩ := dwr
  refine snd_bind hs fun s hs => snd_bind (snd_condF _ _ _) fun _ h7 => snd_bind (snd_selF _ _ _) fun sr h8 =>
    snd_bind (snd_toBytes _) fun b1 h9 => snd_bind (snd_selP _ _ _) fun k h10 => ?_
  have hb2 := snd_pointBytes (L := L) (e := e) k
  have hf : ∀ l, _ := fun l => snd_shaField (L := L) (e := e) l
  rw [← hL.cv] at hb2
  rw [← hL.sha] at hf
  refine snd_bind hb2 fun b2 h11 => snd_bind (hf _) fun sa h12 => snd_bind (snd_withdrawalStep hL _ _ _) fun wa h13 =>
    snd_bind (snd_add _ _) fun st h14 => snd_pure ?_
  have e3 : e.bw isC = decide (v.senderPk = P.contract) := by rw [h3, hi.senderPk]; rfl
  have e4 : e.bw txOk = (e.bw sigOk || decide (v.senderPk = P.contract)) := by rw [h4, e3]
  refine ⟨?_, ?_, ?_, ⟨?_, ?_, ?_⟩, e.bw sigOk, e.fw r1, e.fw w, ?_, ?_, ?_, ⟨?_, ?_, ?_⟩, ?_, ?_, ?_, ?_⟩
  · rw [← hi.sigS, List.length_map]; exact h0.1
  · rw [← hi.sigE, List.length_map]; exact h0.2
  · rw [← hi.senderPk]; exact h1
  · rw [← hi.txProof]; exact hu.1
  · intro _
    show e.fw z.txRoot = _
    rw [← h2, ← hi.txProof]
    exact congrArg Prod.fst hu.2
  · rw [← hi.txProof]
    exact congrArg Prod.snd hu.2
  · rw [List.map_append, hm, hi.senderPk, hi.sigS, hi.sigE] at hsig
    exact hsig
  · rw [← hi.tx.1, ← hi.dels]
    exact h5
  · rw [← hi.tx.2, ← hi.adds, ← e4, ← e3]
    exact h6
  · rw [← hi.signerProof]; exact hs.1
  · rw [← hi.signerProof, ← e4, ← hi.senderPk]
    intro hon
    exact ((congrArg Prod.fst hs.2).symm.trans (h7 hon)).symm
  · rw [← hi.signerProof, ← e4, ← hi.senderPk]
    exact h8.trans (congrArg (fun x => select (e.bw txOk) x (e.fw z.signerRoot)) (congrArg Prod.snd hs.2))
  · show e.fw sa = _
    rw [h12, List.map_append, h9, h11, h10, e4, hi.senderPk]
    rfl
  · rw [← hi.senderPk]; exact h13
  · exact h14
  · rfl

theorem snd_stepBatch (hL : ForAgg L P cv) (z : StateW p) (is : List (InputsW p G)) (vs : List (AggC.CInputs p G))
    (h : List.Forall₂ (InReads e) is vs) :
    Snd L e (stepBatch P cv z is) fun a => AggC.stepBatch P cv (z.read e) vs (a.read e) := by
  induction h generalizing z with
  | nil => exact snd_pure rfl
  | cons hi _ ih => exact snd_bind (snd_stepOne hL z _ _ hi) fun z1 h1 => snd_weaken (ih z1) fun a ha => ⟨_, h1, ha⟩

theorem forall₂_exists {S : β → γ → Prop} {l : List α} {bs : List β}
    (h : List.Forall₂ (fun (_ : α) b => ∃ c, S b c) l bs) : ∃ cs, cs.length = l.length ∧ List.Forall₂ S bs cs := by
  induction h with
  | nil => exact ⟨[], rfl, .nil⟩
  | cons hc _ ih =>
    obtain ⟨c, hc⟩ := hc
    obtain ⟨cs, h1, h2⟩ := ih
    exact ⟨c :: cs, by simp [h1], .cons hc h2⟩

theorem snd_aggregatorStep (hL : ForAgg L P cv) (z : AggC.CState p) (is : List (AggC.CInputs p G)) :
    Snd L e (aggregatorStep P cv z is) fun a => ∃ z0 : StateW p, ∃ vs : List (AggC.CInputs p G), vs.length = is.length ∧
      AggC.stepBatch P cv (z0.read e) vs (a.read e) := by
  refine snd_bind (R := fun _ => True) snd_true fun z0 _ => snd_bind (snd_each snd_allocInputs _) fun iw hiw => ?_
  obtain ⟨vs, h1, h2⟩ := forall₂_exists hiw
  exact snd_weaken (snd_stepBatch hL z0 iw vs h2) fun a ha => ⟨z0, vs, h1, ha⟩

/-! ## Client -/

/-- The block an assignment gives. -/
def BlockW.read (e : Assignment p G) (b : BlockW p) : BlockVar (ZMod p) :=
  { utxoRoot := e.fw b.utxoRoot, txRoot := e.fw b.txRoot, signerRoot := e.fw b.signerRoot, height := e.fw b.height }

/-- The inputs of a client's step an assignment gives. -/
structure AuxReads (e : Assignment p G) (w : AuxW p G) (a : Client.UserAuxVar p G) : Prop where
  txProofs : w.txProofs.map (List.map e.fw2) = a.txProofs
  signerProofs : w.signerProofs.map (List.map e.fw2) = a.signerProofs
  block : w.block.read e = a.block
  transactions : List.Forall₂ (fun x y => TxReads e x.1 y.1 ∧ e.fw x.2 = y.2) w.transactions a.transactions
  pk : e.pw w.pk = a.pk

theorem snd_allocAux (a : Client.UserAuxVar p G) : Snd L e (allocAux a) fun w => ∃ a', AuxReads e w a' := by
  refine snd_bind (R := fun _ => True) snd_true fun _ _ => snd_bind (R := fun _ => True) snd_true fun _ _ =>
    snd_bind (R := fun _ => True) snd_true fun _ _ => ?_
  refine snd_bind (snd_each (h := fun _ x => ∃ y : Tx (ZMod p) G × ZMod p, TxReads e x.1 y.1 ∧ e.fw x.2 = y.2)
    (fun x => snd_bind (snd_allocTx _) fun t ht => snd_bind (R := fun _ => True) snd_true fun i _ => snd_pure ?_) _) fun ts hts =>
    snd_bind (R := fun _ => True) snd_true fun _ _ => snd_pure ?_
  · obtain ⟨v, hv⟩ := ht
    exact ⟨(v, e.fw i), hv, rfl⟩
  · obtain ⟨vs, -, h2⟩ := forall₂_exists hts
    exact ⟨⟨_, _, _, vs, _⟩, rfl, rfl, rfl, h2, rfl⟩

theorem snd_signerLoop (us : List (UtxoW p G)) (pk : Wire G) :
    Snd L e (signerLoop us pk) fun a =>
      e.pw a = (us.map (UtxoW.read e)).foldl (fun pk i => select i.isDummy pk i.pk) (e.pw pk) := by
  induction us generalizing pk with
  | nil => exact snd_pure rfl
  | cons u us ih =>
    refine snd_bind (snd_selP _ _ _) fun x hx => snd_weaken (ih x) fun a ha => ?_
    rw [ha, hx]
    rfl

theorem snd_balanceLoop {op : Wire (ZMod p) → Wire (ZMod p) → Tr p G (Wire (ZMod p))} {f : ZMod p → ZMod p → ZMod p}
    (hop : ∀ x y, Snd L e (op x y) fun a => e.fw a = f (e.fw x) (e.fw y)) (pk : Wire G) (us : List (UtxoW p G))
    (b : Wire (ZMod p)) :
    Snd L e (balanceLoop op pk us b) fun a =>
      e.fw a = (us.map (UtxoW.read e)).foldl (fun s i => f s (i.amount * boolF (decide (i.pk = e.pw pk)))) (e.fw b) := by
  induction us generalizing b with
  | nil => exact snd_pure rfl
  | cons u us ih =>
    refine snd_bind (snd_isEqP _ _) fun q hq => snd_bind (snd_toField _) fun t ht => snd_bind (snd_mul _ _) fun x hx =>
      snd_bind (hop _ _) fun b1 hb => snd_weaken (ih b1) fun a ha => ?_
    rw [ha, hb, hx, ht, hq]
    rfl

/-- The loop variables an assignment gives. -/
def LoopW.read (e : Assignment p G) (s : LoopW p) : Client.Loop p := ⟨e.fw s.balance, e.fw s.nonce, e.fw s.prevTxIndex⟩

/-- The functions behind the gadgets of one transaction. -/
structure ForTx (L : Lib p q G) (P : Client.Params p) (cv : Curve p q G) : Prop where
  cv : cv = L.cv
  crh : P.hs.crh = L.crh
  h2 : P.hs.h2 = L.h2

variable {PC : Client.Params p} {hs : Hashes p} {A : AccKind}

theorem ForClient.tx (hL : ForClient L hs A cv) : ForTx L (A.params hs) cv := ⟨hL.cv, hL.crh, hL.h2⟩

theorem snd_txStep (hL : ForTx L PC cv) (blk : BlockW p) (pk : Wire G) (s : LoopW p) (t : TxW p G) (v : Tx (ZMod p) G)
    (ht : TxReads e t v) (index : Wire (ZMod p)) (tp sp : List (Wire (ZMod p) × Wire (ZMod p))) :
    Snd L e (txStep PC cv blk pk s t index tp sp) fun a =>
      Client.txStep PC cv (blk.read e) (e.pw pk) (s.read e) v (e.fw index) (tp.map e.fw2) (sp.map e.fw2) (a.read e) := by
  have hh := snd_txHash (L := L) t v ht
  have hidx : ∀ on, _ := fun on => snd_checkMembershipIdx (L := L) (e := e) (LR := TxReads e) (txTreeCfgVar cv PC.hs) hL.h2
    (leafHash := txHash L.cv L.crh) (fun a b h => by
      show Snd L e _ fun w => e.fw w = txVarCRH cv PC.hs.crh b
      rw [hL.cv, hL.crh]
      exact snd_txHash a b h) tp blk.txRoot t v index on ht
  have hmem : ∀ signer on, _ := fun signer on => snd_checkMembership (L := L) (e := e) (LR := fun w v => e.pw w = v)
    (signerTreeCfgVar cv PC.hs) hL.h2
    (leafHash := pkHash L.cv L.crh) (fun a b h => by
      show Snd L e _ fun w => e.fw w = pkVarCRH cv PC.hs.crh b
      rw [hL.cv, hL.crh]
      exact snd_pkHash a b h) sp blk.signerRoot signer (e.pw signer) on rfl
  rw [← hL.cv, ← hL.crh] at hh
  rw [← hL.cv, ← hL.crh, ← hL.h2] at hidx hmem
  refine snd_bind hh fun h h1 => snd_bind (snd_isEqF _ _) fun eq h2 => snd_bind (snd_bnot _) fun reg h3 =>
    snd_bind (snd_isLess _ _) fun lower h4 => snd_bind (snd_condB _ _ _) fun _ h5 => snd_bind (hidx reg) fun _ h6 =>
    snd_bind (snd_signerLoop _ _) fun signer h7 => snd_bind (hmem signer reg) fun _ h8 =>
    snd_bind (snd_isEqP _ _) fun isU h9 => snd_bind (snd_toField _) fun f h10 => snd_bind (snd_add _ _) fun nonce h11 =>
    snd_bind (snd_balanceLoop (f := fun x y => x - y) snd_sub _ _ _) fun b1 h12 =>
    snd_bind (snd_balanceLoop (f := fun x y => x + y) snd_add _ _ _) fun b2 h13 =>
    snd_bind (snd_toField _) fun r1 h14 => snd_bind (snd_sub _ _) fun c h15 => snd_bind (snd_mul _ _) fun x h16 =>
    snd_bind (snd_toField _) fun r2 h17 => snd_bind (snd_mul _ _) fun y h18 => snd_bind (snd_add _ _) fun prev h19 =>
    snd_pure ?_
  have hr : e.bw reg = decide (txVarCRH cv PC.hs.crh v ≠ Client.dummyHash cv PC) := by
    rw [h3, h2, h1, decide_not]
    rfl
  have hs : e.pw signer = v.getSigner := by
    rw [h7, ht.1]
    rfl
  unfold Client.txStep
  rw [hs] at h8 h9
  simp only [← hr]
  refine ⟨⟨_, h4, h5⟩, h6, h8, ?_⟩
  unfold LoopW.read
  rw [h19, h18, h17, h16, h15, h14, h13, h12, h11, h10, h9, ht.1, ht.2]
  rfl

theorem snd_txLoop (hL : ForTx L PC cv) (blk : BlockW p) (pk : Wire G)
    (l : List (((TxW p G × Wire (ZMod p)) × List (Wire (ZMod p) × Wire (ZMod p))) × List (Wire (ZMod p) × Wire (ZMod p))))
    (l' : List (((Tx (ZMod p) G × ZMod p) × List (ZMod p × ZMod p)) × List (ZMod p × ZMod p)))
    (h : List.Forall₂ (fun x y => ((TxReads e x.1.1.1 y.1.1.1 ∧ e.fw x.1.1.2 = y.1.1.2) ∧ x.1.2.map e.fw2 = y.1.2) ∧
      x.2.map e.fw2 = y.2) l l') (s : LoopW p) :
    Snd L e (txLoop PC cv blk pk l s) fun a =>
      Client.txLoop PC cv (blk.read e) (e.pw pk) l' (s.read e) (a.read e) := by
  induction h generalizing s with
  | nil => exact snd_pure rfl
  | @cons x y l l' hx _ ih =>
    obtain ⟨⟨⟨t, i⟩, tp⟩, sp⟩ := y
    obtain ⟨⟨⟨h1, h2⟩, h3⟩, h4⟩ := hx
    refine snd_bind (snd_txStep hL blk pk s _ _ h1 _ _ _) fun s1 hs => snd_weaken (ih s1) fun a ha => ⟨_, ?_, ha⟩
    rw [h2, h3, h4] at hs
    exact hs

theorem forall₂_map {f : α → β} (l : List α) : List.Forall₂ (fun x y => f x = y) l (l.map f) := by
  induction l with
  | nil => exact .nil
  | cons a l ih => exact .cons rfl ih

theorem forall₂_zip {α' β' : Type} {R : α → α' → Prop} {S : β → β' → Prop} {l : List α} {l' : List α'} {m : List β} {m' : List β'}
    (h : List.Forall₂ R l l') (h' : List.Forall₂ S m m') :
    List.Forall₂ (fun x y => R x.1 y.1 ∧ S x.2 y.2) (l.zip m) (l'.zip m') := by
  induction h generalizing m m' with
  | nil => simp
  | cons h _ ih => cases h' with
    | nil => simp
    | cons h' ht => exact .cons ⟨h, h'⟩ (ih ht)

/-- The state of the client an assignment gives. -/
def UStateW.read (e : Assignment p G) (z : UStateW p) : Client.UState p :=
  { balance := e.fw z.balance, nonce := e.fw z.nonce, pkHash := e.fw z.pkHash, acc := e.fw z.acc,
    prevBlockHash := e.fw z.prevBlockHash, prevBlockNumber := e.fw z.prevBlockNumber, prevTxIndex := e.fw z.prevTxIndex }

theorem snd_accumulate (hL : ForClient L hs A cv) (x y : Wire (ZMod p)) :
    Snd L e (accumulate A hs x y : Tr p G _) fun a => e.fw a = A.fn hs (e.fw x) (e.fw y) := by
  cases A with
  | poseidon =>
    have := snd_two (L := L) (e := e) x y
    rw [← hL.h2] at this
    exact this
  | sha s =>
    obtain rfl := hL.sha s rfl
    refine snd_bind (snd_toBytes _) fun r h1 => snd_bind (snd_toBytes _) fun l h2 => snd_bind (snd_digest _) fun d h3 =>
      snd_weaken (snd_packBytes _) fun a ha => ?_
    rw [ha, List.map_dropLast, h3, List.map_append, h1, h2]
    rfl

theorem snd_updateBalance (hL : ForClient L hs A cv) (n : Nat) (z : UStateW p) (w : AuxW p G) (a : Client.UserAuxVar p G)
    (h : AuxReads e w a) :
    Snd L e (updateBalance hs A cv n z w) fun b => Client.updateBalance (A.params hs) cv n (z.read e) a (b.read e) := by
  have hk := snd_pkHash (L := L) (e := e) w.pk _ rfl
  have hb : ∀ l, _ := fun l => snd_hash (L := L) (e := e) l
  rw [← hL.cv, ← hL.crh] at hk
  rw [← hL.crh] at hb
  refine snd_bind (snd_assert _) fun _ h1 => snd_bind (snd_assert _) fun _ h2 => snd_bind (snd_assert _) fun _ h3 =>
    snd_bind hk fun k h4 => snd_bind (snd_enforceEq _ _) fun _ h5 => snd_bind (hb _) fun bh h6 =>
    snd_bind (snd_accumulate hL _ _) fun acc h7 =>
    snd_bind (snd_enforceLe _ _) fun _ h8 => snd_bind (snd_isEqF _ _) fun same h9 => snd_bind (snd_selF _ _ _) fun prev h10 =>
    snd_bind (snd_txLoop hL.tx _ _ _ _ (forall₂_zip (forall₂_zip h.transactions (forall₂_map (f := List.map e.fw2) w.txProofs))
      (forall₂_map (f := List.map e.fw2) w.signerProofs)) _) fun s h11 => snd_pure ?_
  have eb : e.fw bh = blockVarCRH hs.crh a.block := by
    rw [h6, ← h.block]
    rfl
  refine ⟨?_, ?_, ?_, ?_, ?_, s.read e, ?_, ?_⟩
  · rw [← h.txProofs, List.length_map]; exact of_decide_eq_true h1
  · rw [← h.transactions.length_eq]; exact of_decide_eq_true h2
  · rw [← h.signerProofs, List.length_map]; exact of_decide_eq_true h3
  · rw [← h.pk]; exact h4.symm.trans h5
  · rw [← h.block]; exact h8
  · rw [← h.block, ← h.pk, ← h.txProofs, ← h.signerProofs]
    have : LoopW.read e ⟨z.balance, z.nonce, prev⟩ = ⟨(z.read e).balance, (z.read e).nonce,
        select (decide (blockVarCRH hs.crh (w.block.read e) = (z.read e).prevBlockHash)) (z.read e).prevTxIndex 0⟩ := by
      unfold LoopW.read
      rw [h10, h9, eb, h.block]
      rfl
    rw [this] at h11
    exact h11
  · unfold UStateW.read
    rw [h7, eb, ← h.block]
    rfl

theorem snd_clientStep (hL : ForClient L hs A cv) (n : Nat) (z : Client.UState p) (a : Client.UserAuxVar p G) :
    Snd L e (clientStep hs A cv n z a) fun b => ∃ (z0 : UStateW p) (a' : Client.UserAuxVar p G),
      Client.updateBalance (A.params hs) cv n (z0.read e) a' (b.read e) := by
  refine snd_bind (R := fun _ => True) snd_true fun z0 _ => snd_bind (snd_allocAux _) fun w hw => ?_
  obtain ⟨a', ha⟩ := hw
  exact snd_weaken (snd_updateBalance hL n z0 w a' ha) fun b hb => ⟨z0, a', hb⟩

end PF.Prog
