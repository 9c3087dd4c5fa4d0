import Verif.Proof.ProgramSound

/-!
# The values assigned during synthesis satisfy the program if its flag says so
-/
set_option linter.unusedSectionVars false

namespace PF.Prog
open PF PF.Circuit
variable {p q : Nat} {G α β γ : Type}

/-- The assignment gives variable `n` the value `a`. -/
def Bound (e : Assignment p G) (n : Nat) : Arg p G → Prop
  | .field (.const c) => e.field n = c
  | .bool (.const c) => e.bool n = c
  | .point (.const c) => e.point n = c
  | .byte (.const c) => e.byte n = c
  | _ => True

/-- The same for consecutive variables. -/
def BoundAll (e : Assignment p G) : Nat → List (Arg p G) → Prop
  | _, [] => True
  | n, a :: l => Bound e n a ∧ BoundAll e (n + 1) l

/-- The assignment gives the variables the values they got during synthesis. -/
def Assigned (e : Assignment p G) : Nat → List (Entry p G) → Prop
  | _, [] => True
  | n, x :: l => BoundAll e n x.vals ∧ Assigned e (n + x.vals.length) l

theorem assigned_append {e : Assignment p G} (l l' : List (Entry p G)) (n : Nat) :
    Assigned e n (l ++ l') ↔ Assigned e n l ∧ Assigned e (n + width l) l' := by
  induction l generalizing n with
  | nil => simp [Assigned, width]
  | cons x l ih => simp [Assigned, ih, and_assoc, width, Nat.add_assoc]

theorem boundAll_append {e : Assignment p G} (l l' : List (Arg p G)) (n : Nat) :
    BoundAll e n (l ++ l') ↔ BoundAll e n l ∧ BoundAll e (n + l.length) l' := by
  induction l generalizing n with
  | nil => simp [BoundAll]
  | cons x l ih => simp [BoundAll, ih, and_assoc, Nat.add_assoc, Nat.add_comm 1]

theorem assigned_flat {e : Assignment p G} (l : List (Entry p G)) (n : Nat) :
    Assigned e n l ↔ BoundAll e n (l.flatMap Entry.vals) := by
  induction l generalizing n with
  | nil => simp [Assigned, BoundAll]
  | cons x l ih => simp [Assigned, ih, boundAll_append]

theorem boundAll_iff {e : Assignment p G} (l : List (Arg p G)) (n : Nat) :
    BoundAll e n l ↔ ∀ (k : Nat) (a : Arg p G), l[k]? = some a → Bound e (n + k) a := by
  induction l generalizing n with
  | nil => simp [BoundAll]
  | cons x l ih =>
    simp only [BoundAll, ih]
    constructor
    · rintro ⟨h1, h2⟩ k a hk
      cases k with
      | zero => simp at hk; rw [← hk]; exact h1
      | succ k => have := h2 k a (by simpa using hk); rwa [Nat.add_assoc, Nat.add_comm 1] at this
    · intro h
      exact ⟨h 0 x rfl, fun k a hk => by have := h (k + 1) a (by simpa using hk); rwa [Nat.add_assoc, Nat.add_comm 1]⟩

/-- There is an assignment with the values of a synthesis. -/
theorem exists_assigned [Zero G] (l : List (Entry p G)) : ∃ e : Assignment p G, Assigned e 0 l := by
  refine ⟨⟨fun n => match (l.flatMap Entry.vals)[n]? with | some (.field (.const c)) => c | _ => 0,
    fun n => match (l.flatMap Entry.vals)[n]? with | some (.bool (.const c)) => c | _ => false,
    fun n => match (l.flatMap Entry.vals)[n]? with | some (.point (.const c)) => c | _ => 0,
    fun n => match (l.flatMap Entry.vals)[n]? with | some (.byte (.const c)) => c | _ => 0⟩, ?_⟩
  rw [assigned_flat, boundAll_iff]
  intro k a hk
  rw [Nat.zero_add]
  cases a with
  | field r => cases r with
    | var _ => trivial
    | const c => show (match (l.flatMap Entry.vals)[k]? with | some (.field (.const c)) => c | _ => 0) = c; rw [hk]
  | bool r => cases r with
    | var _ => trivial
    | const c => show (match (l.flatMap Entry.vals)[k]? with | some (.bool (.const c)) => c | _ => false) = c; rw [hk]
  | point r => cases r with
    | var _ => trivial
    | const c => show (match (l.flatMap Entry.vals)[k]? with | some (.point (.const c)) => c | _ => 0) = c; rw [hk]
  | byte r => cases r with
    | var _ => trivial
    | const c => show (match (l.flatMap Entry.vals)[k]? with | some (.byte (.const c)) => c | _ => 0) = c; rw [hk]

variable [AddCommGroup G] [Module (ZMod q) G]
variable {L : Lib p q G} {e : Assignment p G}

/-- With the values of the synthesis the results are as `W` says, and the program is satisfied if the flag says so. -/
def Hon (L : Lib p q G) (e : Assignment p G) (m : Tr p G α) (W : α → Prop) : Prop :=
  ∀ n a o, m n = some (a, o) → Assigned e n o.log → W a ∧ (o.ok = true → Satisfies L e n (o.log.map Entry.instr))

theorem hon_bind {W : α → Prop} {W' : β → Prop} {m : Tr p G α} {k : α → Tr p G β} (hm : Hon L e m W)
    (hk : ∀ a, W a → Hon L e (k a) W') : Hon L e (m >>= k) W' := by
  intro n b o h ha
  obtain ⟨a, o1, o2, h1, h2, h3, h4⟩ := bind_some h
  rw [h3, assigned_append] at ha
  have g1 := hm n a o1 h1 ha.1
  have g2 := hk a g1.1 _ b o2 h2 ha.2
  refine ⟨g2.1, fun ho => ?_⟩
  rw [h4, Bool.and_eq_true] at ho
  rw [h3, List.map_append, satisfies_append, width_results]
  exact ⟨g1.2 ho.1, g2.2 ho.2⟩

theorem hon_pure {W : α → Prop} {a : α} (h : W a) : Hon L e (pure a : Tr p G α) W := by
  intro n a' o h' _
  cases h'
  exact ⟨h, fun _ => trivial⟩

theorem hon_weaken {W W' : α → Prop} {m : Tr p G α} (h : Hon L e m W) (hr : ∀ a, W a → W' a) : Hon L e m W' :=
  fun n a o h1 h2 => ⟨hr a (h n a o h1 h2).1, (h n a o h1 h2).2⟩

theorem hon_panic {W : α → Prop} : Hon L e (panic : Tr p G α) W := fun _ _ _ h => by cases h

theorem hon_assert (b : Bool) : Hon L e (assert b : Tr p G Unit) fun _ => True := by
  intro n a o h _
  cases b
  · cases h
  · cases h; exact ⟨trivial, fun _ => trivial⟩

theorem hon_call {k : Wire α → Arg p G} {W : Wire α → Prop} {g : Gadget} {args : List (Arg p G)} {v : α}
    (h : ∀ n, Bound e n (k (.const v)) → W ⟨.var n, v⟩ ∧ Holds L e n ⟨g, args, 1⟩) : Hon L e (call k g args v) W := by
  intro n a o h' hs
  cases h'
  exact ⟨(h n hs.1.1).1, fun _ => ⟨(h n hs.1.1).2, trivial⟩⟩

theorem hon_callN {k : Wire α → Arg p G} {W : List (Wire α) → Prop} {g : Gadget} {args : List (Arg p G)} {vs : List α}
    (h : ∀ n, BoundAll e n (vs.map fun v => k (.const v)) → W (wiresFrom n vs) ∧ Holds L e n ⟨g, args, vs.length⟩) :
    Hon L e (callN k g args vs) W := by
  intro n a o h' hs
  cases h'
  refine ⟨(h n hs.1).1, fun _ => ⟨?_, trivial⟩⟩
  have := (h n hs.1).2
  simpa [Entry.instr] using this

theorem hon_constrain {g : Gadget} {args : List (Arg p G)} {b : Bool}
    (h : ∀ n, b = true → Holds L e n ⟨g, args, 0⟩) : Hon L e (constrain g args b) fun _ => True := by
  intro n a o h' _
  cases h'
  exact ⟨trivial, fun hb => ⟨h n hb, trivial⟩⟩

theorem hon_each {k : α → Tr p G β} {W : β → Prop} {l : List α} (hk : ∀ a ∈ l, Hon L e (k a) W) :
    Hon L e (each k l) fun bs => ∀ b ∈ bs, W b := by
  induction l with
  | nil => exact hon_pure fun b hb => by simp at hb
  | cons a l ih =>
    refine hon_bind (hk a List.mem_cons_self) fun b hb => hon_bind (ih fun a h => hk a (List.mem_cons_of_mem _ h)) fun bs hbs =>
      hon_pure fun x hx => ?_
    rcases List.mem_cons.1 hx with rfl | hx
    · exact hb
    · exact hbs x hx

/-- The operand has the value it got during synthesis. -/
abbrev FOk (e : Assignment p G) (w : Wire (ZMod p)) : Prop := e.fw w = w.val
/-- The same for a Boolean. -/
abbrev BOk (e : Assignment p G) (w : Wire Bool) : Prop := e.bw w = w.val
/-- The same for a point. -/
abbrev POk (e : Assignment p G) (w : Wire G) : Prop := e.pw w = w.val
/-- The same for a byte. -/
abbrev YOk (e : Assignment p G) (w : Wire Byte) : Prop := e.yw w = w.val

theorem fs {l : List (Wire (ZMod p))} (h : ∀ w ∈ l, FOk e w) : l.map e.fw = l.map Wire.val := List.map_congr_left h
theorem bs {l : List (Wire Bool)} (h : ∀ w ∈ l, BOk e w) : l.map e.bw = l.map Wire.val := List.map_congr_left h
theorem ys {l : List (Wire Byte)} (h : ∀ w ∈ l, YOk e w) : l.map e.yw = l.map Wire.val := List.map_congr_left h

/-- Consecutive variables bound to values. -/
theorem bound_wires {k : Wire α → Arg p G} {v : Nat → α} (hk : ∀ n c, Bound e n (k (.const c)) → v n = c) (vs : List α) (n : Nat)
    (h : BoundAll e n (vs.map fun c => k (.const c))) :
    (∀ w ∈ wiresFrom n vs, w.ref.read v = w.val) ∧ consecutive v n vs.length = vs := by
  induction vs generalizing n with
  | nil => exact ⟨fun w hw => by simp [wiresFrom] at hw, rfl⟩
  | cons c vs ih =>
    obtain ⟨h1, h2⟩ := ih (n + 1) h.2
    refine ⟨fun w hw => ?_, ?_⟩
    · rcases List.mem_cons.1 hw with rfl | hw
      · exact hk n c h.1
      · exact h1 w hw
    · rw [List.length_cons, consecutive_zero, h2, hk n c h.1]

theorem bw_f (vs : List (ZMod p)) (n : Nat) (h : BoundAll e n (vs.map fun c => fa (.const c))) :
    (∀ w ∈ wiresFrom n vs, FOk e w) ∧ consecutive e.field n vs.length = vs :=
  bound_wires (k := fa) (v := e.field) (fun _ _ h => h) vs n h
theorem bw_b (vs : List Bool) (n : Nat) (h : BoundAll e n (vs.map fun c => ba (.const c))) :
    (∀ w ∈ wiresFrom n vs, BOk e w) ∧ consecutive e.bool n vs.length = vs :=
  bound_wires (k := ba) (v := e.bool) (fun _ _ h => h) vs n h
theorem bw_y (vs : List Byte) (n : Nat) (h : BoundAll e n (vs.map fun c => ya (.const c))) :
    (∀ w ∈ wiresFrom n vs, YOk e w) ∧ consecutive e.byte n vs.length = vs :=
  bound_wires (k := ya) (v := e.byte) (fun _ _ h => h) vs n h

/-! ## Library gadgets -/

theorem hon_allocF (v : ZMod p) : Hon L e (allocF v : Tr p G _) (FOk e) := hon_call fun _ h => ⟨h, trivial⟩
theorem hon_allocB (v : Bool) : Hon L e (allocB v : Tr p G _) (BOk e) := hon_call fun _ h => ⟨h, trivial⟩
theorem hon_allocP (v : G) : Hon L e (allocP v : Tr p G _) (POk e) := hon_call fun _ h => ⟨h, trivial⟩
theorem hon_allocBs (v : List Bool) : Hon L e (allocBs v : Tr p G _) fun l => ∀ w ∈ l, BOk e w :=
  hon_callN fun n h => ⟨(bw_b v n h).1, trivial⟩
theorem hon_allocFs (v : List (ZMod p)) : Hon L e (allocFs v : Tr p G _) fun l => ∀ w ∈ l, FOk e w :=
  hon_callN fun n h => ⟨(bw_f v n h).1, trivial⟩

theorem hon_add {x y : Wire (ZMod p)} (hx : FOk e x) (hy : FOk e y) : Hon L e (add x y : Tr p G _) (FOk e) :=
  hon_call fun n h => ⟨h, show e.field n = e.fw x + e.fw y by rw [hx, hy]; exact h⟩
theorem hon_sub {x y : Wire (ZMod p)} (hx : FOk e x) (hy : FOk e y) : Hon L e (sub x y : Tr p G _) (FOk e) :=
  hon_call fun n h => ⟨h, show e.field n = e.fw x - e.fw y by rw [hx, hy]; exact h⟩
theorem hon_mul {x y : Wire (ZMod p)} (hx : FOk e x) (hy : FOk e y) : Hon L e (mul x y : Tr p G _) (FOk e) :=
  hon_call fun n h => ⟨h, show e.field n = e.fw x * e.fw y by rw [hx, hy]; exact h⟩
theorem hon_toField {x : Wire Bool} (hx : BOk e x) : Hon L e (toField x : Tr p G _) (FOk e) :=
  hon_call fun n h => ⟨h, show e.field n = boolF (e.bw x) by rw [hx]; exact h⟩
theorem hon_packBits {x : List (Wire Bool)} (hx : ∀ w ∈ x, BOk e w) : Hon L e (packBits x : Tr p G _) (FOk e) :=
  hon_call fun n h => ⟨h, x.map Wire.ref, by rw [List.map_map]; rfl, by
    rw [List.map_map]
    show e.field n = ((bitsVal (x.map e.bw) : Nat) : ZMod p)
    rw [bs hx]; exact h⟩
theorem hon_toBits {x : Wire (ZMod p)} (hx : FOk e x) : Hon L e (toBits x : Tr p G _) fun l => ∀ w ∈ l, BOk e w :=
  hon_callN fun n h => ⟨(bw_b _ n h).1, by
    show consecutive e.bool n _ = toBitsLe (e.fw x)
    rw [hx]; exact (bw_b _ n h).2⟩
theorem hon_enforceEq {x y : Wire (ZMod p)} (hx : FOk e x) (hy : FOk e y) :
    Hon L e (enforceEq fa x y : Tr p G _) fun _ => True :=
  hon_constrain fun n h => show e.fw x = e.fw y by rw [hx, hy]; exact of_decide_eq_true h

theorem cond_of {on : Bool} {P : Prop} [Decidable P] (h : (!on || decide P) = true) (h' : on = true) : P := by
  subst h'
  simpa using h

theorem hon_condF {x y : Wire (ZMod p)} {on : Wire Bool} (hx : FOk e x) (hy : FOk e y) (ho : BOk e on) :
    Hon L e (condEnforceEq fa x y on : Tr p G _) fun _ => True :=
  hon_constrain fun n h => show e.bw on = true → e.fw x = e.fw y by rw [hx, hy, ho]; exact cond_of h
theorem hon_condB {x y : Wire Bool} {on : Wire Bool} (hx : BOk e x) (hy : BOk e y) (ho : BOk e on) :
    Hon L e (condEnforceEq ba x y on : Tr p G _) fun _ => True :=
  hon_constrain fun n h => show e.bw on = true → e.bw x = e.bw y by rw [hx, hy, ho]; exact cond_of h
theorem hon_condP [DecidableEq G] {x y : Wire G} {on : Wire Bool} (hx : POk e x) (hy : POk e y) (ho : BOk e on) :
    Hon L e (condEnforceEq pa x y on : Tr p G _) fun _ => True :=
  hon_constrain fun n h => show e.bw on = true → e.pw x = e.pw y by rw [hx, hy, ho]; exact cond_of h

theorem decide_iff {b : Bool} {P : Prop} [Decidable P] (h : b = decide P) : b = true ↔ P := by rw [h, decide_eq_true_iff]

theorem hon_isEqF {x y : Wire (ZMod p)} (hx : FOk e x) (hy : FOk e y) : Hon L e (isEq fa x y : Tr p G _) (BOk e) :=
  hon_call fun n h => ⟨h, show e.bool n = true ↔ e.fw x = e.fw y by rw [hx, hy]; exact decide_iff h⟩
theorem hon_isEqB {x y : Wire Bool} (hx : BOk e x) (hy : BOk e y) : Hon L e (isEq ba x y : Tr p G _) (BOk e) :=
  hon_call fun n h => ⟨h, show e.bool n = true ↔ e.bw x = e.bw y by rw [hx, hy]; exact decide_iff h⟩
theorem hon_isEqP [DecidableEq G] {x y : Wire G} (hx : POk e x) (hy : POk e y) : Hon L e (isEq pa x y : Tr p G _) (BOk e) :=
  hon_call fun n h => ⟨h, show e.bool n = true ↔ e.pw x = e.pw y by rw [hx, hy]; exact decide_iff h⟩
theorem hon_isZero {x : Wire (ZMod p)} (hx : FOk e x) : Hon L e (isZero x : Tr p G _) (BOk e) :=
  hon_call fun n h => ⟨h, show e.bool n = true ↔ e.fw x = 0 by rw [hx]; exact decide_iff h⟩
theorem hon_bnot {x : Wire Bool} (hx : BOk e x) : Hon L e (bnot x : Tr p G _) (BOk e) :=
  hon_call fun n h => ⟨h, show e.bool n = !e.bw x by rw [hx]; exact h⟩
theorem hon_band {x y : Wire Bool} (hx : BOk e x) (hy : BOk e y) : Hon L e (band x y : Tr p G _) (BOk e) :=
  hon_call fun n h => ⟨h, show e.bool n = (e.bw x && e.bw y) by rw [hx, hy]; exact h⟩
theorem hon_bor {x y : Wire Bool} (hx : BOk e x) (hy : BOk e y) : Hon L e (bor x y : Tr p G _) (BOk e) :=
  hon_call fun n h => ⟨h, show e.bool n = (e.bw x || e.bw y) by rw [hx, hy]; exact h⟩
theorem hon_selF {b : Wire Bool} {x y : Wire (ZMod p)} (hb : BOk e b) (hx : FOk e x) (hy : FOk e y) :
    Hon L e (sel fa b x y : Tr p G _) (FOk e) :=
  hon_call fun n h => ⟨h, show e.field n = if e.bw b then e.fw x else e.fw y by rw [hb, hx, hy]; exact h⟩
theorem hon_selP {b : Wire Bool} {x y : Wire G} (hb : BOk e b) (hx : POk e x) (hy : POk e y) :
    Hon L e (sel pa b x y : Tr p G _) (POk e) :=
  hon_call fun n h => ⟨h, show e.point n = if e.bw b then e.pw x else e.pw y by rw [hb, hx, hy]; exact h⟩
theorem hon_hash {l : List (Wire (ZMod p))} (hl : ∀ w ∈ l, FOk e w) : Hon L e (hash L.crh l : Tr p G _) (FOk e) :=
  hon_call fun n h => ⟨h, l.map Wire.ref, by rw [List.map_map]; rfl, by
    rw [List.map_map]
    show e.field n = L.crh (l.map e.fw)
    rw [fs hl]; exact h⟩
theorem hon_two {x y : Wire (ZMod p)} (hx : FOk e x) (hy : FOk e y) : Hon L e (two L.h2 x y : Tr p G _) (FOk e) :=
  hon_call fun n h => ⟨h, show e.field n = L.h2 (e.fw x) (e.fw y) by rw [hx, hy]; exact h⟩
theorem hon_toBytes {x : Wire (ZMod p)} (hx : FOk e x) : Hon L e (toBytes x : Tr p G _) fun l => ∀ w ∈ l, YOk e w :=
  hon_callN fun n h => ⟨(bw_y _ n h).1, by
    show consecutive e.byte n _ = fBytesVar (e.fw x)
    rw [hx]; exact (bw_y _ n h).2⟩
theorem hon_toByteChunks {l : List (Wire Bool)} (hl : ∀ w ∈ l, BOk e w) :
    Hon L e (toByteChunks l : Tr p G _) fun l => ∀ w ∈ l, YOk e w :=
  hon_callN fun n h => ⟨(bw_y _ n h).1, l.map Wire.ref, by rw [List.map_map]; rfl, by
    rw [List.map_map]
    show consecutive e.byte n _ = bytesOfBits (l.map e.bw)
    rw [bs hl]; exact (bw_y _ n h).2⟩
theorem hon_digest {l : List (Wire Byte)} (hl : ∀ w ∈ l, YOk e w) :
    Hon L e (digest L.sha l : Tr p G _) fun l => ∀ w ∈ l, YOk e w :=
  hon_callN fun n h => ⟨(bw_y _ n h).1, l.map Wire.ref, by rw [List.map_map]; rfl, by
    rw [List.map_map]
    show consecutive e.byte n _ = L.sha.digest (l.map e.yw)
    rw [ys hl]; exact (bw_y _ n h).2⟩
theorem hon_packBytes {l : List (Wire Byte)} (hl : ∀ w ∈ l, YOk e w) : Hon L e (packBytes l : Tr p G _) (FOk e) :=
  hon_call fun n h => ⟨h, l.map Wire.ref, by rw [List.map_map]; rfl, by
    rw [List.map_map]
    show e.field n = packVar p (l.map e.yw)
    rw [ys hl]; exact h⟩
theorem hon_shaField {l : List (Wire Byte)} (hl : ∀ w ∈ l, YOk e w) : Hon L e (shaField L.sha l : Tr p G _) (FOk e) :=
  hon_bind (hon_digest hl) fun _ hd => hon_packBytes fun w hw => hd w (List.mem_of_mem_take hw)
theorem hon_coords {x : Wire G} (hx : POk e x) : Hon L e (coords L.cv x) fun l => ∀ w ∈ l, FOk e w :=
  hon_callN fun n h => ⟨(bw_f _ n h).1, by
    show consecutive e.field n _ = pkEncVar L.cv (e.pw x)
    rw [hx]; exact (bw_f _ n h).2⟩
theorem hon_pointBytes {x : Wire G} (hx : POk e x) : Hon L e (pointBytes L.cv x) fun l => ∀ w ∈ l, YOk e w :=
  hon_callN fun n h => ⟨(bw_y _ n h).1, by
    show consecutive e.byte n _ = pkBytesVar L.cv (e.pw x)
    rw [hx]; exact (bw_y _ n h).2⟩
theorem hon_scalarMul {x : Wire G} {l : List (Wire Bool)} (hx : POk e x) (hl : ∀ w ∈ l, BOk e w) :
    Hon L e (scalarMul x l) (POk e) :=
  hon_call fun n h => ⟨h, l.map Wire.ref, by rw [List.map_map]; rfl, by
    rw [List.map_map]
    show e.point n = bitsVal (l.map e.bw) • e.pw x
    rw [bs hl, hx]; exact h⟩
theorem hon_pointAdd {x y : Wire G} (hx : POk e x) (hy : POk e y) : Hon L e (pointAdd x y : Tr p G _) (POk e) :=
  hon_call fun n h => ⟨h, show e.point n = e.pw x + e.pw y by rw [hx, hy]; exact h⟩

theorem hon_toNBits {x : Wire (ZMod p)} (n : Nat) (hx : FOk e x) :
    Hon L e (toNBits x n : Tr p G _) fun l => ∀ w ∈ l, BOk e w := by
  refine hon_bind (W := fun l => (∀ w ∈ l, BOk e w) ∧ l.map Wire.val = natBits n x.val.val)
    (hon_callN fun i h => ⟨⟨(bw_b _ i h).1, wiresFrom_vals _ _⟩, trivial⟩) fun l hl =>
    hon_bind (hon_constrain fun i h => ?_) fun _ _ => hon_pure hl.1
  rw [Bool.and_eq_true] at h
  have e1 : (l.map Wire.ref).map e.b = natBits n x.val.val := by
    rw [List.map_map, ← hl.2]
    exact bs hl.1
  refine ⟨l.map Wire.ref, x.ref, by rw [List.map_map]; rfl, ?_, ?_⟩
  · rw [e1, List.length_map]
    have : l.length = n := by rw [← List.length_map (f := Wire.val), hl.2, natBits_length]
    rw [this]
    exact of_decide_eq_true h.1
  · rw [e1]
    exact (of_decide_eq_true h.2).trans hx.symm

theorem hon_isLess {x y : Wire (ZMod p)} (hx : FOk e x) (hy : FOk e y) : Hon L e (isLess x y : Tr p G _) (BOk e) := by
  refine hon_bind (hon_constrain fun n h => ?_) fun _ _ => hon_call fun n h => ⟨h, ?_⟩
  · show cmpRange (e.fw x) (e.fw y)
    rw [hx, hy]
    simpa [cmpRange] using h
  · show e.bool n = cmpBit (e.fw x) (e.fw y)
    rw [hx, hy]; exact h

theorem hon_enforceLe {x y : Wire (ZMod p)} (hx : FOk e x) (hy : FOk e y) :
    Hon L e (enforceLe x y : Tr p G _) fun _ => True := hon_constrain fun n h => by
  show Circuit.enforceLe (e.fw x) (e.fw y)
  rw [hx, hy]
  rw [Bool.and_eq_true] at h
  exact ⟨by simpa [cmpRange] using h.1, h.2⟩

/-! ## Comparison and signatures -/

theorem hon_ltLoop {bs : List (Wire Bool)} {ds : List (Wire (ZMod p))} {c r : Wire (ZMod p)} (hb : ∀ w ∈ bs, BOk e w)
    (hd : ∀ w ∈ ds, FOk e w) (hc : FOk e c) (hr : FOk e r) :
    Hon L e (ltLoop bs ds c r : Tr p G _) fun a => FOk e a.1 ∧ FOk e a.2 := by
  induction bs generalizing ds c r with
  | nil => cases ds <;> exact hon_pure ⟨hc, hr⟩
  | cons b bs ih =>
    cases ds with
    | nil => exact hon_pure ⟨hc, hr⟩
    | cons d ds =>
      have h1 := hb b List.mem_cons_self
      have h2 := hd d List.mem_cons_self
      exact hon_bind (hon_selF h1 h2 rfl) fun t ht => hon_bind (hon_add hc ht) fun c1 hc1 => hon_bind (hon_mul hr h2) fun m hm =>
        hon_bind (hon_enforceEq hm rfl) fun _ _ => hon_bind (hon_toField h1) fun f hf => hon_bind (hon_add hr hf) fun r1 hr1 =>
        ih (fun w hw => hb w (List.mem_cons_of_mem _ hw)) (fun w hw => hd w (List.mem_cons_of_mem _ hw)) hc1 hr1

theorem getD_ok {l : List (Wire (ZMod p))} (h : ∀ w ∈ l, FOk e w) (i : Nat) : FOk e (l.getD i (.const 0)) := by
  rw [List.getD_eq_getElem?_getD]
  cases hi : l[i]? with
  | none => rfl
  | some w => exact h w (List.mem_of_getElem? hi)

theorem mem_chunks {α : Type} {w : Nat} (n : Nat) {l c : List α} (hn : l.length = n) (h : c ∈ Schnorr.chunks w l) :
    ∀ x ∈ c, x ∈ l := by
  induction n using Nat.strong_induction_on generalizing l with
  | _ n ih =>
    cases l with
    | nil => simp [Schnorr.chunks] at h
    | cons a t =>
      rw [Schnorr.chunks] at h
      rcases List.mem_cons.1 h with rfl | h
      · intro x hx
        rcases List.mem_cons.1 hx with rfl | hx
        · exact List.mem_cons_self
        · exact List.mem_cons_of_mem _ (List.mem_of_mem_take hx)
      · intro x hx
        refine List.mem_cons_of_mem _ (List.mem_of_mem_drop (ih (t.drop w).length ?_ rfl h x hx))
        rw [← hn, List.length_drop, List.length_cons]
        omega

theorem hon_enforceLt (W : Nat) {x y : List (Wire Bool)} (hx : ∀ w ∈ x, BOk e w) (hy : ∀ w ∈ y, BOk e w) :
    Hon L e (enforceLt W x y : Tr p G _) fun _ => True := by
  refine hon_bind (hon_each fun c hc => hon_packBits fun w hw => hx w (mem_chunks _ rfl hc w hw)) fun xs hxs =>
    hon_bind (hon_each fun c hc => hon_packBits fun w hw => hy w (mem_chunks _ rfl hc w hw)) fun ys hys =>
    hon_bind (hon_each fun i _ => hon_sub (getD_ok hys i) (getD_ok hxs i)) fun ds hds =>
    hon_bind (hon_allocBs _) fun hl hh => hon_bind (hon_ltLoop hh hds rfl rfl) fun cr hcr => ?_
  obtain ⟨c, r⟩ := cr
  exact hon_bind (hon_sub hcr.1 rfl) fun c1 hc1 => hon_bind (hon_allocBs _) fun bits hb => hon_bind (hon_packBits hb) fun v hv =>
    hon_bind (hon_enforceEq hv hc1) fun _ _ => hon_enforceEq hcr.2 rfl

theorem hon_isValid (W : Nat) {pk : Wire G} {m : List (Wire (ZMod p))} {s c : List (Wire Bool)} (hpk : POk e pk)
    (hm : ∀ w ∈ m, FOk e w) (hs : ∀ w ∈ s, BOk e w) (hc : ∀ w ∈ c, BOk e w) :
    Hon L e (isValid W L.cv L.crh pk m s c) (BOk e) := by
  refine hon_bind (hon_scalarMul rfl hs) fun r1 h1 => hon_bind (hon_scalarMul hpk hc) fun r2 h2 =>
    hon_bind (hon_pointAdd h1 h2) fun r hr => hon_bind (hon_coords hr) fun xy hxy =>
    hon_bind (hon_hash fun w hw => ?_) fun h hh => hon_bind (hon_toBits hh) fun hb hhb => ?_
  · rcases List.mem_append.1 hw with hw | hw
    · exact hxy w (List.mem_of_mem_dropLast hw)
    · exact hm w hw
  have hb1 : ∀ w ∈ hb.take (modBits q), BOk e w := fun w hw => hhb w (List.mem_of_mem_take hw)
  refine hon_bind (hon_enforceLt W hb1 fun w hw => ?_) fun _ _ => ?_
  · obtain ⟨b, -, rfl⟩ := List.mem_map.1 hw
    rfl
  generalize hb.take (modBits q) = hb at *
  cases g1 : hb[modBits q - 1]? with
  | none => exact hon_panic
  | some x =>
    cases g2 : c[modBits q - 1]? with
    | none => exact hon_panic
    | some y =>
      exact hon_bind (hon_packBits fun w hw => hb1 w (List.mem_of_mem_take hw)) fun a ha =>
        hon_bind (hon_packBits fun w hw => hc w (List.mem_of_mem_take hw)) fun b hb => hon_bind (hon_isEqF ha hb) fun eq heq =>
        hon_bind (hon_isEqB (hb1 x (List.mem_of_getElem? g1)) (hc y (List.mem_of_getElem? g2))) fun l hl => hon_band heq hl

/-! ## Data -/

/-- The operands have the values they got during synthesis. -/
def UOk (e : Assignment p G) (u : UtxoW p G) : Prop := FOk e u.amount ∧ POk e u.pk ∧ BOk e u.isDummy
/-- The same for a transaction. -/
def TOk (e : Assignment p G) (t : TxW p G) : Prop := (∀ u ∈ t.inputs, UOk e u) ∧ ∀ u ∈ t.outputs, UOk e u

theorem hon_allocUtxo (u : UTXO (ZMod p) G) : Hon L e (allocUtxo u) (UOk e) :=
  hon_bind (hon_allocF _) fun _ h1 => hon_bind (hon_allocP _) fun _ h2 => hon_bind (hon_allocB _) fun _ h3 => hon_pure ⟨h1, h2, h3⟩

theorem hon_allocTx (t : Tx (ZMod p) G) : Hon L e (allocTx t) (TOk e) :=
  hon_bind (hon_each fun u _ => hon_allocUtxo u) fun _ h1 => hon_bind (hon_each fun u _ => hon_allocUtxo u) fun _ h2 =>
    hon_pure ⟨h1, h2⟩

theorem constUtxo_ok (u : UTXO (ZMod p) G) : UOk e (constUtxo u) := ⟨rfl, rfl, rfl⟩

theorem constTx_ok (t : Tx (ZMod p) G) : TOk e (constTx t) := by
  constructor <;>
  · intro u hu
    obtain ⟨v, -, rfl⟩ := List.mem_map.1 hu
    exact constUtxo_ok v

theorem hon_utxoFields {u : UtxoW p G} (h : UOk e u) : Hon L e (utxoFields L.cv u) fun l => ∀ w ∈ l, FOk e w := by
  refine hon_bind (hon_toField h.2.2) fun d hd => hon_bind (hon_coords h.2.1) fun c hc => hon_pure fun w hw => ?_
  rcases List.mem_cons.1 hw with rfl | hw
  · exact h.1
  · rcases List.mem_cons.1 hw with rfl | hw
    · exact hd
    · exact hc w hw

theorem hon_txFields {t : TxW p G} (h : TOk e t) : Hon L e (txFields L.cv t) fun l => ∀ w ∈ l, FOk e w := by
  refine hon_bind (hon_each fun u hu => hon_utxoFields ?_) fun l hl => hon_pure fun w hw => ?_
  · rcases List.mem_append.1 hu with hu | hu
    · exact h.1 u hu
    · exact h.2 u hu
  · obtain ⟨x, hx, hw⟩ := List.mem_flatten.1 hw
    exact hl x hx w hw

theorem hon_utxoHash {u : UtxoW p G} (h : UOk e u) : Hon L e (utxoHash L.cv L.crh u) (FOk e) :=
  hon_bind (hon_utxoFields h) fun _ hl => hon_hash hl
theorem hon_txHash {t : TxW p G} (h : TOk e t) : Hon L e (txHash L.cv L.crh t) (FOk e) :=
  hon_bind (hon_txFields h) fun _ hl => hon_hash hl
theorem hon_pkHash {t : Wire G} (h : POk e t) : Hon L e (pkHash L.cv L.crh t) (FOk e) :=
  hon_bind (hon_coords h) fun _ hl => hon_hash hl

/-! ## Trees -/

theorem hon_updateLoop {l : List (Wire (ZMod p))} {bs : List (Wire Bool)} {o n : Wire (ZMod p)} (hl : ∀ w ∈ l, FOk e w)
    (hb : ∀ w ∈ bs, BOk e w) (ho : FOk e o) (hn : FOk e n) :
    Hon L e (updateLoop L.h2 l bs o n : Tr p G _) fun a => FOk e a.1 ∧ FOk e a.2 := by
  induction l generalizing bs o n with
  | nil => cases bs <;> exact hon_pure ⟨ho, hn⟩
  | cons a l ih =>
    cases bs with
    | nil => exact hon_pure ⟨ho, hn⟩
    | cons b bs =>
      have ha := hl a List.mem_cons_self
      have h0 := hb b List.mem_cons_self
      exact hon_bind (hon_selF h0 ha ho) fun ol h1 => hon_bind (hon_add ho ha) fun t h2 => hon_bind (hon_sub h2 h1) fun or h3 =>
        hon_bind (hon_selF h0 ha hn) fun nl h4 => hon_bind (hon_add hn ha) fun t' h5 => hon_bind (hon_sub h5 h4) fun nr h6 =>
        hon_bind (hon_two h1 h3) fun o1 h7 => hon_bind (hon_two h4 h6) fun n1 h8 =>
        ih (fun w hw => hl w (List.mem_cons_of_mem _ hw)) (fun w hw => hb w (List.mem_cons_of_mem _ hw)) h7 h8

theorem hon_updateRoot {Lf : Type} {LR : Lf → Prop} {leafHash : Lf → Tr p G (Wire (ZMod p))}
    (hh : ∀ a, LR a → Hon L e (leafHash a) (FOk e)) (height : Nat) {l : List (Wire (ZMod p))} {o n : Lf} {i : Wire (ZMod p)}
    (hl : ∀ w ∈ l, FOk e w) (ho : LR o) (hn : LR n) (hi : FOk e i) :
    Hon L e (updateRoot leafHash L.h2 height l o n i) fun a => FOk e a.1 ∧ FOk e a.2 :=
  hon_bind (hon_assert _) fun _ _ => hon_bind (hh o ho) fun a ha => hon_bind (hh n hn) fun b hb =>
    hon_bind (hon_toBits hi) fun bits hbits => hon_updateLoop hl hbits ha hb

theorem hon_condUpdate {Lf : Type} {LR : Lf → Prop} {leafHash : Lf → Tr p G (Wire (ZMod p))}
    (hh : ∀ a, LR a → Hon L e (leafHash a) (FOk e)) (height : Nat) {on : Wire Bool} {l : List (Wire (ZMod p))} {o n : Lf}
    {i r : Wire (ZMod p)} (hon : BOk e on) (hl : ∀ w ∈ l, FOk e w) (ho : LR o) (hn : LR n) (hi : FOk e i) (hr : FOk e r) :
    Hon L e (condUpdate leafHash L.h2 height on i l o n r) (FOk e) :=
  hon_bind (hon_updateRoot hh height hl ho hn hi) fun u hu => hon_bind (hon_condF hr hu.1 hon) fun _ _ => hon_selF hon hu.2 hr

/-- Both operands of a pair. -/
abbrev F2Ok (e : Assignment p G) (x : Wire (ZMod p) × Wire (ZMod p)) : Prop := FOk e x.1 ∧ FOk e x.2

theorem hon_memLoop {on : Wire Bool} {path : List (Wire (ZMod p) × Wire (ZMod p))} {prev : Wire (ZMod p)} (ho : BOk e on)
    (hp : ∀ x ∈ path, F2Ok e x) (hprev : FOk e prev) : Hon L e (memLoop L.h2 on path prev : Tr p G _) (FOk e) := by
  induction path generalizing prev with
  | nil => exact hon_pure hprev
  | cons x path ih =>
    have h0 := hp x List.mem_cons_self
    obtain ⟨l, r⟩ := x
    exact hon_bind (hon_allocB _) fun b hb => hon_bind (hon_selF hb h0.1 h0.2) fun x hx => hon_bind (hon_condF hprev hx ho) fun _ _ =>
      hon_bind (hon_two h0.1 h0.2) fun h hh => ih (fun w hw => hp w (List.mem_cons_of_mem _ hw)) hh

theorem hon_checkMembership {Lf : Type} {LR : Lf → Prop} {leafHash : Lf → Tr p G (Wire (ZMod p))}
    (hh : ∀ a, LR a → Hon L e (leafHash a) (FOk e)) (height : Nat) {path : List (Wire (ZMod p) × Wire (ZMod p))}
    {root : Wire (ZMod p)} {leaf : Lf} {on : Wire Bool} (hp : ∀ x ∈ path, F2Ok e x) (hr : FOk e root) (hl : LR leaf)
    (ho : BOk e on) : Hon L e (checkMembership leafHash L.h2 height path root leaf on) fun _ => True := by
  refine hon_bind (hon_assert _) fun _ _ => hon_bind (hh _ hl) fun lh hlh => ?_
  cases path with
  | nil => exact hon_panic
  | cons x path =>
    have h0 := hp x List.mem_cons_self
    obtain ⟨l, r⟩ := x
    exact hon_bind (hon_allocB _) fun b hb => hon_bind (hon_selF hb h0.1 h0.2) fun x hx => hon_bind (hon_condF hlh hx ho) fun _ _ =>
      hon_bind (hon_memLoop ho hp hlh) fun prev hprev => hon_condF hr hprev ho

theorem hon_memIdxLoop {on : Wire Bool} {path : List (Wire (ZMod p) × Wire (ZMod p))} {bits : List (Wire Bool)}
    {prev : Wire (ZMod p)} (ho : BOk e on) (hp : ∀ x ∈ path, F2Ok e x) (hb : ∀ w ∈ bits, BOk e w) (hprev : FOk e prev) :
    Hon L e (memIdxLoop L.h2 on path bits prev : Tr p G _) (FOk e) := by
  induction path generalizing prev bits with
  | nil => exact hon_pure hprev
  | cons x path ih =>
    have h0 := hp x List.mem_cons_self
    obtain ⟨l, r⟩ := x
    cases bits with
    | nil => exact hon_panic
    | cons bit bits =>
      exact hon_bind (hon_bnot (hb bit List.mem_cons_self)) fun b hb' => hon_bind (hon_selF hb' h0.1 h0.2) fun x hx =>
        hon_bind (hon_condF hprev hx ho) fun _ _ => hon_bind (hon_two h0.1 h0.2) fun h hh =>
        ih (fun w hw => hp w (List.mem_cons_of_mem _ hw)) (fun w hw => hb w (List.mem_cons_of_mem _ hw)) hh

theorem hon_checkMembershipIdx {Lf : Type} {LR : Lf → Prop} {leafHash : Lf → Tr p G (Wire (ZMod p))}
    (hh : ∀ a, LR a → Hon L e (leafHash a) (FOk e)) (height : Nat) {path : List (Wire (ZMod p) × Wire (ZMod p))}
    {root index : Wire (ZMod p)} {leaf : Lf} {on : Wire Bool} (hp : ∀ x ∈ path, F2Ok e x) (hr : FOk e root) (hl : LR leaf)
    (hi : FOk e index) (ho : BOk e on) :
    Hon L e (checkMembershipIdx leafHash L.h2 height path root leaf index on) fun _ => True :=
  hon_bind (hon_assert _) fun _ _ => hon_bind (hh _ hl) fun lh hlh => hon_bind (hon_toBits hi) fun bits hbits =>
    hon_bind (hon_memIdxLoop ho hp hbits hlh) fun prev hprev => hon_condF hr hprev ho

/-! ## Aggregator -/

variable [DecidableEq G]

theorem hon_ownerLoop {sender : Wire G} (hs : POk e sender) {us : List (UtxoW p G)} (hu : ∀ u ∈ us, UOk e u) :
    Hon L e (ownerLoop sender us) fun _ => True := by
  induction us with
  | nil => exact hon_pure trivial
  | cons u us ih =>
    have h0 := hu u List.mem_cons_self
    exact hon_bind (hon_bnot h0.2.2) fun nd hnd => hon_bind (hon_condP h0.2.1 hs hnd) fun _ _ =>
      ih fun u h => hu u (List.mem_cons_of_mem _ h)

theorem hon_sumLoop {op : Wire (ZMod p) → Wire (ZMod p) → Tr p G (Wire (ZMod p))}
    (hop : ∀ x y, FOk e x → FOk e y → Hon L e (op x y) (FOk e)) {us : List (UtxoW p G)} (hu : ∀ u ∈ us, UOk e u)
    {s : Wire (ZMod p)} (hs : FOk e s) : Hon L e (sumLoop op us s) (FOk e) := by
  induction us generalizing s with
  | nil => exact hon_pure hs
  | cons u us ih =>
    have h0 := hu u List.mem_cons_self
    exact hon_bind (hon_selF h0.2.2 rfl h0.1) fun x hx => hon_bind (hop _ _ hs hx) fun s1 h1 =>
      ih (fun u h => hu u (List.mem_cons_of_mem _ h)) h1

theorem hon_enforceValid {t : TxW p G} (h : TOk e t) {sender : Wire G} (hs : POk e sender) :
    Hon L e (enforceValid t sender) fun _ => True :=
  hon_bind (hon_ownerLoop hs h.1) fun _ _ => hon_bind (hon_sumLoop (fun _ _ => hon_add) h.1 rfl) fun _ h1 =>
    hon_bind (hon_sumLoop (fun _ _ => hon_sub) h.2 h1) fun _ h2 => hon_enforceEq h2 rfl

/-- A position and a path. -/
abbrev DOk (e : Assignment p G) (d : Wire (ZMod p) × List (Wire (ZMod p))) : Prop := FOk e d.1 ∧ ∀ w ∈ d.2, FOk e w

/-- The operands of the inputs of one transaction. -/
structure IOk (e : Assignment p G) (i : InputsW p G) : Prop where
  tx : TOk e i.tx
  txProof : ∀ w ∈ i.txProof, FOk e w
  dels : ∀ d ∈ i.dels, DOk e d
  adds : ∀ d ∈ i.adds, DOk e d
  signerProof : ∀ w ∈ i.signerProof, FOk e w
  senderPk : POk e i.senderPk
  sigS : ∀ w ∈ i.sigS, BOk e w
  sigE : ∀ w ∈ i.sigE, BOk e w

theorem hon_allocInputs (i : AggC.CInputs p G) : Hon L e (allocInputs i) (IOk e) :=
  hon_bind (hon_allocTx _) fun _ h1 => hon_bind (hon_allocFs _) fun _ h2 =>
    hon_bind (hon_each fun _ _ => hon_allocFs _) fun _ h3 => hon_bind (hon_each fun _ _ => hon_allocF _) fun _ h4 =>
    hon_bind (hon_each fun _ _ => hon_allocFs _) fun _ h5 => hon_bind (hon_each fun _ _ => hon_allocF _) fun _ h6 =>
    hon_bind (hon_allocFs _) fun _ h7 => hon_bind (hon_allocP _) fun _ h8 => hon_bind (hon_allocBs _) fun _ h9 =>
    hon_bind (hon_allocBs _) fun _ h10 => hon_pure ⟨h1, h2,
      fun d hd => ⟨h4 _ (List.of_mem_zip hd).1, h3 _ (List.of_mem_zip hd).2⟩,
      fun d hd => ⟨h6 _ (List.of_mem_zip hd).1, h5 _ (List.of_mem_zip hd).2⟩, h7, h8, h9, h10⟩

/-- The operands of the state. -/
structure SOk (e : Assignment p G) (z : StateW p) : Prop where
  step : FOk e z.step
  utxoRoot : FOk e z.utxoRoot
  txRoot : FOk e z.txRoot
  txRootFinal : FOk e z.txRootFinal
  signerRoot : FOk e z.signerRoot
  signerAcc : FOk e z.signerAcc
  depositAcc : FOk e z.depositAcc
  withdrawalAcc : FOk e z.withdrawalAcc

variable {P : AggC.Params p G} {cv : Curve p q G}

theorem append_ok {α : Type} {W : α → Prop} {l l' : List α} (h : ∀ w ∈ l, W w) (h' : ∀ w ∈ l', W w) : ∀ w ∈ l ++ l', W w :=
  fun w hw => (List.mem_append.1 hw).elim (h w) (h' w)

theorem hon_delLoop (hL : ForAgg L P cv) {sigOk : Wire Bool} (ho : BOk e sigOk) {us : List (UtxoW p G)} (hu : ∀ u ∈ us, UOk e u)
    {ds : List (Wire (ZMod p) × List (Wire (ZMod p)))} (hd : ∀ d ∈ ds, DOk e d) {r : Wire (ZMod p)} (hr : FOk e r) :
    Hon L e (delLoop cv P.hs sigOk us ds r) (FOk e) := by
  induction us generalizing ds r with
  | nil => cases ds with
    | nil => exact hon_pure hr
    | cons _ _ => exact hon_panic
  | cons u us ih => cases ds with
    | nil => exact hon_panic
    | cons d ds =>
      have h0 := hu u List.mem_cons_self
      have h1 := hd d List.mem_cons_self
      refine hon_bind (hon_bnot h0.2.2) fun nd hnd => hon_bind (hon_band ho hnd) fun on hon => ?_
      rw [hL.cv, hL.crh, hL.h2]
      refine hon_bind (hon_condUpdate (LR := UOk e) (fun _ => hon_utxoHash) _ hon h1.2 h0 (constUtxo_ok _) h1.1 hr) fun r1 hr1 => ?_
      rw [← hL.cv]
      exact ih (fun u h => hu u (List.mem_cons_of_mem _ h)) (fun u h => hd u (List.mem_cons_of_mem _ h)) hr1

theorem hon_depositStep (hL : ForAgg L P cv) {c : Wire Bool} (hc : BOk e c) {u : UtxoW p G} (hu : UOk e u) {dep : Wire (ZMod p)}
    (hd : FOk e dep) : Hon L e (depositStep P cv c u dep) (FOk e) := by
  unfold depositStep
  split
  · exact hon_pure hd
  · rw [hL.cv, hL.sha]
    exact hon_bind (hon_toBytes hd) fun b1 h1 => hon_bind (hon_pointBytes hu.2.1) fun b2 h2 => hon_bind (hon_toNBits _ hu.1) fun _ hb =>
      hon_bind (hon_toByteChunks hb) fun b3 h3 => hon_bind (hon_bnot hu.2.2) fun nd h4 => hon_bind (hon_band hc h4) fun on h5 =>
      hon_bind (hon_shaField (append_ok (append_ok h1 h2) h3)) fun f hf => hon_selF h5 hf hd

theorem hon_addLoop (hL : ForAgg L P cv) {c ok : Wire Bool} (hc : BOk e c) (hok : BOk e ok) {us : List (UtxoW p G)}
    (hu : ∀ u ∈ us, UOk e u) {as : List (Wire (ZMod p) × List (Wire (ZMod p)))} (ha : ∀ d ∈ as, DOk e d)
    {dep w r : Wire (ZMod p)} (hd : FOk e dep) (hw : FOk e w) (hr : FOk e r) :
    Hon L e (addLoop P cv c ok us as dep w r) fun a => FOk e a.1 ∧ FOk e a.2.1 ∧ FOk e a.2.2 := by
  induction us generalizing as dep w r with
  | nil => cases as with
    | nil => exact hon_pure ⟨hd, hw, hr⟩
    | cons _ _ => exact hon_panic
  | cons u us ih => cases as with
    | nil => exact hon_panic
    | cons d as =>
      have h0 := hu u List.mem_cons_self
      have h1 := ha d List.mem_cons_self
      refine hon_bind (hon_isEqP h0.2.1 rfl) fun rc hrc => hon_bind (hon_depositStep hL hc h0 hd) fun dep1 hd1 =>
        hon_bind (hon_bnot h0.2.2) fun nd h3 => hon_bind (hon_band hrc h3) fun isW h4 => hon_bind (hon_selF h4 h0.1 rfl) fun x h5 =>
        hon_bind (hon_add hw h5) fun w1 h6 => hon_bind (hon_bnot hrc) fun nrc h7 => hon_bind (hon_band hok h7) fun on1 h8 =>
        hon_bind (hon_bnot h0.2.2) fun nd' h9 => hon_bind (hon_band h8 h9) fun on h10 => ?_
      have := hon_condUpdate (L := L) (LR := UOk e) (fun _ => hon_utxoHash) UTXO_TREE_HEIGHT h10 h1.2
        (constUtxo_ok (e := e) UTXO.dummy) h0 h1.1 hr
      rw [← hL.cv, ← hL.crh, ← hL.h2] at this
      exact hon_bind this fun r1 hr1 =>
        ih (fun u h => hu u (List.mem_cons_of_mem _ h)) (fun u h => ha u (List.mem_cons_of_mem _ h)) hd1 h6 hr1

theorem hon_withdrawalStep (hL : ForAgg L P cv) {pk : Wire G} {w acc : Wire (ZMod p)} (hpk : POk e pk) (hw : FOk e w)
    (ha : FOk e acc) : Hon L e (withdrawalStep P cv pk w acc) (FOk e) := by
  unfold withdrawalStep
  split
  · exact hon_pure ha
  · rw [hL.cv, hL.sha]
    exact hon_bind (hon_toBytes ha) fun b1 h1 => hon_bind (hon_pointBytes hpk) fun b2 h2 => hon_bind (hon_toNBits _ hw) fun _ hb =>
      hon_bind (hon_toByteChunks hb) fun b3 h3 => hon_bind (hon_isZero hw) fun z h4 =>
      hon_bind (hon_shaField (append_ok (append_ok h1 h2) h3)) fun f hf => hon_selF h4 ha hf

theorem hon_stepOne (hL : ForAgg L P cv) {z : StateW p} {i : InputsW p G} (hz : SOk e z) (hi : IOk e i) :
    Hon L e (stepOne P cv z i) (SOk e) := by
  have ht := hon_updateRoot (L := L) (LR := TOk e) (fun _ => hon_txHash) TX_TREE_HEIGHT hi.txProof
    (constTx_ok (e := e) Tx.default) hi.tx hz.step
  have hs := hon_updateRoot (L := L) (LR := POk e) (fun _ => hon_pkHash) SIGNER_TREE_HEIGHT hi.signerProof
    (o := .const 0) rfl hi.senderPk hz.step
  have hm := hon_txFields (L := L) hi.tx
  have hv : ∀ m, (∀ w ∈ m, FOk e w) → _ := fun m hm => hon_isValid (L := L) 32 hi.senderPk (m := m) hm hi.sigS hi.sigE
  have hp : ∀ k, POk e k → _ := fun k hk => hon_pointBytes (L := L) (e := e) (x := k) hk
  have hf : ∀ l, (∀ w ∈ l, YOk e w) → _ := fun l hl => hon_shaField (L := L) (e := e) (l := l) hl
  rw [← hL.cv, ← hL.crh, ← hL.h2] at ht hs
  rw [← hL.cv] at hm hp
  rw [← hL.cv, ← hL.crh] at hv
  rw [← hL.sha] at hf
  refine hon_bind (hon_assert _) fun _ _ => hon_bind (hon_enforceValid hi.tx hi.senderPk) fun _ _ => hon_bind ht fun u hu =>
    hon_bind (hon_enforceEq hu.1 hz.txRoot) fun _ _ => hon_bind hm fun m hm =>
    hon_bind (hv _ (append_ok hm (by simpa using hz.txRootFinal))) fun sigOk h1 =>
    hon_bind (hon_isEqP hi.senderPk rfl) fun isC h2 => hon_bind (hon_bor h1 h2) fun txOk h3 =>
    hon_bind (hon_delLoop hL h1 hi.tx.1 hi.dels hz.utxoRoot) fun r1 h4 =>
    hon_bind (hon_addLoop hL h2 h3 hi.tx.2 hi.adds hz.depositAcc rfl h4) fun dwr h5 => ?_
  obtain ⟨dep, w, r2⟩ := dwr
  exact hon_bind hs fun s hs => hon_bind (hon_condF hs.1 hz.signerRoot h3) fun _ _ =>
    hon_bind (hon_selF h3 hs.2 hz.signerRoot) fun sr h8 => hon_bind (hon_toBytes hz.signerAcc) fun b1 h9 =>
    hon_bind (hon_selP h3 hi.senderPk rfl) fun k h10 => hon_bind (hp k h10) fun b2 h11 =>
    hon_bind (hf _ (append_ok h9 h11)) fun sa h12 =>
    hon_bind (hon_withdrawalStep hL hi.senderPk h5.2.1 hz.withdrawalAcc) fun wa h13 =>
    hon_bind (hon_add hz.step rfl) fun st h14 =>
    hon_pure ⟨h14, h5.2.2, hu.2, hz.txRootFinal, h8, h12, h5.1, h13⟩

theorem hon_stepBatch (hL : ForAgg L P cv) {z : StateW p} {is : List (InputsW p G)} (hz : SOk e z) (hi : ∀ i ∈ is, IOk e i) :
    Hon L e (stepBatch P cv z is) (SOk e) := by
  induction is generalizing z with
  | nil => exact hon_pure hz
  | cons i is ih =>
    exact hon_bind (hon_stepOne hL hz (hi i List.mem_cons_self)) fun z1 h1 => ih h1 fun i h => hi i (List.mem_cons_of_mem _ h)

theorem hon_allocState (z : AggC.CState p) : Hon L e (allocState z : Tr p G _) (SOk e) :=
  hon_bind (hon_allocF _) fun _ h1 => hon_bind (hon_allocF _) fun _ h2 => hon_bind (hon_allocF _) fun _ h3 =>
    hon_bind (hon_allocF _) fun _ h4 => hon_bind (hon_allocF _) fun _ h5 => hon_bind (hon_allocF _) fun _ h6 =>
    hon_bind (hon_allocF _) fun _ h7 => hon_bind (hon_allocF _) fun _ h8 => hon_pure ⟨h1, h2, h3, h4, h5, h6, h7, h8⟩

theorem hon_aggregatorStep (hL : ForAgg L P cv) (z : AggC.CState p) (is : List (AggC.CInputs p G)) :
    Hon L e (aggregatorStep P cv z is) (SOk e) :=
  hon_bind (hon_allocState z) fun _ hz => hon_bind (hon_each fun i _ => hon_allocInputs i) fun _ hi => hon_stepBatch hL hz hi

/-! ## Client -/

/-- The operands of a block. -/
structure BlkOk (e : Assignment p G) (b : BlockW p) : Prop where
  utxoRoot : FOk e b.utxoRoot
  txRoot : FOk e b.txRoot
  signerRoot : FOk e b.signerRoot
  height : FOk e b.height

theorem hon_allocBlock (b : BlockVar (ZMod p)) : Hon L e (allocBlock b : Tr p G _) (BlkOk e) :=
  hon_bind (hon_allocF _) fun _ h1 => hon_bind (hon_allocF _) fun _ h2 => hon_bind (hon_allocF _) fun _ h3 =>
    hon_bind (hon_allocF _) fun _ h4 => hon_pure ⟨h1, h2, h3, h4⟩

theorem hon_allocPath (l : List (ZMod p × ZMod p)) : Hon L e (allocPath l : Tr p G _) fun a => ∀ x ∈ a, F2Ok e x :=
  hon_each fun _ _ => hon_bind (hon_allocF _) fun _ h1 => hon_bind (hon_allocF _) fun _ h2 => hon_pure ⟨h1, h2⟩

/-- The operands of the inputs of a client's step. -/
structure AOk (e : Assignment p G) (a : AuxW p G) : Prop where
  txProofs : ∀ l ∈ a.txProofs, ∀ x ∈ l, F2Ok e x
  signerProofs : ∀ l ∈ a.signerProofs, ∀ x ∈ l, F2Ok e x
  block : BlkOk e a.block
  transactions : ∀ x ∈ a.transactions, TOk e x.1 ∧ FOk e x.2
  pk : POk e a.pk

theorem hon_allocAux (a : Client.UserAuxVar p G) : Hon L e (allocAux a) (AOk e) :=
  hon_bind (hon_each fun _ _ => hon_allocPath _) fun _ h1 => hon_bind (hon_each fun _ _ => hon_allocPath _) fun _ h2 =>
    hon_bind (hon_allocBlock _) fun _ h3 =>
    hon_bind (hon_each (W := fun x => TOk e x.1 ∧ FOk e x.2) fun _ _ => hon_bind (hon_allocTx _) fun _ g1 =>
      hon_bind (hon_allocF _) fun _ g2 => hon_pure ⟨g1, g2⟩) fun _ h4 =>
    hon_bind (hon_allocP _) fun _ h5 => hon_pure ⟨h1, h2, h3, h4, h5⟩

theorem hon_signerLoop {us : List (UtxoW p G)} (hu : ∀ u ∈ us, UOk e u) {pk : Wire G} (hpk : POk e pk) :
    Hon L e (signerLoop us pk) (POk e) := by
  induction us generalizing pk with
  | nil => exact hon_pure hpk
  | cons u us ih =>
    have h0 := hu u List.mem_cons_self
    exact hon_bind (hon_selP h0.2.2 hpk h0.2.1) fun _ h => ih (fun u h => hu u (List.mem_cons_of_mem _ h)) h

theorem hon_balanceLoop {op : Wire (ZMod p) → Wire (ZMod p) → Tr p G (Wire (ZMod p))}
    (hop : ∀ x y, FOk e x → FOk e y → Hon L e (op x y) (FOk e)) {pk : Wire G} (hpk : POk e pk) {us : List (UtxoW p G)}
    (hu : ∀ u ∈ us, UOk e u) {b : Wire (ZMod p)} (hb : FOk e b) : Hon L e (balanceLoop op pk us b) (FOk e) := by
  induction us generalizing b with
  | nil => exact hon_pure hb
  | cons u us ih =>
    have h0 := hu u List.mem_cons_self
    exact hon_bind (hon_isEqP h0.2.1 hpk) fun _ h1 => hon_bind (hon_toField h1) fun _ h2 => hon_bind (hon_mul h0.1 h2) fun _ h3 =>
      hon_bind (hop _ _ hb h3) fun _ h4 => ih (fun u h => hu u (List.mem_cons_of_mem _ h)) h4

/-- The operands of the loop. -/
structure LOk (e : Assignment p G) (s : LoopW p) : Prop where
  balance : FOk e s.balance
  nonce : FOk e s.nonce
  prevTxIndex : FOk e s.prevTxIndex

variable {PC : Client.Params p} {hs : Hashes p} {A : AccKind}

theorem hon_txStep (hL : ForTx L PC cv) {blk : BlockW p} {pk : Wire G} {s : LoopW p} {t : TxW p G} {index : Wire (ZMod p)}
    {tp sp : List (Wire (ZMod p) × Wire (ZMod p))} (hb : BlkOk e blk) (hpk : POk e pk) (hs : LOk e s) (ht : TOk e t)
    (hi : FOk e index) (htp : ∀ x ∈ tp, F2Ok e x) (hsp : ∀ x ∈ sp, F2Ok e x) :
    Hon L e (txStep PC cv blk pk s t index tp sp) (LOk e) := by
  have hh := hon_txHash (L := L) ht
  have hidx : ∀ on, BOk e on → _ := fun on ho => hon_checkMembershipIdx (L := L) (LR := TOk e) (fun _ => hon_txHash) TX_TREE_HEIGHT
    htp hb.txRoot ht hi ho
  have hmem : ∀ k on, POk e k → BOk e on → _ := fun k on hk ho => hon_checkMembership (L := L) (LR := POk e)
    (fun _ => hon_pkHash) SIGNER_TREE_HEIGHT hsp hb.signerRoot (leaf := k) hk ho
  rw [← hL.cv, ← hL.crh] at hh
  rw [← hL.cv, ← hL.crh, ← hL.h2] at hidx hmem
  exact hon_bind hh fun h h1 => hon_bind (hon_isEqF h1 rfl) fun eq h2 => hon_bind (hon_bnot h2) fun reg h3 =>
    hon_bind (hon_isLess hs.prevTxIndex hi) fun lower h4 => hon_bind (hon_condB h4 rfl h3) fun _ _ =>
    hon_bind (hidx reg h3) fun _ _ => hon_bind (hon_signerLoop ht.1 rfl) fun signer h7 =>
    hon_bind (hmem signer reg h7 h3) fun _ _ => hon_bind (hon_isEqP hpk h7) fun isU h9 => hon_bind (hon_toField h9) fun f h10 =>
    hon_bind (hon_add hs.nonce h10) fun nonce h11 =>
    hon_bind (hon_balanceLoop (fun _ _ => hon_sub) hpk ht.1 hs.balance) fun b1 h12 =>
    hon_bind (hon_balanceLoop (fun _ _ => hon_add) hpk ht.2 h12) fun b2 h13 => hon_bind (hon_toField h3) fun r1 h14 =>
    hon_bind (hon_sub rfl h14) fun c h15 => hon_bind (hon_mul h15 hs.prevTxIndex) fun x h16 => hon_bind (hon_toField h3) fun r2 h17 =>
    hon_bind (hon_mul h17 hi) fun y h18 => hon_bind (hon_add h16 h18) fun prev h19 => hon_pure ⟨h13, h11, h19⟩

theorem hon_txLoop (hL : ForTx L PC cv) {blk : BlockW p} {pk : Wire G} (hb : BlkOk e blk) (hpk : POk e pk)
    {l : List (((TxW p G × Wire (ZMod p)) × List (Wire (ZMod p) × Wire (ZMod p))) × List (Wire (ZMod p) × Wire (ZMod p)))}
    (h : ∀ x ∈ l, ((TOk e x.1.1.1 ∧ FOk e x.1.1.2) ∧ ∀ y ∈ x.1.2, F2Ok e y) ∧ ∀ y ∈ x.2, F2Ok e y) {s : LoopW p} (hs : LOk e s) :
    Hon L e (txLoop PC cv blk pk l s) (LOk e) := by
  induction l generalizing s with
  | nil => exact hon_pure hs
  | cons x l ih =>
    obtain ⟨⟨⟨h1, h2⟩, h3⟩, h4⟩ := h x List.mem_cons_self
    exact hon_bind (hon_txStep hL hb hpk hs h1 h2 h3 h4) fun _ h' => ih (fun x hx => h x (List.mem_cons_of_mem _ hx)) h'

/-- The operands of the client's state. -/
structure UsOk (e : Assignment p G) (z : UStateW p) : Prop where
  balance : FOk e z.balance
  nonce : FOk e z.nonce
  pkHash : FOk e z.pkHash
  acc : FOk e z.acc
  prevBlockHash : FOk e z.prevBlockHash
  prevBlockNumber : FOk e z.prevBlockNumber
  prevTxIndex : FOk e z.prevTxIndex

theorem hon_accumulate (hL : ForClient L hs A cv) {x y : Wire (ZMod p)} (hx : FOk e x) (hy : FOk e y) :
    Hon L e (accumulate A hs x y : Tr p G _) (FOk e) := by
  cases A with
  | poseidon =>
    have := hon_two (L := L) (e := e) hx hy
    rw [← hL.h2] at this
    exact this
  | sha s =>
    obtain rfl := hL.sha s rfl
    exact hon_bind (hon_toBytes hy) fun r h1 => hon_bind (hon_toBytes hx) fun l h2 =>
      hon_bind (hon_digest (append_ok h2 h1)) fun d h3 => hon_packBytes fun w hw => h3 w (List.mem_of_mem_dropLast hw)

theorem hon_updateBalance (hL : ForClient L hs A cv) (n : Nat) {z : UStateW p} {w : AuxW p G} (hz : UsOk e z) (h : AOk e w) :
    Hon L e (updateBalance hs A cv n z w) (UsOk e) := by
  have hk := hon_pkHash (L := L) h.pk
  have hb : ∀ l, (∀ w ∈ l, FOk e w) → _ := fun l hl => hon_hash (L := L) (e := e) (l := l) hl
  rw [← hL.cv, ← hL.crh] at hk
  rw [← hL.crh] at hb
  refine hon_bind (hon_assert _) fun _ _ => hon_bind (hon_assert _) fun _ _ => hon_bind (hon_assert _) fun _ _ =>
    hon_bind hk fun k h4 => hon_bind (hon_enforceEq h4 hz.pkHash) fun _ _ => hon_bind (hb _ ?_) fun bh h6 =>
    hon_bind (hon_accumulate hL hz.acc h6) fun acc h7 =>
    hon_bind (hon_enforceLe hz.prevBlockNumber h.block.height) fun _ _ => hon_bind (hon_isEqF h6 hz.prevBlockHash) fun same h9 =>
    hon_bind (hon_selF h9 hz.prevTxIndex rfl) fun prev h10 =>
    hon_bind (hon_txLoop hL.tx h.block h.pk (fun x hx => ?_) ⟨hz.balance, hz.nonce, h10⟩) fun s h11 =>
    hon_pure ⟨h11.balance, h11.nonce, hz.pkHash, h7, h6, h.block.height, h11.prevTxIndex⟩
  · simpa using ⟨h.block.utxoRoot, h.block.txRoot, h.block.signerRoot, h.block.height⟩
  · have h1 := List.of_mem_zip hx
    have h2 := List.of_mem_zip h1.1
    exact ⟨⟨h.transactions _ h2.1, h.txProofs _ h2.2⟩, h.signerProofs _ h1.2⟩

theorem hon_allocUState (z : Client.UState p) : Hon L e (allocUState z : Tr p G _) (UsOk e) :=
  hon_bind (hon_allocF _) fun _ h1 => hon_bind (hon_allocF _) fun _ h2 => hon_bind (hon_allocF _) fun _ h3 =>
    hon_bind (hon_allocF _) fun _ h4 => hon_bind (hon_allocF _) fun _ h5 => hon_bind (hon_allocF _) fun _ h6 =>
    hon_bind (hon_allocF _) fun _ h7 => hon_pure ⟨h1, h2, h3, h4, h5, h6, h7⟩

theorem hon_clientStep (hL : ForClient L hs A cv) (n : Nat) (z : Client.UState p) (a : Client.UserAuxVar p G) :
    Hon L e (clientStep hs A cv n z a) (UsOk e) :=
  hon_bind (hon_allocUState z) fun _ hz => hon_bind (hon_allocAux a) fun _ ha => hon_updateBalance hL n hz ha

end PF.Prog
