import Verif.Spec.Layout
import Verif.Proof.ProgramComplete
import Verif.Proof.ProgramValues

/-!
# The leading variables of a program hold the state and the inputs
-/
set_option linter.unusedSectionVars false

namespace PF.Prog
open PF PF.Circuit
variable {p q : Nat} {G α β γ : Type}

/-- A value as a constant operand. -/
def Value.arg : Value p G → Arg p G
  | .field c => .field (.const c)
  | .bool c => .bool (.const c)
  | .point c => .point (.const c)

theorem fills_iff {e : Assignment p G} {n : Nat} {l : List (Value p G)} :
    e.Fills n l ↔ BoundAll e n (l.map Value.arg) := by
  rw [boundAll_iff]
  have hb : ∀ (k : Nat) (v : Value p G), e.Has k v ↔ Bound e k v.arg := by
    intro k v
    cases v <;> rfl
  constructor
  · intro h k a hk
    rw [List.getElem?_map] at hk
    obtain ⟨v, hv, rfl⟩ := Option.map_eq_some_iff.1 hk
    exact (hb _ _).1 (h k v hv)
  · intro h k v hk
    exact (hb _ _).2 (h k v.arg (by rw [List.getElem?_map, hk]; rfl))

theorem fills_append {e : Assignment p G} {n : Nat} {l l' : List (Value p G)} :
    e.Fills n (l ++ l') ↔ e.Fills n l ∧ e.Fills (n + l.length) l' := by
  rw [fills_iff, fills_iff, fills_iff, List.map_append, boundAll_append, List.length_map]

theorem flatMap_one {f : α → Value p G} (l : List α) : (l.flatMap fun a => [f a]) = l.map f := by
  induction l with
  | nil => rfl
  | cons a l ih => rw [List.flatMap_cons, ih]; rfl

section
variable [AddCommGroup G]

/-- A synthesis that only allocates the values `vs`. -/
def Lay (m : Tr p G α) (vs : List (Value p G)) : Prop :=
  ∀ n a o, m n = some (a, o) → o.log.flatMap Entry.vals = vs.map Value.arg

theorem lay_bind {m : Tr p G α} {k : α → Tr p G β} {vs ws : List (Value p G)} (hm : Lay m vs) (hk : ∀ a, Lay (k a) ws) :
    Lay (m >>= k) (vs ++ ws) := by
  intro n b o h
  obtain ⟨a, o1, o2, h1, h2, h3, -⟩ := bind_some h
  rw [h3, List.flatMap_append, hm _ _ _ h1, hk _ _ _ _ h2, List.map_append]

theorem lay_pure {a : α} : Lay (pure a : Tr p G α) [] := by
  intro n b o h
  cases h
  rfl

theorem lay_last {m : Tr p G α} {k : α → β} {vs : List (Value p G)} (hm : Lay m vs) :
    Lay (m >>= fun a => (pure (k a) : Tr p G β)) vs := by
  have := lay_bind hm fun a => lay_pure (p := p) (G := G) (a := k a)
  rwa [List.append_nil] at this

theorem lay_each {k : α → Tr p G β} {f : α → List (Value p G)} (hk : ∀ a, Lay (k a) (f a)) (l : List α) :
    Lay (each k l) (l.flatMap f) := by
  induction l with
  | nil => exact lay_pure
  | cons a l ih =>
    rw [List.flatMap_cons]
    exact lay_bind (hk a) fun b => lay_last ih

theorem lay_allocF (v : ZMod p) : Lay (allocF v : Tr p G _) [.field v] := by
  intro n a o h
  cases h
  rfl
theorem lay_allocB (v : Bool) : Lay (allocB v : Tr p G _) [.bool v] := by
  intro n a o h
  cases h
  rfl
theorem lay_allocP (v : G) : Lay (allocP v : Tr p G _) [.point v] := by
  intro n a o h
  cases h
  rfl
theorem lay_allocFs (v : List (ZMod p)) : Lay (allocFs v : Tr p G _) (v.map .field) := by
  intro n a o h
  cases h
  simp only [List.flatMap_cons, List.flatMap_nil, List.append_nil, List.map_map]
  rfl
theorem lay_allocBs (v : List Bool) : Lay (allocBs v : Tr p G _) (v.map .bool) := by
  intro n a o h
  cases h
  simp only [List.flatMap_cons, List.flatMap_nil, List.append_nil, List.map_map]
  rfl

theorem lay_allocUtxo (u : UTXO (ZMod p) G) : Lay (allocUtxo u) (utxoLayout u) :=
  lay_bind (lay_allocF _) fun _ => lay_bind (lay_allocP _) fun _ => lay_last (lay_allocB _)

theorem lay_allocTx (t : Tx (ZMod p) G) : Lay (allocTx t) (txLayout t) :=
  lay_bind (lay_each lay_allocUtxo _) fun _ => lay_last (lay_each lay_allocUtxo _)

theorem lay_eachF (l : List (ZMod p)) : Lay (each allocF l : Tr p G _) (l.map .field) := by
  rw [← flatMap_one]
  exact lay_each lay_allocF l

theorem lay_allocInputs (i : AggC.CInputs p G) : Lay (allocInputs i) (inputsLayout i) := by
  have := lay_bind (lay_allocTx i.tx) fun t => lay_bind (lay_allocFs i.txProof) fun txProof =>
    lay_bind (lay_each (lay_allocFs (p := p) (G := G)) (i.dels.map (·.2))) fun dels => lay_bind (lay_eachF (i.dels.map (·.1))) fun delPos =>
    lay_bind (lay_each (lay_allocFs (p := p) (G := G)) (i.adds.map (·.2))) fun adds => lay_bind (lay_eachF (i.adds.map (·.1))) fun addPos =>
    lay_bind (lay_allocFs i.signerProof) fun signerProof => lay_bind (lay_allocP i.senderPk) fun senderPk =>
    lay_bind (lay_allocBs i.sigS) fun sigS => lay_last (k := fun sigE => (⟨t, txProof, delPos.zip dels, addPos.zip adds, signerProof, senderPk, sigS, sigE⟩ : InputsW p G)) (lay_allocBs i.sigE)
  unfold inputsLayout
  simp only [List.flatMap_map, List.map_map, List.append_assoc] at this ⊢
  exact this

theorem lay_allocState (z : AggC.CState p) : Lay (allocState z : Tr p G _) (z.toList.map .field) :=
  lay_bind (lay_allocF _) fun _ => lay_bind (lay_allocF _) fun _ => lay_bind (lay_allocF _) fun _ =>
    lay_bind (lay_allocF _) fun _ => lay_bind (lay_allocF _) fun _ => lay_bind (lay_allocF _) fun _ =>
    lay_bind (lay_allocF _) fun _ => lay_last (lay_allocF _)

theorem lay_allocPath (l : List (ZMod p × ZMod p)) : Lay (allocPath l : Tr p G _) (pathLayout l) := by
  have hk : ∀ x : ZMod p × ZMod p, Lay (do
      let a ← allocF x.1
      let b ← allocF x.2
      pure (a, b) : Tr p G _) [.field x.1, .field x.2] :=
    fun x => lay_bind (lay_allocF x.1) fun a => lay_last (k := fun b => (a, b)) (lay_allocF x.2)
  exact lay_each hk l

theorem lay_allocBlock (b : BlockVar (ZMod p)) :
    Lay (allocBlock b : Tr p G _) [.field b.utxoRoot, .field b.txRoot, .field b.signerRoot, .field b.height] :=
  lay_bind (lay_allocF _) fun _ => lay_bind (lay_allocF _) fun _ => lay_bind (lay_allocF _) fun _ => lay_last (lay_allocF _)

theorem lay_allocAux (a : Client.UserAuxVar p G) : Lay (allocAux a) (auxLayout a) := by
  have := lay_bind (lay_each (lay_allocPath (p := p) (G := G)) a.txProofs) fun txProofs =>
    lay_bind (lay_each (lay_allocPath (p := p) (G := G)) a.signerProofs) fun signerProofs => lay_bind (lay_allocBlock a.block) fun block =>
    lay_bind (lay_each (fun x : Tx (ZMod p) G × ZMod p => lay_bind (lay_allocTx x.1) fun t =>
      lay_last (k := fun i => (t, i)) (lay_allocF x.2)) a.transactions) fun transactions =>
    lay_last (k := fun pk => (⟨txProofs, signerProofs, block, transactions, pk⟩ : AuxW p G)) (lay_allocP a.pk)
  unfold auxLayout
  simp only [List.append_assoc] at this ⊢
  exact this

theorem lay_allocUState (z : Client.UState p) : Lay (allocUState z : Tr p G _) (z.toList.map .field) :=
  lay_bind (lay_allocF _) fun _ => lay_bind (lay_allocF _) fun _ => lay_bind (lay_allocF _) fun _ =>
    lay_bind (lay_allocF _) fun _ => lay_bind (lay_allocF _) fun _ => lay_bind (lay_allocF _) fun _ => lay_last (lay_allocF _)

end

/-! ## From layouts to the values read -/

section
variable [AddCommGroup G] [Module (ZMod q) G]
variable {L : Lib p q G} {e : Assignment p G}

theorem read_utxo {u : UtxoW p G} (h : UOk e u) : u.read e = u.val := by
  unfold UtxoW.read UtxoW.val
  rw [h.1, h.2.1, h.2.2]

theorem reads_tx {t : TxW p G} {v : Tx (ZMod p) G} (h : TOk e t) (hv : TxIs t v) : TxReads e t v :=
  ⟨(List.map_congr_left fun u hu => read_utxo (h.1 u hu)).trans hv.1,
    (List.map_congr_left fun u hu => read_utxo (h.2 u hu)).trans hv.2⟩

theorem reads_pos {l : List (Wire (ZMod p) × List (Wire (ZMod p)))} (h : ∀ d ∈ l, DOk e d) :
    l.map (fun d => (e.fw d.1, d.2.map e.fw)) = l.map posVal := by
  refine List.map_congr_left fun d hd => ?_
  show (e.fw d.1, d.2.map e.fw) = (d.1.val, d.2.map Wire.val)
  rw [(h d hd).1, fs (h d hd).2]

theorem reads_inputs {w : InputsW p G} {i : AggC.CInputs p G} (h : IOk e w) (hv : InputsIs w i) : InReads e w i :=
  ⟨reads_tx h.tx hv.tx, (fs h.txProof).trans hv.txProof, (reads_pos h.dels).trans hv.dels, (reads_pos h.adds).trans hv.adds,
    (fs h.signerProof).trans hv.signerProof, h.senderPk.trans hv.senderPk, (bs h.sigS).trans hv.sigS, (bs h.sigE).trans hv.sigE⟩

theorem reads_path {l : List (List (Wire (ZMod p) × Wire (ZMod p)))} (h : ∀ x ∈ l, ∀ y ∈ x, F2Ok e y) :
    l.map (List.map e.fw2) = l.map (List.map vals2) := by
  refine List.map_congr_left fun x hx => List.map_congr_left fun y hy => ?_
  show (e.fw y.1, e.fw y.2) = (y.1.val, y.2.val)
  rw [(h x hx y hy).1, (h x hx y hy).2]

theorem reads_aux {w : AuxW p G} {a : Client.UserAuxVar p G} (h : AOk e w) (hv : AuxIs w a) : AuxReads e w a := by
  refine ⟨(reads_path h.txProofs).trans hv.txProofs, (reads_path h.signerProofs).trans hv.signerProofs, ?_, ?_, h.pk.trans hv.pk⟩
  · rw [← hv.block]
    unfold BlockW.read BlockW.val
    rw [h.block.utxoRoot, h.block.txRoot, h.block.signerRoot, h.block.height]
  · have h1 := h.transactions
    have h2 := hv.transactions
    generalize w.transactions = l at h1 h2
    generalize a.transactions = m at h2
    induction h2 with
    | nil => exact .nil
    | cons hd tl ih =>
      have h0 := h1 _ List.mem_cons_self
      exact .cons ⟨reads_tx h0.1 hd.1, h0.2.trans hd.2⟩ (ih fun x hx => h1 x (List.mem_cons_of_mem _ hx))

theorem sim_value {R : α → β → Prop} {m : Tr p G α} {v : β} (h : Sim R m (pure v)) {n : Nat} {a : α} {o : Out p G}
    (he : m n = some (a, o)) : R a v := by
  obtain ⟨a', o', h1, h2, -⟩ := h n
  rw [he] at h1
  cases h1
  exact h2

theorem forall₂_and_left {R S : α → β → Prop} {W : α → Prop} {l : List α} {m : List β} (h : List.Forall₂ R l m)
    (hw : ∀ x ∈ l, W x) (hs : ∀ a b, W a → R a b → S a b) : List.Forall₂ S l m := by
  induction h with
  | nil => exact .nil
  | cons hd tl ih => exact .cons (hs _ _ (hw _ List.mem_cons_self) hd) (ih fun x hx => hw x (List.mem_cons_of_mem _ hx))

/-- What the operands returned by an allocation hold when the leading variables have the values allocated. -/
theorem assigned_of_fills {m : Tr p G α} {vs : List (Value p G)} (hl : Lay m vs) {n : Nat} {a : α} {o : Out p G}
    (he : m n = some (a, o)) (hf : e.Fills n vs) : Assigned e n o.log := by
  rw [assigned_flat, hl _ _ _ he]
  exact fills_iff.1 hf

theorem width_of_lay {m : Tr p G α} {vs : List (Value p G)} (hl : Lay m vs) {n : Nat} {a : α} {o : Out p G}
    (he : m n = some (a, o)) : width o.log = vs.length := by
  have h := congrArg List.length (hl _ _ _ he)
  rw [List.length_map] at h
  rw [← h]
  generalize o.log = l
  clear h he
  induction l with
  | nil => rfl
  | cons x l ih => rw [List.flatMap_cons, List.length_append, ← ih]; rfl

end

/-! ## Every assignment gives some inputs -/

section
variable (e : Assignment p G)

theorem fills_congr {e e' : Assignment p G} {n hi : Nat} {l : List (Value p G)} (h : Agree n hi e e') (hl : n + l.length ≤ hi)
    (hf : e.Fills n l) : e'.Fills n l := by
  intro k v hk
  have hk' : k < l.length := (List.getElem?_eq_some_iff.1 hk).1
  obtain ⟨h1, h2, h3⟩ := h (n + k) (by omega) (by omega)
  have := hf k v hk
  cases v with
  | field c => exact h1.symm.trans this
  | bool c => exact h2.symm.trans this
  | point c => exact h3.symm.trans this

theorem fills_nil (n : Nat) : e.Fills n [] := fun k v h => by simp at h

/-- Reading `k` items of `w` variables each. -/
theorem exists_each {f : α → List (Value p G)} {Q : α → Prop} {w : Nat}
    (hf : ∀ n, ∃ a, Q a ∧ (f a).length = w ∧ e.Fills n (f a)) (k n : Nat) :
    ∃ l : List α, l.length = k ∧ (∀ a ∈ l, Q a) ∧ (l.flatMap f).length = k * w ∧ e.Fills n (l.flatMap f) := by
  induction k generalizing n with
  | zero => exact ⟨[], rfl, by simp, by simp, fills_nil e n⟩
  | succ k ih =>
    obtain ⟨a, h1, h2, h3⟩ := hf n
    obtain ⟨l, g1, g2, g3, g4⟩ := ih (n + w)
    refine ⟨a :: l, by simp [g1], ?_, ?_, ?_⟩
    · intro x hx
      rcases List.mem_cons.1 hx with rfl | hx
      · exact h1
      · exact g2 x hx
    · rw [List.flatMap_cons, List.length_append, g3, h2, Nat.succ_mul, Nat.add_comm]
    · rw [List.flatMap_cons, fills_append, h2]
      exact ⟨h3, g4⟩

theorem fills_one {n : Nat} {v : Value p G} (h : e.Has n v) : e.Fills n [v] := by
  intro k w hk
  cases k with
  | zero =>
    cases hk
    exact h
  | succ k => simp at hk

theorem exists_F (k n : Nat) : ∃ l : List (ZMod p), l.length = k ∧ e.Fills n (l.map .field) := by
  obtain ⟨l, h1, -, -, h2⟩ := exists_each e (f := fun c : ZMod p => [Value.field c]) (Q := fun _ => True) (w := 1)
    (fun n => ⟨e.field n, trivial, rfl, fills_one e rfl⟩) k n
  rw [flatMap_one] at h2
  exact ⟨l, h1, h2⟩

theorem exists_B (k n : Nat) : ∃ l : List Bool, l.length = k ∧ e.Fills n (l.map .bool) := by
  obtain ⟨l, h1, -, -, h2⟩ := exists_each e (f := fun c : Bool => [Value.bool c]) (Q := fun _ => True) (w := 1)
    (fun n => ⟨e.bool n, trivial, rfl, fills_one e rfl⟩) k n
  rw [flatMap_one] at h2
  exact ⟨l, h1, h2⟩

theorem exists_utxo (n : Nat) : ∃ u : UTXO (ZMod p) G, True ∧ (utxoLayout u).length = 3 ∧ e.Fills n (utxoLayout u) := by
  refine ⟨⟨e.field n, e.point (n + 1), e.bool (n + 2)⟩, trivial, rfl, ?_⟩
  intro k v hk
  match k, hk with
  | 0, hk => cases hk; exact rfl
  | 1, hk => cases hk; exact rfl
  | 2, hk => cases hk; exact rfl
  | k + 3, hk => simp [utxoLayout] at hk

theorem txLayout_length (t : Tx (ZMod p) G) : (txLayout t).length = 3 * (TX_IO_SIZE + TX_IO_SIZE) := by
  have h : ∀ l : List (UTXO (ZMod p) G), (l.flatMap utxoLayout).length = 3 * l.length := by
    intro l
    induction l with
    | nil => rfl
    | cons u l ih => rw [List.flatMap_cons, List.length_append, ih, List.length_cons, show (utxoLayout u).length = 3 from rfl]; omega
  rw [txLayout, List.length_append, h, h, Vector.length_toList, Vector.length_toList, Nat.mul_add]

theorem exists_tx (n : Nat) : ∃ t : Tx (ZMod p) G, e.Fills n (txLayout t) := by
  obtain ⟨l, h1, -, h2, h3⟩ := exists_each e (Q := fun _ => True) (exists_utxo e) TX_IO_SIZE n
  obtain ⟨m, g1, -, g2, g3⟩ := exists_each e (Q := fun _ => True) (exists_utxo e) TX_IO_SIZE (n + TX_IO_SIZE * 3)
  refine ⟨⟨⟨l.toArray, by simp [h1]⟩, ⟨m.toArray, by simp [g1]⟩⟩, ?_⟩
  show e.Fills n (l.flatMap utxoLayout ++ m.flatMap utxoLayout)
  rw [fills_append, h2]
  exact ⟨h3, g3⟩

theorem exists_paths (k w n : Nat) : ∃ l : List (List (ZMod p)), l.length = k ∧ (∀ x ∈ l, x.length = w) ∧
    (l.flatMap fun x => x.map (Value.field (G := G))).length = k * w ∧ e.Fills n (l.flatMap fun x => x.map .field) :=
  exists_each e (fun n => by
    obtain ⟨l, h1, h2⟩ := exists_F e w n
    exact ⟨l, h1, by simp [h1], h2⟩) k n

theorem zip_first {a : List α} {b : List β} (h : a.length = b.length) (f : α → γ) : (a.zip b).map (fun d => f d.1) = a.map f := by
  rw [show (fun d : α × β => f d.1) = f ∘ Prod.fst from rfl, ← List.map_map, List.map_fst_zip (by omega)]

theorem zip_second {a : List α} {b : List β} (h : a.length = b.length) (f : β → List γ) :
    (a.zip b).flatMap (fun d => f d.2) = b.flatMap f := by
  rw [← List.flatMap_map (g := f) (f := Prod.snd), List.map_snd_zip (by omega)]

/-- Paths, then positions. -/
def posLayout (l : List (ZMod p × List (ZMod p))) : List (Value p G) :=
  l.flatMap (fun d => d.2.map .field) ++ l.map fun d => .field d.1

theorem exists_positions (k w n : Nat) : ∃ l : List (ZMod p × List (ZMod p)), l.length = k ∧ (∀ x ∈ l, x.2.length = w) ∧
    e.Fills n (posLayout l) := by
  obtain ⟨b, h1, h2, h3, h4⟩ := exists_paths e k w n
  obtain ⟨a, g1, g2⟩ := exists_F e k (n + k * w)
  have hab : a.length = b.length := by omega
  refine ⟨a.zip b, by simp [g1, h1], fun x hx => h2 _ (List.of_mem_zip hx).2, ?_⟩
  rw [posLayout, zip_second hab fun x => x.map (Value.field (G := G)), zip_first hab (Value.field (G := G)), fills_append, h3]
  exact ⟨h4, g2⟩

theorem flatMap_length_const {f : α → List γ} {w : Nat} {l : List α} (h : ∀ a ∈ l, (f a).length = w) :
    (l.flatMap f).length = l.length * w := by
  induction l with
  | nil => simp
  | cons a l ih =>
    rw [List.flatMap_cons, List.length_append, h a List.mem_cons_self, ih fun x hx => h x (List.mem_cons_of_mem _ hx),
      List.length_cons, Nat.succ_mul, Nat.add_comm]

theorem inputsLayout_length {i : AggC.CInputs p G} (h : Wit.Shaped q i) : (inputsLayout i).length = inputVars q := by
  have h1 : (i.dels.flatMap fun d => d.2.map (Value.field (G := G))).length = TX_IO_SIZE * (UTXO_TREE_HEIGHT - 1) := by
    rw [flatMap_length_const (w := UTXO_TREE_HEIGHT - 1) fun d hd => by rw [List.length_map, h.delPaths d hd], h.dels]
  have h2 : (i.adds.flatMap fun d => d.2.map (Value.field (G := G))).length = TX_IO_SIZE * (UTXO_TREE_HEIGHT - 1) := by
    rw [flatMap_length_const (w := UTXO_TREE_HEIGHT - 1) fun d hd => by rw [List.length_map, h.addPaths d hd], h.adds]
  unfold inputsLayout inputVars
  simp only [List.length_append, List.length_map, h1, h2, h.dels, h.adds, h.sigS, h.sigE, h.txProof, h.signerProof,
    txLayout_length, List.length_cons, List.length_nil]
  omega

theorem exists_inputs (q n : Nat) : ∃ i : AggC.CInputs p G, Wit.Shaped q i ∧ (inputsLayout i).length = inputVars q ∧
    e.Fills n (inputsLayout i) := by
  obtain ⟨tx, h1⟩ := exists_tx e n
  obtain ⟨txProof, a2, h2⟩ := exists_F e (TX_TREE_HEIGHT - 1) (n + (txLayout tx).length)
  obtain ⟨p1, e1⟩ : ∃ l : List (Value p G), l = txLayout tx ++ txProof.map .field := ⟨_, rfl⟩
  obtain ⟨dels, a3, b3, h3⟩ := exists_positions e TX_IO_SIZE (UTXO_TREE_HEIGHT - 1) (n + p1.length)
  obtain ⟨p2, e2⟩ : ∃ l : List (Value p G), l = p1 ++ posLayout dels := ⟨_, rfl⟩
  obtain ⟨adds, a4, b4, h4⟩ := exists_positions e TX_IO_SIZE (UTXO_TREE_HEIGHT - 1) (n + p2.length)
  obtain ⟨p3, e3⟩ : ∃ l : List (Value p G), l = p2 ++ posLayout adds := ⟨_, rfl⟩
  obtain ⟨sp, a5, h5⟩ := exists_F e (SIGNER_TREE_HEIGHT - 1) (n + p3.length)
  obtain ⟨p4, e4⟩ : ∃ l : List (Value p G), l = p3 ++ sp.map .field := ⟨_, rfl⟩
  obtain ⟨p5, e5⟩ : ∃ l : List (Value p G), l = p4 ++ [.point (e.point (n + p4.length))] := ⟨_, rfl⟩
  obtain ⟨s, a6, h6⟩ := exists_B e (modBits q) (n + p5.length)
  obtain ⟨p6, e6⟩ : ∃ l : List (Value p G), l = p5 ++ s.map .bool := ⟨_, rfl⟩
  obtain ⟨c, a7, h7⟩ := exists_B e (modBits q) (n + p6.length)
  have hs : Wit.Shaped q (⟨tx, txProof, dels, adds, sp, e.point (n + p4.length), s, c⟩ : AggC.CInputs p G) :=
    ⟨a6, a7, a2, a3, b3, a4, b4, a5⟩
  refine ⟨_, hs, inputsLayout_length hs, ?_⟩
  have : inputsLayout (⟨tx, txProof, dels, adds, sp, e.point (n + p4.length), s, c⟩ : AggC.CInputs p G) = p6 ++ c.map .bool := by
    rw [e6, e5, e4, e3, e2, e1]
    simp only [inputsLayout, posLayout, List.append_assoc]
  have f1 : e.Fills n p1 := by rw [e1, fills_append]; exact ⟨h1, h2⟩
  have f2 : e.Fills n p2 := by rw [e2, fills_append]; exact ⟨f1, h3⟩
  have f3 : e.Fills n p3 := by rw [e3, fills_append]; exact ⟨f2, h4⟩
  have f4 : e.Fills n p4 := by rw [e4, fills_append]; exact ⟨f3, h5⟩
  have f5 : e.Fills n p5 := by rw [e5, fills_append]; exact ⟨f4, fills_one e rfl⟩
  have f6 : e.Fills n p6 := by rw [e6, fills_append]; exact ⟨f5, h6⟩
  rw [this, fills_append]
  exact ⟨f6, h7⟩

theorem exists_pairs (w n : Nat) : ∃ l : List (ZMod p × ZMod p), l.length = w ∧ (pathLayout (G := G) l).length = 2 * w ∧
    e.Fills n (pathLayout l) := by
  obtain ⟨l, h1, -, h2, h3⟩ := exists_each e (f := fun x : ZMod p × ZMod p => [Value.field x.1, Value.field x.2])
    (Q := fun _ => True) (w := 2) (fun n => ⟨(e.field n, e.field (n + 1)), trivial, rfl, by
      rw [show ([Value.field (e.field n), Value.field (e.field (n + 1))] : List (Value p G)) =
        [Value.field (e.field n)] ++ [Value.field (e.field (n + 1))] from rfl, fills_append]
      exact ⟨fills_one e rfl, fills_one e rfl⟩⟩) w n
  exact ⟨l, h1, by rw [Nat.mul_comm]; exact h2, h3⟩

theorem pathLayout_length (l : List (ZMod p × ZMod p)) : (pathLayout (G := G) l).length = 2 * l.length := by
  rw [pathLayout, flatMap_length_const (w := 2) fun _ _ => rfl, Nat.mul_comm]

theorem auxLayout_length {n : Nat} {a : Client.UserAuxVar p G} (h : Wit.UserShaped n a) :
    (auxLayout a).length = n * clientTxVars + 5 := by
  have h1 : (a.txProofs.flatMap (pathLayout (G := G))).length = n * (2 * (TX_TREE_HEIGHT - 1)) := by
    rw [flatMap_length_const (w := 2 * (TX_TREE_HEIGHT - 1)) fun d hd => by rw [pathLayout_length, h.txPaths d hd], h.txProofs]
  have h2 : (a.signerProofs.flatMap (pathLayout (G := G))).length = n * (2 * (SIGNER_TREE_HEIGHT - 1)) := by
    rw [flatMap_length_const (w := 2 * (SIGNER_TREE_HEIGHT - 1)) fun d hd => by rw [pathLayout_length, h.signerPaths d hd],
      h.signerProofs]
  have h3 : (a.transactions.flatMap fun x => txLayout x.1 ++ [Value.field x.2]).length = n * (3 * (TX_IO_SIZE + TX_IO_SIZE) + 1) := by
    rw [flatMap_length_const (w := 3 * (TX_IO_SIZE + TX_IO_SIZE) + 1) fun d _ => by
      rw [List.length_append, txLayout_length]; rfl, h.txs]
  unfold auxLayout clientTxVars
  simp only [List.length_append, h1, h2, h3, List.length_cons, List.length_nil]
  show n * 24 + n * 24 + 4 + n * 25 + 1 = n * 73 + 5
  omega

theorem exists_aux (k n : Nat) : ∃ a : Client.UserAuxVar p G, Wit.UserShaped k a ∧ e.Fills n (auxLayout a) := by
  obtain ⟨tp, a1, b1, -, h1⟩ := exists_each e (f := pathLayout (G := G)) (Q := fun l => l.length = TX_TREE_HEIGHT - 1)
    (exists_pairs e (TX_TREE_HEIGHT - 1)) k n
  obtain ⟨sp, a2, b2, -, h2⟩ := exists_each e (f := pathLayout (G := G)) (Q := fun l => l.length = SIGNER_TREE_HEIGHT - 1)
    (exists_pairs e (SIGNER_TREE_HEIGHT - 1)) k (n + (tp.flatMap (pathLayout (G := G))).length)
  generalize hpre : tp.flatMap (pathLayout (G := G)) ++ sp.flatMap pathLayout = pre
  obtain ⟨b, hb⟩ : ∃ b : BlockVar (ZMod p), e.Fills (n + pre.length)
      [.field b.utxoRoot, .field b.txRoot, .field b.signerRoot, .field b.height] := by
    refine ⟨⟨e.field (n + pre.length), e.field (n + pre.length + 1), e.field (n + pre.length + 2), e.field (n + pre.length + 3)⟩, ?_⟩
    intro k v hk
    match k, hk with
    | 0, hk => cases hk; exact rfl
    | 1, hk => cases hk; exact rfl
    | 2, hk => cases hk; exact rfl
    | 3, hk => cases hk; exact rfl
    | k + 4, hk => simp at hk
  generalize hpre2 : pre ++ [.field b.utxoRoot, .field b.txRoot, .field b.signerRoot, .field b.height] = pre2
  obtain ⟨txs, a3, -, -, h3⟩ := exists_each e (f := fun x : Tx (ZMod p) G × ZMod p => txLayout x.1 ++ [Value.field x.2])
    (Q := fun _ => True) (w := 3 * (TX_IO_SIZE + TX_IO_SIZE) + 1) (fun m => by
      obtain ⟨t, ht⟩ := exists_tx e m
      refine ⟨(t, e.field (m + (txLayout t).length)), trivial, ?_, ?_⟩
      · rw [List.length_append, txLayout_length]
        rfl
      · rw [fills_append]
        exact ⟨ht, fills_one e rfl⟩) k (n + pre2.length)
  refine ⟨⟨tp, sp, b, txs, e.point (n + (pre2 ++ txs.flatMap fun x : Tx (ZMod p) G × ZMod p => txLayout x.1 ++ [Value.field x.2]).length)⟩,
    ⟨a3, a1, a2, b1, b2⟩, ?_⟩
  show e.Fills n (tp.flatMap (pathLayout (G := G)) ++ sp.flatMap pathLayout ++
    [.field b.utxoRoot, .field b.txRoot, .field b.signerRoot, .field b.height] ++
    (txs.flatMap fun x => txLayout x.1 ++ [Value.field x.2]) ++ [.point _])
  rw [hpre, hpre2, fills_append, fills_append, ← hpre2, fills_append, ← hpre, fills_append]
  subst hpre2 hpre
  exact ⟨⟨⟨⟨h1, h2⟩, hb⟩, h3⟩, fills_one e rfl⟩

end
end PF.Prog
