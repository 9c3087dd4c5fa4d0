import Verif.Spec.Witness
import Verif.Proof.Client
import Verif.Proof.AggregatorCircuit

/-!
# The computed witness meets the constraints whenever some witness does
-/
set_option linter.unusedSectionVars false

namespace PF.Wit
open PF PF.Spec PF.Circuit PF.MT
variable {p q : Nat} {G : Type}

theorem bind_eq {α β : Type} (x : Syn α) (f : α → Syn β) : (x >>= f) = Syn.bind x f := rfl

theorem sat_bind {α β : Type} (x : Syn α) (f : α → Syn β) (c : β) :
    (x >>= f).Sat c ↔ ∃ a, x.Sat a ∧ (f a).Sat c := by
  rw [bind_eq]
  unfold Syn.Sat Syn.bind
  cases x with
  | panic => simp
  | done b a =>
    dsimp only
    constructor
    · intro h
      cases hf : f a with
      | panic => rw [hf] at h; cases h
      | done b' c' =>
        rw [hf] at h
        simp only [Syn.done.injEq, Bool.and_eq_true] at h
        obtain ⟨⟨rfl, rfl⟩, rfl⟩ := h
        exact ⟨a, rfl, hf⟩
    · rintro ⟨a', h1, h2⟩
      simp only [Syn.done.injEq] at h1
      obtain ⟨rfl, rfl⟩ := h1
      rw [h2]
      rfl

theorem sat_pure {α : Type} (a b : α) : (pure a : Syn α).Sat b ↔ b = a := by
  show Syn.done true a = Syn.done true b ↔ _
  simp [eq_comm]

theorem sat_enforce (b : Bool) (u : Unit) : (enforce b).Sat u ↔ b = true := by
  simp [enforce, Syn.Sat]

theorem sat_assert (b : Bool) (u : Unit) : (assert b).Sat u ↔ b = true := by
  cases b <;> simp [assert, Syn.Sat]

theorem sat_condEnforce {α : Type} [DecidableEq α] (on : Bool) (x y : α) (u : Unit) :
    (condEnforce on x y).Sat u ↔ condEq on x y := by
  unfold condEnforce condEq
  rw [sat_enforce]
  cases on <;> simp

theorem sat_none {α : Type} (a : α) : ¬ (Syn.panic : Syn α).Sat a := by
  intro h
  cases h

theorem sat_unique {α : Type} {x : Syn α} {a b : α} (h1 : x.Sat a) (h2 : x.Sat b) : a = b := by
  have := h1.symm.trans h2
  simpa using this

/-! ### `enforce_lt` -/

theorem ltLoop_sound (bs : List Bool) (ds : List (ZMod p)) (c r : ZMod p) (k : ZMod p → ZMod p → Prop)
    (v : ZMod p × ZMod p) (h : (ltLoop bs ds c r).Sat v) (hk : k v.1 v.2) : Schnorr.ltLoop bs ds c r k := by
  induction bs generalizing ds c r with
  | nil =>
    unfold ltLoop at h
    rw [sat_pure] at h
    subst h
    simpa [Schnorr.ltLoop] using hk
  | cons b bs ih =>
    cases ds with
    | nil =>
      unfold ltLoop at h
      rw [sat_pure] at h
      subst h
      simpa [Schnorr.ltLoop] using hk
    | cons d ds =>
      unfold ltLoop at h
      rw [sat_bind] at h
      obtain ⟨_, h1, h2⟩ := h
      rw [sat_enforce] at h1
      exact ⟨by simpa using h1, ih ds _ _ h2⟩

/-- The pairs of chunks, as field elements. -/
def castPairs (p : Nat) (ps : List (Nat × Nat)) : List (ZMod p × ZMod p) :=
  ps.map fun e => ((e.1 : ZMod p), (e.2 : ZMod p))

theorem ltHelper_length (l : List (ZMod p × ZMod p)) : (ltHelper l).length = l.length := by
  induction l with
  | nil => rfl
  | cons e l ih => obtain ⟨x, y⟩ := e; simp [ltHelper, ih]

theorem ltHelper_eq (ps : List (Nat × Nat)) (h : ∀ e ∈ ps, e.1 = e.2) :
    ltHelper (castPairs p ps) = List.replicate ps.length false := by
  induction ps with
  | nil => rfl
  | cons e ps ih =>
    have ih := ih fun e he => h e (by simp [he])
    have he := h e (by simp)
    simp only [castPairs, List.map_cons, ltHelper, List.length_cons, List.replicate_succ] at ih ⊢
    rw [ih, he]
    simp

theorem ltLoop_eq (ps : List (Nat × Nat)) (h : ∀ e ∈ ps, e.1 = e.2) (c r : ZMod p) :
    (ltLoop (List.replicate ps.length false) (ps.map fun e => ((e.2 : ZMod p) - (e.1 : ZMod p))) c r).Sat
      (c, r) := by
  induction ps with
  | nil => exact (sat_pure _ _).2 rfl
  | cons e ps ih =>
    have ih := ih fun e he => h e (by simp [he])
    have he := h e (by simp)
    simp only [List.length_cons, List.replicate_succ, List.map_cons, ltLoop]
    rw [sat_bind]
    refine ⟨(), (sat_enforce _ _).2 (by rw [he]; simp), ?_⟩
    simpa [select, boolF] using ih

theorem ltHelper_works (W : Nat) (hW : 2 ^ (W + 1) ≤ p) (ps : List (Nat × Nat))
    (hlt : ∀ e ∈ ps, e.1 < 2 ^ W ∧ e.2 < 2 ^ W)
    (hv : Schnorr.digitsVal (2 ^ W) (ps.map (·.1)) < Schnorr.digitsVal (2 ^ W) (ps.map (·.2))) :
    (ltHelper (castPairs p ps)).any id = true ∧
    ∃ d : Nat, d < 2 ^ W ∧ ∀ c : ZMod p,
      (ltLoop (ltHelper (castPairs p ps)) (ps.map fun e => ((e.2 : ZMod p) - (e.1 : ZMod p))) c 0).Sat
        (c + (d + 1 : Nat), 1) := by
  have hpow : 0 < 2 ^ W := by positivity
  rw [pow_succ] at hW
  induction ps with
  | nil => simp [Schnorr.digitsVal] at hv
  | cons e ps ih =>
    have he := hlt e (by simp)
    have hlt' : ∀ e ∈ ps, e.1 < 2 ^ W ∧ e.2 < 2 ^ W := fun e he => hlt e (by simp [he])
    simp only [List.map_cons, Schnorr.digitsVal] at hv
    rcases Nat.lt_trichotomy (Schnorr.digitsVal (2 ^ W) (ps.map (·.1)))
      (Schnorr.digitsVal (2 ^ W) (ps.map (·.2))) with hc | hc | hc
    · obtain ⟨h1, d, hd, h2⟩ := ih hlt' hc
      have hh : ltHelper (castPairs p (e :: ps)) = false :: ltHelper (castPairs p ps) := by
        show (if (ltHelper (castPairs p ps)).any id then false else _) :: _ = _
        rw [h1]
        rfl
      rw [hh]
      refine ⟨by simpa using h1, d, hd, fun c => ?_⟩
      simp only [List.map_cons, ltLoop]
      rw [sat_bind]
      refine ⟨(), (sat_enforce _ _).2 (by simp), ?_⟩
      simpa [select, boolF] using h2 c
    · rw [hc] at hv
      have hall := Schnorr.digits_inj W ps hlt' hc
      have hr := ltHelper_eq (p := p) ps hall
      have hlt1 : e.1 < e.2 := by omega
      have hh : ltHelper (castPairs p (e :: ps)) = true :: List.replicate ps.length false := by
        show (if (ltHelper (castPairs p ps)).any id then false
          else decide ((e.1 : ZMod p).val < (e.2 : ZMod p).val)) :: ltHelper (castPairs p ps) = _
        rw [hr, ZMod.val_natCast, ZMod.val_natCast, Nat.mod_eq_of_lt (by omega), Nat.mod_eq_of_lt (by omega)]
        simp [hlt1]
      rw [hh]
      refine ⟨by simp, e.2 - e.1 - 1, by omega, fun c => ?_⟩
      simp only [List.map_cons, ltLoop]
      rw [sat_bind]
      refine ⟨(), (sat_enforce _ _).2 (by simp), ?_⟩
      have := ltLoop_eq (p := p) ps hall (c + ((e.2 : ZMod p) - (e.1 : ZMod p))) 1
      have hd : ((e.2 - e.1 - 1 + 1 : Nat) : ZMod p) = (e.2 : ZMod p) - (e.1 : ZMod p) := by
        rw [show e.2 - e.1 - 1 + 1 = e.2 - e.1 by omega, Nat.cast_sub hlt1.le]
      rw [hd]
      simpa [select, boolF] using this
    · exfalso
      have := Nat.mul_le_mul_left (2 ^ W) (show _ + 1 ≤ _ from hc)
      rw [Nat.mul_add] at this
      omega

theorem chunk_getD_lt (w : Nat) (x : List Bool) (i : Nat) :
    ((Schnorr.chunks w x).map bitsVal).getD i 0 < 2 ^ (w + 1) := by
  rw [List.getD_eq_getElem?_getD]
  by_cases h : i < ((Schnorr.chunks w x).map bitsVal).length
  · simp only [h, List.getElem?_eq_getElem, Option.getD_some]
    obtain ⟨c, hc, e⟩ := List.mem_map.1
      (show ((Schnorr.chunks w x).map bitsVal)[i] ∈ (Schnorr.chunks w x).map bitsVal from List.getElem_mem h)
    rw [← e]; exact Schnorr.chunks_lt w x c hc
  · rw [List.getElem?_eq_none (by omega)]; simp

/-- What the loop of `enforce_lt` sees: the base-`2^W` digits of the two integers. -/
theorem chunk_pairs (w : Nat) (x y : List Bool) : ∃ ps : List (Nat × Nat),
    (∀ e ∈ ps, e.1 < 2 ^ (w + 1) ∧ e.2 < 2 ^ (w + 1)) ∧
    Schnorr.digitsVal (2 ^ (w + 1)) (ps.map (·.1)) = bitsVal x ∧
    Schnorr.digitsVal (2 ^ (w + 1)) (ps.map (·.2)) = bitsVal y ∧
    Schnorr.deltas (Schnorr.chunkVals p (w + 1) x) (Schnorr.chunkVals p (w + 1) y) =
      ps.map (fun e => ((e.2 : ZMod p) - (e.1 : ZMod p))) ∧
    ((List.range (max (Schnorr.chunkVals p (w + 1) x).length (Schnorr.chunkVals p (w + 1) y).length)).map
      fun i => ((Schnorr.chunkVals p (w + 1) x).getD i 0, (Schnorr.chunkVals p (w + 1) y).getD i 0)) =
      castPairs p ps := by
  set X := (Schnorr.chunks w x).map bitsVal with hX
  set Y := (Schnorr.chunks w y).map bitsVal with hY
  set n := max X.length Y.length with hn
  have hmax : max (Schnorr.chunkVals p (w + 1) x).length (Schnorr.chunkVals p (w + 1) y).length = n := by
    simp [hn, hX, hY, Schnorr.chunkVals]
  refine ⟨(List.range n).map fun i => (X.getD i 0, Y.getD i 0), ?_, ?_, ?_, ?_, ?_⟩
  · intro e he
    obtain ⟨i, _, rfl⟩ := List.mem_map.1 he
    exact ⟨chunk_getD_lt w x i, chunk_getD_lt w y i⟩
  · rw [List.map_map]
    have : ((fun e : Nat × Nat => e.1) ∘ fun i => (X.getD i 0, Y.getD i 0)) = fun i => X.getD i 0 := rfl
    rw [this, Schnorr.range_getD X n (by omega), Schnorr.digitsVal_append_zeros, hX, Schnorr.chunks_vals]
  · rw [List.map_map]
    have : ((fun e : Nat × Nat => e.2) ∘ fun i => (X.getD i 0, Y.getD i 0)) = fun i => Y.getD i 0 := rfl
    rw [this, Schnorr.range_getD Y n (by omega), Schnorr.digitsVal_append_zeros, hY, Schnorr.chunks_vals]
  · unfold Schnorr.deltas
    rw [hmax, List.map_map]
    apply List.map_congr_left
    intro i _
    simp only [Schnorr.chunkVals, hX, hY, Nat.add_sub_cancel, Function.comp, List.getD_eq_getElem?_getD,
      List.getElem?_map]
    cases (Schnorr.chunks w x)[i]? <;> cases (Schnorr.chunks w y)[i]? <;> simp
  · rw [hmax, castPairs, List.map_map]
    apply List.map_congr_left
    intro i _
    simp only [Schnorr.chunkVals, hX, hY, Nat.add_sub_cancel, Function.comp, List.getD_eq_getElem?_getD,
      List.getElem?_map]
    cases (Schnorr.chunks w x)[i]? <;> cases (Schnorr.chunks w y)[i]? <;> simp

theorem sat_enforceLt (W : Nat) (hW1 : 1 ≤ W) (hW : 2 ^ (W + 1) ≤ p) (x y : List Bool)
    (hx : x.length < p) (hy : y.length < p) (u : Unit) :
    (enforceLt p W x y).Sat u ↔ Schnorr.enforceLt p W x y := by
  constructor
  · intro h
    unfold enforceLt at h
    rw [sat_bind] at h
    obtain ⟨⟨c, r⟩, h1, h⟩ := h
    dsimp only at h
    rw [sat_bind] at h
    obtain ⟨_, h2, h3⟩ := h
    rw [sat_enforce, decide_eq_true_eq] at h2 h3
    refine ⟨_, natBits W (c - 1).val, ?_, natBits_length _ _, ltLoop_sound _ _ _ _ _ _ h1 ⟨h2, h3⟩⟩
    rw [ltHelper_length]
    simp [Schnorr.deltas]
  · intro h
    rw [Schnorr.enforceLt_iff W hW1 hW x y hx hy] at h
    obtain ⟨w, rfl⟩ : ∃ w, W = w + 1 := ⟨W - 1, by omega⟩
    obtain ⟨ps, hb, hv1, hv2, hd, hp⟩ := chunk_pairs (p := p) w x y
    rw [← hv1, ← hv2] at h
    obtain ⟨-, d, hd', hs⟩ := ltHelper_works (w + 1) hW ps hb h
    unfold enforceLt
    rw [sat_bind]
    refine ⟨(0 + ((d + 1 : Nat) : ZMod p), 1), ?_, ?_⟩
    · have := hs 0
      rw [← hp, ← hd] at this
      exact this
    · dsimp only
      rw [sat_bind]
      have e1 : (0 + ((d + 1 : Nat) : ZMod p) - 1) = (d : ZMod p) := by push_cast; ring
      have e2 : (d : ZMod p).val = d := by
        rw [ZMod.val_natCast, Nat.mod_eq_of_lt]
        rw [pow_succ] at hW
        omega
      refine ⟨(), (sat_enforce _ _).2 ?_, (sat_enforce _ _).2 (by simp)⟩
      rw [decide_eq_true_eq, e1, e2, bitsVal_natBits, Nat.mod_eq_of_lt hd']

/-! ### Other gadgets -/

theorem sat_toNBits [NeZero p] (x : ZMod p) (n : Nat) (bits : List Bool) :
    (toNBits x n).Sat bits ↔ Circuit.toNBits x n bits := by
  unfold toNBits Circuit.toNBits
  simp only [sat_bind, sat_enforce, sat_pure, decide_eq_true_eq]
  constructor
  · rintro ⟨_, h1, _, h2, rfl⟩
    exact ⟨natBits_length _ _, h1, h2⟩
  · rintro ⟨h1, h2, h3⟩
    have hlt : bitsVal bits < 2 ^ n := h1 ▸ bitsVal_lt bits
    have hbp : bitsVal bits < p := by
      by_cases hc : modBits p ≤ n
      · exact h2 hc
      · have h4 : 2 ^ n ≤ 2 ^ (modBits p - 1) := Nat.pow_le_pow_right (by decide) (by omega)
        have h5 := Schnorr.pow_modBits_pred_le (q := p) (Nat.pos_of_ne_zero (NeZero.ne p))
        omega
    have hv : x.val = bitsVal bits := by rw [← h3, ZMod.val_natCast, Nat.mod_eq_of_lt hbp]
    have hb : bits = natBits n x.val := by rw [hv, ← h1, natBits_bitsVal]
    subst hb
    exact ⟨(), h2, (), h3, rfl⟩

theorem left_hint (on : Bool) (a l r : ZMod p) :
    condEq on a (select (decide (a = l)) l r) ↔ ∃ isLeft : Bool, condEq on a (select isLeft l r) := by
  constructor
  · exact fun h => ⟨_, h⟩
  · rintro ⟨b, h⟩ hon
    have h := h hon
    by_cases hl : a = l
    · simp [select, hl]
    · cases b
      · simpa [select, hl] using h
      · exact absurd (by simpa [select] using h) hl

theorem sat_memLoop (h2 : ZMod p → ZMod p → ZMod p) (on : Bool) (root : ZMod p)
    (path : List (ZMod p × ZMod p)) (prev : ZMod p) :
    (∃ v, (memLoop h2 on path prev).Sat v ∧ condEq on root v) ↔ memGadgetLoop h2 on root path prev := by
  induction path generalizing prev with
  | nil => simp [memLoop, memGadgetLoop, sat_pure]
  | cons e rest ih =>
    obtain ⟨l, r⟩ := e
    simp only [memLoop, memGadgetLoop, sat_bind, sat_condEnforce, ← ih, ← left_hint]
    constructor
    · rintro ⟨v, ⟨_, h1, h2⟩, h3⟩; exact ⟨h1, v, h2, h3⟩
    · rintro ⟨h1, v, h2, h3⟩; exact ⟨v, ⟨(), h1, h2⟩, h3⟩

theorem sat_condCheckMembership {L : Type} (cfg : Config L (ZMod p)) (path : List (ZMod p × ZMod p))
    (root : ZMod p) (leaf : L) (on : Bool) (u : Unit) :
    (condCheckMembership cfg path root leaf on).Sat u ↔ MT.condCheckMembership cfg path root leaf on := by
  unfold condCheckMembership MT.condCheckMembership
  simp only [sat_bind, sat_assert, decide_eq_true_eq]
  cases path with
  | nil =>
    constructor
    · rintro ⟨_, _, h⟩
      exact absurd h (sat_none u)
    · rintro ⟨_, ⟨l, r, rest, h, _⟩, _⟩
      cases h
  | cons e rest =>
    obtain ⟨l, r⟩ := e
    simp only [sat_bind, sat_condEnforce, left_hint, List.cons.injEq, Prod.mk.injEq, exists_const]
    rw [sat_memLoop]
    constructor
    · rintro ⟨h1, h2, h3⟩
      exact ⟨h1, ⟨l, r, rest, ⟨⟨rfl, rfl⟩, rfl⟩, h2⟩, h3⟩
    · rintro ⟨h1, ⟨l', r', rest', ⟨⟨rfl, rfl⟩, rfl⟩, h2⟩, h3⟩
      exact ⟨h1, h2, h3⟩

theorem sat_memIdxLoop (h2 : ZMod p → ZMod p → ZMod p) (on : Bool) (root : ZMod p)
    (path : List (ZMod p × ZMod p)) (bits : List Bool) (prev : ZMod p) :
    (∃ v, (memIdxLoop h2 on path bits prev).Sat v ∧ condEq on root v) ↔
      memIdxGadgetLoop h2 on root path bits prev := by
  induction path generalizing prev bits with
  | nil => simp [memIdxLoop, memIdxGadgetLoop, sat_pure]
  | cons e rest ih =>
    obtain ⟨l, r⟩ := e
    cases bits with
    | nil => simp [memIdxLoop, memIdxGadgetLoop, sat_none]
    | cons b bits =>
      simp only [memIdxLoop, memIdxGadgetLoop, sat_bind, sat_condEnforce, ← ih]
      constructor
      · rintro ⟨v, ⟨_, h1, h2⟩, h3⟩; exact ⟨h1, v, h2, h3⟩
      · rintro ⟨h1, v, h2, h3⟩; exact ⟨v, ⟨(), h1, h2⟩, h3⟩

theorem sat_condCheckMembershipIdx {L : Type} (cfg : Config L (ZMod p)) (path : List (ZMod p × ZMod p))
    (root : ZMod p) (leaf : L) (index : ZMod p) (on : Bool) (u : Unit) :
    (condCheckMembershipIdx cfg path root leaf index on).Sat u ↔
      MT.condCheckMembershipIdx cfg path root leaf index on := by
  unfold condCheckMembershipIdx MT.condCheckMembershipIdx
  simp only [sat_bind, sat_assert, decide_eq_true_eq, sat_condEnforce, exists_const]
  rw [sat_memIdxLoop]

theorem sat_isLess (l r : ZMod p) (out : Bool) : (isLess l r).Sat out ↔ Circuit.isLess l r out := by
  unfold isLess Circuit.isLess cmpRange
  simp only [sat_bind, sat_enforce, sat_pure, decide_eq_true_eq, exists_const]

theorem sat_enforceLe (l r : ZMod p) (u : Unit) : (enforceLe l r).Sat u ↔ Circuit.enforceLe l r := by
  unfold enforceLe Circuit.enforceLe
  simp only [sat_bind, sat_enforce, sat_isLess, Circuit.isLess]
  constructor
  · rintro ⟨b, ⟨h1, rfl⟩, h2⟩; exact ⟨h1, h2⟩
  · rintro ⟨h1, h2⟩; exact ⟨_, ⟨h1, rfl⟩, h2⟩

variable [AddCommGroup G] [Module (ZMod q) G]

theorem sat_isValid (W : Nat) (hW1 : 1 ≤ W) (hW : 2 ^ (W + 1) ≤ p) (hq : modBits q < p) (cv : Curve p q G)
    (H : List (ZMod p) → ZMod p) (pk : G) (m : List (ZMod p)) (s e : List Bool) (out : Bool) :
    (isValidGadget W cv H pk m s e).Sat out ↔ Schnorr.isValidGadget W cv H pk m s e out := by
  unfold isValidGadget Schnorr.isValidGadget
  simp only [sat_bind, sat_pure]
  have hl : (Schnorr.challengeBits cv H pk m s e).length < p := by
    unfold Schnorr.challengeBits
    simp only [List.length_take]
    omega
  constructor
  · rintro ⟨u, h, rfl⟩
    exact ⟨(sat_enforceLt W hW1 hW _ _ hl (by rwa [natBits_length]) u).1 h, rfl⟩
  · rintro ⟨h, rfl⟩
    exact ⟨(), (sat_enforceLt W hW1 hW _ _ hl (by rwa [natBits_length]) ()).2 h, rfl⟩

variable [DecidableEq G]

theorem sat_ownerLoop (sender : G) (l : List (UTXO (ZMod p) G)) (u : Unit) :
    (ownerLoop sender l).Sat u ↔ ∀ x ∈ l, condEq (!x.isDummy) x.pk sender := by
  induction l with
  | nil => simp [ownerLoop, sat_pure]
  | cons x l ih => simp [ownerLoop, sat_bind, sat_condEnforce, ih]

theorem sat_enforceValid (t : Tx (ZMod p) G) (sender : G) (u : Unit) :
    (enforceValid t sender).Sat u ↔ t.enforceValid sender := by
  unfold enforceValid Tx.enforceValid
  simp only [sat_bind, sat_ownerLoop, sat_enforce, decide_eq_true_eq, exists_const]

/-! ### Aggregator -/

theorem sat_condUpdate {L : Type} (cfg : Config L (ZMod p)) (on : Bool) (pos : ZMod p)
    (proof : List (ZMod p)) (old new : L) (r r' : ZMod p) :
    (condUpdate cfg on pos proof old new r).Sat r' ↔ AggC.condUpdate cfg on pos proof old new r r' := by
  unfold condUpdate AggC.condUpdate
  simp only [sat_bind, sat_assert, sat_condEnforce, sat_pure, decide_eq_true_eq, exists_const]

theorem sat_delLoop (cv : Curve p q G) (hs : Hashes p) (sigOk : Bool) (us : List (UTXO (ZMod p) G))
    (ds : List (ZMod p × List (ZMod p))) (r r' : ZMod p) :
    (delLoop cv hs sigOk us ds r).Sat r' ↔ AggC.delLoop cv hs sigOk us ds r r' := by
  induction us generalizing ds r with
  | nil => cases ds <;> simp [delLoop, AggC.delLoop, sat_pure, sat_none]
  | cons u us ih =>
    cases ds with
    | nil => simp [delLoop, AggC.delLoop, sat_none]
    | cons d ds => simp only [delLoop, AggC.delLoop, sat_bind, sat_condUpdate, ih]

theorem sat_depositStep (h : AggC.Sizes p q) (P : AggC.Params p G) (cv : Curve p q G) (b : Bool)
    (u : UTXO (ZMod p) G) (dep dep' : ZMod p) :
    (depositStep P cv b u dep).Sat dep' ↔ AggC.depositStep P cv b u dep dep' := by
  have : NeZero p := ⟨h.p_pos.ne'⟩
  unfold depositStep AggC.depositStep
  split
  · rw [sat_pure]
  · simp only [sat_bind, sat_toNBits, sat_pure]

theorem sat_addLoop (h : AggC.Sizes p q) (P : AggC.Params p G) (cv : Curve p q G) (b ok : Bool)
    (us : List (UTXO (ZMod p) G)) (as : List (ZMod p × List (ZMod p))) (dep w r : ZMod p)
    (v : ZMod p × ZMod p × ZMod p) :
    (addLoop P cv b ok us as dep w r).Sat v ↔ AggC.addLoop P cv b ok us as dep w r v.1 v.2.1 v.2.2 := by
  induction us generalizing as dep w r with
  | nil =>
    cases as
    · simp only [addLoop, AggC.addLoop, sat_pure]
      obtain ⟨a, b, c⟩ := v
      simp
    · simp [addLoop, AggC.addLoop, sat_none]
  | cons u us ih =>
    cases as with
    | nil => simp [addLoop, AggC.addLoop, sat_none]
    | cons a as =>
      simp only [addLoop, AggC.addLoop, sat_bind, sat_condUpdate, sat_depositStep h, ih]
      constructor
      · rintro ⟨d, h1, r1, h2, h3⟩; exact ⟨d, r1, h1, h2, h3⟩
      · rintro ⟨d, r1, h1, h2, h3⟩; exact ⟨d, h1, r1, h2, h3⟩

theorem sat_withdrawalStep (h : AggC.Sizes p q) (P : AggC.Params p G) (cv : Curve p q G) (pk : G)
    (w acc acc' : ZMod p) :
    (withdrawalStep P cv pk w acc).Sat acc' ↔ AggC.withdrawalStep P cv pk w acc acc' := by
  have : NeZero p := ⟨h.p_pos.ne'⟩
  unfold withdrawalStep AggC.withdrawalStep
  split
  · rw [sat_pure]
  · simp only [sat_bind, sat_toNBits, sat_pure]

theorem sat_stepOne (h : AggC.Sizes p q) (P : AggC.Params p G) (cv : Curve p q G) (z : AggC.CState p)
    (i : AggC.CInputs p G) (z' : AggC.CState p) :
    (stepOne P cv z i).Sat z' ↔ AggC.stepOne P cv z i z' := by
  have hq : modBits q < p := h.modBits_lt
  unfold stepOne AggC.stepOne
  simp only [sat_bind, sat_assert, sat_enforceValid, sat_condUpdate, sat_delLoop, sat_addLoop h,
    sat_isValid 32 (by decide) (le_trans (by decide) h.large) hq, sat_withdrawalStep h, sat_pure,
    decide_eq_true_eq, exists_const, and_assoc]
  constructor
  · rintro ⟨h1, h2, h3, tr, h4, so, h5, r1, h6, ⟨dep, w, r2⟩, h7, sr, h8, wa, h9, rfl⟩
    exact ⟨h1, h2, h3, h4, so, r1, w, h5, h6, h7, h8, rfl, h9, rfl, rfl⟩
  · rintro ⟨h1, h2, h3, h4, so, r1, w, h5, h6, h7, h8, h9, h10, h11, h12⟩
    refine ⟨h1, h2, h3, z'.txRoot, h4, so, h5, r1, h6, (z'.depositAcc, w, z'.utxoRoot), h7, z'.signerRoot,
      h8, z'.withdrawalAcc, h10, ?_⟩
    cases z'
    simp only at h9 h11 h12
    subst h9 h11 h12
    rfl

theorem sat_stepBatch (h : AggC.Sizes p q) (P : AggC.Params p G) (cv : Curve p q G) (z : AggC.CState p)
    (is : List (AggC.CInputs p G)) (z' : AggC.CState p) :
    (stepBatch P cv z is).Sat z' ↔ AggC.stepBatch P cv z is z' := by
  induction is generalizing z with
  | nil => simp only [stepBatch, AggC.stepBatch, sat_pure]
  | cons i is ih => simp only [stepBatch, AggC.stepBatch, sat_bind, sat_stepOne h, ih]

/-! ### Client -/

theorem sat_txStep (P : Client.Params p) (cv : Curve p q G) (blk : BlockVar (ZMod p)) (pk : G)
    (s : Client.Loop p) (t : Tx (ZMod p) G) (index : ZMod p) (tp sp : List (ZMod p × ZMod p))
    (s' : Client.Loop p) :
    (txStep P cv blk pk s t index tp sp).Sat s' ↔ Client.txStep P cv blk pk s t index tp sp s' := by
  unfold txStep Client.txStep
  simp only [sat_bind, sat_isLess, sat_condEnforce, sat_condCheckMembershipIdx, sat_condCheckMembership,
    sat_pure, exists_const]
  constructor
  · rintro ⟨l, h1, h2, h3, h4, h5⟩; exact ⟨⟨l, h1, h2⟩, h3, h4, h5⟩
  · rintro ⟨⟨l, h1, h2⟩, h3, h4, h5⟩; exact ⟨l, h1, h2, h3, h4, h5⟩

theorem sat_txLoop (P : Client.Params p) (cv : Curve p q G) (blk : BlockVar (ZMod p)) (pk : G)
    (l : List (((Tx (ZMod p) G × ZMod p) × List (ZMod p × ZMod p)) × List (ZMod p × ZMod p)))
    (s s' : Client.Loop p) :
    (txLoop P cv blk pk l s).Sat s' ↔ Client.txLoop P cv blk pk l s s' := by
  induction l generalizing s with
  | nil => simp only [txLoop, Client.txLoop, sat_pure]
  | cons e l ih =>
    obtain ⟨⟨⟨t, i⟩, tp⟩, sp⟩ := e
    simp only [txLoop, Client.txLoop, sat_bind, sat_txStep, ih]

theorem sat_updateBalance (P : Client.Params p) (cv : Curve p q G) (n : Nat) (z : Client.UState p)
    (a : Client.UserAuxVar p G) (z' : Client.UState p) :
    (updateBalance P cv n z a).Sat z' ↔ Client.updateBalance P cv n z a z' := by
  unfold updateBalance Client.updateBalance
  simp only [sat_bind, sat_assert, sat_enforce, sat_enforceLe, sat_txLoop, sat_pure, decide_eq_true_eq,
    exists_const]

/-! ### Panics -/

theorem ends_bind {α β : Type} (x : Syn α) (f : α → Syn β) :
    (x >>= f).Ends ↔ ∃ b a, x = .done b a ∧ (f a).Ends := by
  rw [bind_eq]
  unfold Syn.Ends Syn.bind
  cases x with
  | panic => simp
  | done b a =>
    simp only [Syn.done.injEq]
    cases hf : f a with
    | panic => simp [hf]
    | done b' c' =>
      simp only [ne_eq, reduceCtorEq, not_false_eq_true, true_iff]
      exact ⟨b, a, ⟨rfl, rfl⟩, by simp [hf]⟩

theorem ends_iff {α : Type} (x : Syn α) : x.Ends ↔ ∃ b a, x = .done b a := by
  unfold Syn.Ends
  cases x with
  | panic => simp
  | done b a => simp

theorem ends_enforce (b : Bool) : (enforce b).Ends := by simp [enforce, Syn.Ends]

theorem ends_pure {α : Type} (a : α) : (pure a : Syn α).Ends := by
  show Syn.done true a ≠ _
  simp

/-- If the continuation ends for every value, sequencing ends exactly if the first part does. -/
theorem ends_seq {α β : Type} (x : Syn α) (f : α → Syn β) (hf : ∀ a, (f a).Ends) :
    (x >>= f).Ends ↔ x.Ends := by
  rw [ends_bind, ends_iff]
  exact ⟨fun ⟨b, a, h, _⟩ => ⟨b, a, h⟩, fun ⟨b, a, h⟩ => ⟨b, a, h, hf a⟩⟩

/-- If the continuation ends under the same condition for every value, sequencing ends exactly if both do. -/
theorem ends_both {α β : Type} (x : Syn α) (f : α → Syn β) (c : Prop) (hf : ∀ a, (f a).Ends ↔ c) :
    (x >>= f).Ends ↔ x.Ends ∧ c := by
  rw [ends_bind, ends_iff]
  constructor
  · rintro ⟨b, a, h, h'⟩
    exact ⟨⟨b, a, h⟩, (hf a).1 h'⟩
  · rintro ⟨⟨b, a, h⟩, h'⟩
    exact ⟨b, a, h, (hf a).2 h'⟩

theorem ends_assert (b : Bool) : (assert b).Ends ↔ b = true := by
  cases b <;> simp [assert, Syn.Ends]

theorem ends_condEnforce {α : Type} [DecidableEq α] (on : Bool) (x y : α) : (condEnforce on x y).Ends :=
  ends_enforce _

theorem ends_ltLoop (bs : List Bool) (ds : List (ZMod p)) (c r : ZMod p) : (ltLoop bs ds c r).Ends := by
  induction bs generalizing ds c r with
  | nil => exact ends_pure _
  | cons b bs ih =>
    cases ds with
    | nil => exact ends_pure _
    | cons d ds => exact (ends_seq _ _ fun _ => ih ds _ _).2 (ends_enforce _)

theorem ends_enforceLt (W : Nat) (x y : List Bool) : (enforceLt p W x y).Ends := by
  unfold enforceLt
  rw [ends_seq]
  · exact ends_ltLoop _ _ _ _
  · intro a
    dsimp only
    exact (ends_seq _ _ fun _ => ends_enforce _).2 (ends_enforce _)

theorem ends_toNBits (x : ZMod p) (n : Nat) : (toNBits x n).Ends := by
  unfold toNBits
  exact (ends_seq _ _ fun _ => (ends_seq _ _ fun _ => ends_pure _).2 (ends_enforce _)).2 (ends_enforce _)

theorem ends_memLoop (h2 : ZMod p → ZMod p → ZMod p) (on : Bool) (path : List (ZMod p × ZMod p))
    (prev : ZMod p) : (memLoop h2 on path prev).Ends := by
  induction path generalizing prev with
  | nil => exact ends_pure _
  | cons e rest ih => exact (ends_seq _ _ fun _ => ih _).2 (ends_condEnforce _ _ _)

theorem ends_condCheckMembership {L : Type} (cfg : Config L (ZMod p)) (path : List (ZMod p × ZMod p))
    (root : ZMod p) (leaf : L) (on : Bool) (hh : 2 ≤ cfg.height) :
    (condCheckMembership cfg path root leaf on).Ends ↔ path.length = cfg.height - 1 := by
  unfold condCheckMembership
  rw [ends_bind]
  constructor
  · rintro ⟨b, a, h, _⟩
    have := (ends_assert (decide (path.length = cfg.height - 1))).1 (by rw [h]; simp [Syn.Ends])
    simpa using this
  · intro h
    refine ⟨true, (), by simp [assert, h], ?_⟩
    cases path with
    | nil => simp at h; omega
    | cons e rest =>
      exact (ends_seq _ _ fun _ => (ends_seq _ _ fun _ => ends_condEnforce _ _ _).2
        (ends_memLoop _ _ _ _)).2 (ends_condEnforce _ _ _)

theorem ends_memIdxLoop (h2 : ZMod p → ZMod p → ZMod p) (on : Bool) (path : List (ZMod p × ZMod p))
    (bits : List Bool) (prev : ZMod p) (h : path.length ≤ bits.length) :
    (memIdxLoop h2 on path bits prev).Ends := by
  induction path generalizing prev bits with
  | nil => exact ends_pure _
  | cons e rest ih =>
    cases bits with
    | nil => simp at h
    | cons b bits => exact (ends_seq _ _ fun _ => ih _ _ (by simpa using h)).2 (ends_condEnforce _ _ _)

theorem ends_condCheckMembershipIdx {L : Type} (cfg : Config L (ZMod p)) (path : List (ZMod p × ZMod p))
    (root : ZMod p) (leaf : L) (index : ZMod p) (on : Bool) (hh : cfg.height - 1 ≤ modBits p) :
    (condCheckMembershipIdx cfg path root leaf index on).Ends ↔ path.length = cfg.height - 1 := by
  unfold condCheckMembershipIdx
  rw [ends_bind]
  constructor
  · rintro ⟨b, a, h, _⟩
    have := (ends_assert (decide (path.length = cfg.height - 1))).1 (by rw [h]; simp [Syn.Ends])
    simpa using this
  · intro h
    refine ⟨true, (), by simp [assert, h], ?_⟩
    exact (ends_seq _ _ fun _ => ends_condEnforce _ _ _).2
      (ends_memIdxLoop _ _ _ _ _ (by unfold toBitsLe; rw [natBits_length]; omega))

theorem ends_isLess (l r : ZMod p) : (isLess l r).Ends :=
  (ends_seq _ _ fun _ => ends_pure _).2 (ends_enforce _)

theorem ends_enforceLe (l r : ZMod p) : (enforceLe l r).Ends :=
  (ends_seq _ _ fun _ => ends_enforce _).2 (ends_isLess _ _)

theorem ends_isValid (W : Nat) (cv : Curve p q G) (H : List (ZMod p) → ZMod p) (pk : G)
    (m : List (ZMod p)) (s e : List Bool) : (isValidGadget W cv H pk m s e).Ends :=
  (ends_seq _ _ fun _ => ends_pure _).2 (ends_enforceLt _ _ _)

theorem ends_ownerLoop (sender : G) (l : List (UTXO (ZMod p) G)) : (ownerLoop sender l).Ends := by
  induction l with
  | nil => exact ends_pure _
  | cons x l ih => exact (ends_seq _ _ fun _ => ih).2 (ends_condEnforce _ _ _)

theorem ends_enforceValid (t : Tx (ZMod p) G) (sender : G) : (enforceValid t sender).Ends :=
  (ends_seq _ _ fun _ => ends_enforce _).2 (ends_ownerLoop _ _)

theorem ends_condUpdate {L : Type} (cfg : Config L (ZMod p)) (on : Bool) (pos : ZMod p)
    (proof : List (ZMod p)) (old new : L) (r : ZMod p) :
    (condUpdate cfg on pos proof old new r).Ends ↔ proof.length = cfg.height - 1 := by
  unfold condUpdate
  rw [ends_seq, ends_assert, decide_eq_true_eq]
  intro _
  exact (ends_seq _ _ fun _ => ends_pure _).2 (ends_condEnforce _ _ _)

theorem ends_delLoop (cv : Curve p q G) (hs : Hashes p) (sigOk : Bool) (us : List (UTXO (ZMod p) G))
    (ds : List (ZMod p × List (ZMod p))) (r : ZMod p) :
    (delLoop cv hs sigOk us ds r).Ends ↔
      ds.length = us.length ∧ ∀ d ∈ ds, d.2.length = UTXO_TREE_HEIGHT - 1 := by
  induction us generalizing ds r with
  | nil =>
    cases ds
    · simp [delLoop, ends_pure]
    · simp [delLoop, Syn.Ends]
  | cons u us ih =>
    cases ds with
    | nil => simp [delLoop, Syn.Ends]
    | cons d ds =>
      unfold delLoop
      rw [ends_both _ _ _ fun r1 => ih ds r1, ends_condUpdate]
      simp only [List.length_cons, List.mem_cons, forall_eq_or_imp, Nat.add_right_cancel_iff]
      exact ⟨fun ⟨h1, h2, h3⟩ => ⟨h2, h1, h3⟩, fun ⟨h2, h1, h3⟩ => ⟨h1, h2, h3⟩⟩

theorem ends_depositStep (P : AggC.Params p G) (cv : Curve p q G) (b : Bool) (u : UTXO (ZMod p) G)
    (dep : ZMod p) : (depositStep P cv b u dep).Ends := by
  unfold depositStep
  split
  · exact ends_pure _
  · exact (ends_seq _ _ fun _ => ends_pure _).2 (ends_toNBits _ _)

theorem ends_withdrawalStep (P : AggC.Params p G) (cv : Curve p q G) (pk : G) (w acc : ZMod p) :
    (withdrawalStep P cv pk w acc).Ends := by
  unfold withdrawalStep
  split
  · exact ends_pure _
  · exact (ends_seq _ _ fun _ => ends_pure _).2 (ends_toNBits _ _)

theorem ends_addLoop (P : AggC.Params p G) (cv : Curve p q G) (b ok : Bool)
    (us : List (UTXO (ZMod p) G)) (as : List (ZMod p × List (ZMod p))) (dep w r : ZMod p) :
    (addLoop P cv b ok us as dep w r).Ends ↔
      as.length = us.length ∧ ∀ a ∈ as, a.2.length = UTXO_TREE_HEIGHT - 1 := by
  induction us generalizing as dep w r with
  | nil =>
    cases as
    · simp [addLoop, ends_pure]
    · simp [addLoop, Syn.Ends]
  | cons u us ih =>
    cases as with
    | nil => simp [addLoop, Syn.Ends]
    | cons a as =>
      unfold addLoop
      rw [ends_both _ _ _ fun d1 => ends_both _ _ _ fun r1 => ih as d1 _ r1, ends_condUpdate]
      simp only [List.length_cons, List.mem_cons, forall_eq_or_imp, Nat.add_right_cancel_iff]
      exact ⟨fun ⟨_, h1, h2, h3⟩ => ⟨h2, h1, h3⟩, fun ⟨h2, h1, h3⟩ => ⟨ends_depositStep _ _ _ _ _, h1, h2, h3⟩⟩

theorem ends_stepOne (P : AggC.Params p G) (cv : Curve p q G) (z : AggC.CState p)
    (i : AggC.CInputs p G) : (stepOne P cv z i).Ends ↔ Shaped q i := by
  unfold stepOne
  have key : ∀ v : ZMod p × ZMod p × ZMod p, ∀ (tr : ZMod p) (txOk : Bool), (match v with
      | (dep, w, r2) => do
        let signerRoot ← condUpdate (signerTreeCfgVar cv P.hs) txOk z.step i.signerProof 0 i.senderPk z.signerRoot
        let signerAcc := shaFieldVar p P.sha (fBytesVar z.signerAcc ++ pkBytesVar cv (select txOk i.senderPk 0))
        let withdrawalAcc ← withdrawalStep P cv i.senderPk w z.withdrawalAcc
        pure ({ step := z.step + 1, utxoRoot := r2, txRoot := tr, txRootFinal := z.txRootFinal,
                signerRoot := signerRoot, signerAcc := signerAcc, depositAcc := dep,
                withdrawalAcc := withdrawalAcc } : AggC.CState p) : Syn (AggC.CState p)).Ends ↔
      i.signerProof.length = SIGNER_TREE_HEIGHT - 1 := by
    rintro ⟨dep, w, r2⟩ tr txOk
    refine Iff.trans (ends_seq _ _ fun _ => ?_) (ends_condUpdate _ _ _ _ _ _ _)
    exact (ends_seq _ _ fun _ => ends_pure _).2 (ends_withdrawalStep _ _ _ _ _)
  refine (ends_both _ _ (i.txProof.length = TX_TREE_HEIGHT - 1 ∧
    (i.dels.length = i.tx.inputs.toList.length ∧ ∀ d ∈ i.dels, d.2.length = UTXO_TREE_HEIGHT - 1) ∧
    (i.adds.length = i.tx.outputs.toList.length ∧ ∀ d ∈ i.adds, d.2.length = UTXO_TREE_HEIGHT - 1) ∧
    i.signerProof.length = SIGNER_TREE_HEIGHT - 1) fun _ => ?_).trans ?_
  · refine (ends_both _ _ _ fun _ => ?_).trans ⟨fun h => h.2, fun h => ⟨ends_enforceValid _ _, h⟩⟩
    refine (ends_both _ _ ((i.dels.length = i.tx.inputs.toList.length ∧
      ∀ d ∈ i.dels, d.2.length = UTXO_TREE_HEIGHT - 1) ∧
      (i.adds.length = i.tx.outputs.toList.length ∧ ∀ d ∈ i.adds, d.2.length = UTXO_TREE_HEIGHT - 1) ∧
      i.signerProof.length = SIGNER_TREE_HEIGHT - 1) fun tr => ?_).trans
      (and_congr_left' (ends_condUpdate _ _ _ _ _ _ _))
    refine (ends_both _ _ _ fun so => ?_).trans ⟨fun h => h.2, fun h => ⟨ends_isValid _ _ _ _ _ _ _, h⟩⟩
    refine (ends_both _ _ ((i.adds.length = i.tx.outputs.toList.length ∧
      ∀ d ∈ i.adds, d.2.length = UTXO_TREE_HEIGHT - 1) ∧
      i.signerProof.length = SIGNER_TREE_HEIGHT - 1) fun tr => ?_).trans
      (and_congr_left' (ends_delLoop _ _ _ _ _ _))
    refine (ends_both _ _ (i.signerProof.length = SIGNER_TREE_HEIGHT - 1) fun v => ?_).trans
      (and_congr_left' (ends_addLoop _ _ _ _ _ _ _ _ _))
    exact key v _ _
  · rw [ends_assert, decide_eq_true_eq]
    constructor
    · rintro ⟨⟨h1, h2⟩, h3, ⟨h4, h5⟩, ⟨h6, h7⟩, h8⟩
      exact ⟨h1, h2, h3, by rw [h4]; simp, h5, by rw [h6]; simp, h7, h8⟩
    · intro h
      exact ⟨⟨h.sigS, h.sigE⟩, h.txProof, ⟨by rw [h.dels]; simp, h.delPaths⟩,
        ⟨by rw [h.adds]; simp, h.addPaths⟩, h.signerProof⟩

theorem ends_stepBatch (P : AggC.Params p G) (cv : Curve p q G) (z : AggC.CState p)
    (is : List (AggC.CInputs p G)) : (stepBatch P cv z is).Ends ↔ ∀ i ∈ is, Shaped q i := by
  induction is generalizing z with
  | nil => simp [stepBatch, ends_pure]
  | cons i is ih =>
    unfold stepBatch
    rw [ends_both _ _ _ fun z1 => ih z1, ends_stepOne]
    simp

theorem ends_txStep (hp : 32 ≤ modBits p) (P : Client.Params p) (cv : Curve p q G) (blk : BlockVar (ZMod p))
    (pk : G) (s : Client.Loop p) (t : Tx (ZMod p) G) (index : ZMod p) (tp sp : List (ZMod p × ZMod p)) :
    (txStep P cv blk pk s t index tp sp).Ends ↔
      tp.length = TX_TREE_HEIGHT - 1 ∧ sp.length = SIGNER_TREE_HEIGHT - 1 := by
  unfold txStep
  dsimp only
  refine (ends_both _ _ (tp.length = TX_TREE_HEIGHT - 1 ∧ sp.length = SIGNER_TREE_HEIGHT - 1)
    fun _ => ?_).trans ⟨fun h => h.2, fun h => ⟨ends_isLess _ _, h⟩⟩
  refine (ends_both _ _ (tp.length = TX_TREE_HEIGHT - 1 ∧ sp.length = SIGNER_TREE_HEIGHT - 1)
    fun _ => ?_).trans ⟨fun h => h.2, fun h => ⟨ends_condEnforce _ _ _, h⟩⟩
  refine (ends_both _ _ (sp.length = SIGNER_TREE_HEIGHT - 1) fun _ => ?_).trans
    (and_congr_left' (ends_condCheckMembershipIdx _ _ _ _ _ _ ?_))
  · exact (ends_seq _ _ fun _ => ends_pure _).trans
      (ends_condCheckMembership _ _ _ _ _ (show 2 ≤ SIGNER_TREE_HEIGHT by decide))
  · show TX_TREE_HEIGHT - 1 ≤ modBits p
    have : TX_TREE_HEIGHT - 1 ≤ 32 := by decide
    omega

theorem ends_txLoop (hp : 32 ≤ modBits p) (P : Client.Params p) (cv : Curve p q G) (blk : BlockVar (ZMod p))
    (pk : G) (l : List (((Tx (ZMod p) G × ZMod p) × List (ZMod p × ZMod p)) × List (ZMod p × ZMod p)))
    (s : Client.Loop p) :
    (txLoop P cv blk pk l s).Ends ↔
      ∀ e ∈ l, e.1.2.length = TX_TREE_HEIGHT - 1 ∧ e.2.length = SIGNER_TREE_HEIGHT - 1 := by
  induction l generalizing s with
  | nil => simp [txLoop, ends_pure]
  | cons e l ih =>
    obtain ⟨⟨⟨t, i⟩, tp⟩, sp⟩ := e
    unfold txLoop
    rw [ends_both _ _ _ fun s1 => ih s1, ends_txStep hp]
    simp

theorem ends_updateBalance (hp : 32 ≤ modBits p) (P : Client.Params p) (cv : Curve p q G) (n : Nat)
    (z : Client.UState p) (a : Client.UserAuxVar p G) :
    (updateBalance P cv n z a).Ends ↔ UserShaped n a := by
  unfold updateBalance
  dsimp only
  rw [ends_both (assert _) _ _ fun _ => ends_both (assert _) _ _ fun _ => ends_both (assert _) _ _ fun _ =>
    ends_both (enforce _) _ _ fun _ => ends_both (enforceLe _ _) _ _ fun _ =>
    ends_both (txLoop _ _ _ _ _ _) _ _ fun _ => iff_true_intro (ends_pure _),
    ends_assert, ends_assert, ends_assert, ends_txLoop hp]
  simp only [decide_eq_true_eq]
  constructor
  · rintro ⟨h1, h2, h3, _, _, h4, _⟩
    refine ⟨h2, h1, h3, fun x hx => ?_, fun x hx => ?_⟩
    · obtain ⟨j, hj, rfl⟩ := List.mem_iff_getElem.1 hx
      exact (h4 (((a.transactions[j]'(by omega)), a.txProofs[j]), a.signerProofs[j]'(by omega))
        (List.mem_iff_getElem.2 ⟨j, by simp; omega, by simp⟩)).1
    · obtain ⟨j, hj, rfl⟩ := List.mem_iff_getElem.1 hx
      exact (h4 (((a.transactions[j]'(by omega)), a.txProofs[j]'(by omega)), a.signerProofs[j])
        (List.mem_iff_getElem.2 ⟨j, by simp; omega, by simp⟩)).2
  · intro h
    refine ⟨h.txProofs, h.txs, h.signerProofs, ends_enforce _, ends_enforceLe _ _, fun e he => ?_, trivial⟩
    obtain ⟨e1, e2⟩ := e
    obtain ⟨e1, e3⟩ := e1
    have h1 := List.of_mem_zip he
    have h2 := List.of_mem_zip h1.1
    exact ⟨h.txPaths _ h2.2, h.signerPaths _ h1.2⟩

/-! ### Runs -/

theorem sat_runBatches (h : AggC.Sizes p q) (P : AggC.Params p G) (cv : Curve p q G) (z : AggC.CState p)
    (bs : List (List (AggC.CInputs p G))) (z' : AggC.CState p) :
    (runBatches P cv z bs).Sat z' ↔ AggC.runSteps P cv z bs z' := by
  induction bs generalizing z with
  | nil => simp only [runBatches, AggC.runSteps, sat_pure]
  | cons b bs ih => simp only [runBatches, AggC.runSteps, sat_bind, sat_stepBatch h, ih]

theorem sat_runUser (P : Client.Params p) (cv : Curve p q G) (n : Nat) (z : Client.UState p)
    (l : List (Client.UserAuxVar p G)) (z' : Client.UState p) :
    (runUser P cv n z l).Sat z' ↔ Client.runSteps P cv n z l z' := by
  induction l generalizing z with
  | nil => simp only [runUser, Client.runSteps, sat_pure]
  | cons b bs ih => simp only [runUser, Client.runSteps, sat_bind, sat_updateBalance, ih]

theorem ends_runBatches (P : AggC.Params p G) (cv : Curve p q G) (z : AggC.CState p)
    (bs : List (List (AggC.CInputs p G))) :
    (runBatches P cv z bs).Ends ↔ ∀ b ∈ bs, ∀ i ∈ b, Shaped q i := by
  induction bs generalizing z with
  | nil => simp [runBatches, ends_pure]
  | cons b bs ih =>
    unfold runBatches
    rw [ends_both _ _ _ fun z1 => ih z1, ends_stepBatch]
    simp

theorem ends_runUser (hp : 32 ≤ modBits p) (P : Client.Params p) (cv : Curve p q G) (n : Nat)
    (z : Client.UState p) (l : List (Client.UserAuxVar p G)) :
    (runUser P cv n z l).Ends ↔ ∀ a ∈ l, UserShaped n a := by
  induction l generalizing z with
  | nil => simp [runUser, ends_pure]
  | cons b bs ih =>
    unfold runUser
    rw [ends_both _ _ _ fun z1 => ih z1, ends_updateBalance hp]
    simp

end PF.Wit
