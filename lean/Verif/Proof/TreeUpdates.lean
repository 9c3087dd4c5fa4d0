import Verif.Spec.TreeUpdates
import Verif.Proof.SparseMTVerify
import Verif.Proof.SparseMTGadget
import Verif.Proof.Aggregator
import Verif.Model.AggregatorCircuit

/-!
# Chains of root updates
-/
set_option linter.unusedSectionVars false

namespace PF.Spec
open PF.MT
variable {L D : Type} {p : Nat}

/-- Chain of roots: each update's shown path leads from its old leaf to the current root, and from its
new leaf to the next one. -/
def UpdChain (h2 : D → D → D) (lh : L → D) (N : Nat) : List (Upd L D) → D → D → Prop
  | [], r, r' => r' = r
  | u :: us, r, r' => u.sibs.length = N ∧ r = climb h2 u.sibs (lh u.old) u.idx ∧
      UpdChain h2 lh N us (climb h2 u.sibs (lh u.new) u.idx) r'

theorem UpdChain_append (h2 : D → D → D) (lh : L → D) (N : Nat) (us vs : List (Upd L D)) (r r' : D) :
    UpdChain h2 lh N (us ++ vs) r r' ↔ ∃ r1, UpdChain h2 lh N us r r1 ∧ UpdChain h2 lh N vs r1 r' := by
  induction us generalizing r with
  | nil => simp [UpdChain]
  | cons u us ih =>
    simp only [List.cons_append, UpdChain, ih]
    constructor
    · rintro ⟨h1, h2, r1, h3, h4⟩; exact ⟨r1, ⟨h1, h2, h3⟩, h4⟩
    · rintro ⟨r1, ⟨h1, h2, h3⟩, h4⟩; exact ⟨h1, h2, r1, h3, h4⟩

theorem applied_cons (c : Nat → L) (u : Upd L D) (us : List (Upd L D)) :
    applied c (u :: us) = applied (write c u.idx u.new) us := rfl

theorem applied_append (c : Nat → L) (us vs : List (Upd L D)) :
    applied c (us ++ vs) = applied (applied c us) vs := by
  simp [applied]

theorem legal_nil (c : Nat → L) : Legal c ([] : List (Upd L D)) := by
  intro k u h; simp at h

theorem legal_cons (c : Nat → L) (u : Upd L D) (us : List (Upd L D)) :
    Legal c (u :: us) ↔ c u.idx = u.old ∧ Legal (write c u.idx u.new) us := by
  constructor
  · intro h
    refine ⟨by simpa [applied] using h 0 u rfl, fun k v hv => ?_⟩
    exact h (k + 1) v (by simpa using hv)
  · rintro ⟨h1, h2⟩ k v hv
    cases k with
    | zero =>
      simp at hv; subst hv; simpa [applied] using h1
    | succ k => exact h2 k v (by simpa using hv)

theorem legal_append (c : Nat → L) (us vs : List (Upd L D)) :
    Legal c (us ++ vs) ↔ Legal c us ∧ Legal (applied c us) vs := by
  induction us generalizing c with
  | nil => simp [legal_nil, applied]
  | cons u us ih =>
    rw [List.cons_append, legal_cons, legal_cons, ih, applied_cons, and_assoc]

theorem Collision.tail {hs : Hashes p} {enc : L → List (ZMod p)} {height : Nat} {c : Nat → L}
    {u : Upd L (ZMod p)} {us : List (Upd L (ZMod p))}
    (h : Collision hs enc height (write c u.idx u.new) us) : Collision hs enc height c (u :: us) := by
  rcases h with ⟨a, ha, b, hb, h⟩ | ⟨x, hx, y, hy, h⟩
  · exact Or.inl ⟨a, by simp [hashedLeaves, ha], b, by simp [hashedLeaves, hb], h⟩
  · exact Or.inr ⟨x, by simp only [hashedPairs, List.mem_append]; exact Or.inr hx,
      y, by simp only [hashedPairs, List.mem_append]; exact Or.inr hy, h⟩

theorem hashedLeaves_append (c : Nat → L) (us vs : List (Upd L D)) :
    hashedLeaves c (us ++ vs) = hashedLeaves c us ++ hashedLeaves (applied c us) vs := by
  induction us generalizing c with
  | nil => simp [hashedLeaves, applied]
  | cons u us ih => simp [hashedLeaves, ih, applied_cons]

theorem hashedPairs_append (lh : L → D) (h2 : D → D → D) (height : Nat) (c : Nat → L)
    (us vs : List (Upd L D)) :
    hashedPairs lh h2 height c (us ++ vs) =
      hashedPairs lh h2 height c us ++ hashedPairs lh h2 height (applied c us) vs := by
  induction us generalizing c with
  | nil => simp [hashedPairs, applied]
  | cons u us ih => simp [hashedPairs, ih, applied_cons]

theorem Collision.left {hs : Hashes p} {enc : L → List (ZMod p)} {height : Nat} {c : Nat → L}
    {us : List (Upd L (ZMod p))} (vs : List (Upd L (ZMod p)))
    (h : Collision hs enc height c us) : Collision hs enc height c (us ++ vs) := by
  rcases h with ⟨a, ha, b, hb, h⟩ | ⟨x, hx, y, hy, h⟩
  · exact Or.inl ⟨a, by simp [hashedLeaves_append, ha], b, by simp [hashedLeaves_append, hb], h⟩
  · refine Or.inr ⟨x, ?_, y, ?_, h⟩ <;> rw [hashedPairs_append] <;> simp [hx, hy]

theorem Collision.right {hs : Hashes p} {enc : L → List (ZMod p)} {height : Nat} {c : Nat → L}
    (us : List (Upd L (ZMod p))) {vs : List (Upd L (ZMod p))}
    (h : Collision hs enc height (applied c us) vs) : Collision hs enc height c (us ++ vs) := by
  rcases h with ⟨a, ha, b, hb, h⟩ | ⟨x, hx, y, hy, h⟩
  · exact Or.inl ⟨a, by simp [hashedLeaves_append, ha], b, by simp [hashedLeaves_append, hb], h⟩
  · refine Or.inr ⟨x, ?_, y, ?_, h⟩ <;> rw [hashedPairs_append] <;> simp [hx, hy]

/-- Soundness of a chain of updates. -/
theorem UpdChain.sound {hs : Hashes p} {enc : L → List (ZMod p)} (hinj : ∀ a b, enc a = enc b → a = b)
    {height : Nat} (us : List (Upd L (ZMod p))) (hi : ∀ u ∈ us, u.idx < 2 ^ (height - 1))
    {c : Nat → L} {r r' : ZMod p} (hr : RootOf hs enc height c r)
    (h : UpdChain hs.h2 (fun l => hs.crh (enc l)) (height - 1) us r r') :
    (Legal c us ∧ RootOf hs enc height (applied c us) r') ∨ Collision hs enc height c us := by
  induction us generalizing c r with
  | nil =>
    left
    unfold UpdChain at h; subst h
    exact ⟨legal_nil c, hr⟩
  | cons u us ih =>
    obtain ⟨h1, h2, h3⟩ := h
    have hu := hi u (by simp)
    unfold RootOf merkleRoot at hr
    rcases climb_update hs.h2 (fun l => hs.crh (enc l)) (height - 1) c u.sibs u.idx u.old u.new h1 hu
      (by rw [← h2, hr]) with ⟨e1, e2⟩ | hc
    · by_cases ho : enc u.old = enc (c u.idx)
      · have ho' := hinj _ _ ho
        rcases ih (fun v hv => hi v (by simp [hv])) (c := write c u.idx u.new) e2 h3 with ⟨k1, k2⟩ | k
        · left
          rw [legal_cons]
          exact ⟨⟨ho'.symm, k1⟩, k2⟩
        · exact Or.inr k.tail
      · right; left
        exact ⟨u.old, by simp [hashedLeaves], c u.idx, by simp [hashedLeaves], ho, e1⟩
    · right; right
      obtain ⟨ℓ, x, y, hx, hy, hne, he⟩ := hc
      refine ⟨x, ?_, y, ?_, hne, he⟩
      · simp only [hashedPairs, List.mem_append]
        exact Or.inl (Or.inl (List.mem_of_getElem? hx))
      · simp only [hashedPairs, List.mem_append]
        exact Or.inl (Or.inr (List.mem_of_getElem? hy))

/-- The siblings shown by each update are the true ones. -/
def TrueSibs (h2 : D → D → D) (lh : L → D) (N : Nat) : (Nat → L) → List (Upd L D) → Prop
  | _, [] => True
  | c, u :: us => u.sibs = sibsFrom h2 (fun k => lh (c k)) 0 N u.idx ∧
      TrueSibs h2 lh N (write c u.idx u.new) us

/-- Completeness of a chain of updates. -/
theorem UpdChain.complete {hs : Hashes p} {enc : L → List (ZMod p)}
    {height : Nat} (us : List (Upd L (ZMod p))) (hi : ∀ u ∈ us, u.idx < 2 ^ (height - 1))
    {c : Nat → L} {r : ZMod p} (hr : RootOf hs enc height c r) (hl : Legal c us)
    (hs' : TrueSibs hs.h2 (fun l => hs.crh (enc l)) (height - 1) c us) :
    UpdChain hs.h2 (fun l => hs.crh (enc l)) (height - 1) us r
      (merkleRoot (fun l => hs.crh (enc l)) hs.h2 height (applied c us)) := by
  induction us generalizing c r with
  | nil => exact hr.symm
  | cons u us ih =>
    obtain ⟨l1, l2⟩ := (legal_cons c u us).1 hl
    obtain ⟨s1, s2⟩ := hs'
    have hu := hi u (by simp)
    have hz : u.idx / 2 ^ (height - 1) = 0 := Nat.div_eq_of_lt hu
    have e1 := climb_sibsFrom hs.h2 (fun k => hs.crh (enc (c k))) (height - 1) 0 u.idx
    have e2 := climb_sibsFrom_write hs.h2 (fun l => hs.crh (enc l)) c u.idx u.new (height - 1) 0
    simp only [pow_zero, Nat.div_one, Nat.zero_add, hz] at e1 e2
    refine ⟨?_, ?_, ?_⟩
    · rw [s1, sibsFrom_length]
    · rw [s1, ← l1, hr]
      unfold merkleRoot
      rw [← e1]; simp [nodeAt]
    · refine ih (fun v hv => hi v (by simp [hv])) ?_ l2 s2
      unfold RootOf merkleRoot
      rw [s1, ← e2]; simp [nodeAt, write]

end PF.Spec

namespace PF.AggC
open PF.Spec PF.MT PF.Circuit
variable {p : Nat} {L : Type}

/-- A conditional update is a chain of at most one update. -/
theorem condUpdate_iff (cfg : Config L (ZMod p)) (hb : cfg.height - 1 ≤ modBits p) (on : Bool)
    (pos : ZMod p) (proof : List (ZMod p)) (old new : L) (r r' : ZMod p) :
    condUpdate cfg on pos proof old new r r' ↔ proof.length = cfg.height - 1 ∧
      UpdChain cfg.h2 cfg.leafHash (cfg.height - 1)
        (if on then [{ idx := pos.val % 2 ^ (cfg.height - 1), old := old, new := new, sibs := proof }]
          else []) r r' := by
  unfold condUpdate
  constructor
  · rintro ⟨h1, h2, h3⟩
    refine ⟨h1, ?_⟩
    rw [updateRoot_eq cfg proof old new pos hb h1] at h2 h3
    cases on with
    | false => simpa [UpdChain, select] using h3
    | true =>
      simp only [if_true, UpdChain]
      refine ⟨h1, h2 rfl, by simpa [select] using h3⟩
  · rintro ⟨h1, h2⟩
    refine ⟨h1, ?_⟩
    rw [updateRoot_eq cfg proof old new pos hb h1]
    cases on with
    | false => exact ⟨by simp [condEq], by simpa [UpdChain, select] using h2⟩
    | true =>
      simp only [if_true, UpdChain] at h2
      exact ⟨fun _ => h2.2.1, by simpa [select] using h2.2.2⟩

/-- Equal roots mean equal leaf encodings, unless the two trees exhibit a collision. -/
theorem root_clash (hs : Hashes p) (enc : L → List (ZMod p)) (height : Nat) (c d : Nat → L)
    (e : merkleRoot (fun l => hs.crh (enc l)) hs.h2 height c = merkleRoot (fun l => hs.crh (enc l)) hs.h2 height d) :
    (∀ j, j < 2 ^ (height - 1) → enc (c j) = enc (d j)) ∨ RootClash hs enc height c d := by
  by_cases hc : RootClash hs enc height c d
  · exact Or.inr hc
  · left
    intro j hj
    by_contra hne
    apply hc
    refine ⟨j, hj, ?_⟩
    have hz : j / 2 ^ (height - 1) = 0 := Nat.div_eq_of_lt hj
    rcases nodeAt_binds hs.h2 (fun i => hs.crh (enc (c i))) (fun i => hs.crh (enc (d i))) (height - 1) 0 j
      (by rw [Nat.zero_add, hz]; exact e) with h | h
    · exact Or.inl ⟨hne, h⟩
    · exact Or.inr h

end PF.AggC
