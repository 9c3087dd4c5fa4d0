import Verif.Proof.Client

/-!
# Runs of the client circuit
-/

set_option linter.unusedSectionVars false

namespace PF.Client
open PF PF.Spec PF.MT PF.Circuit

variable {p q : Nat} {G : Type} [AddCommGroup G] [Module (ZMod q) G] [DecidableEq G]

/-- State after a list of steps. -/
def stateAt (P : Params p) (cv : Curve p q G) (z : UState p) (as : List (UserAuxVar p G)) : UState p :=
  as.foldl (fun z a => z.after P cv a) z

/-- What an accepted run says. -/
def RunFacts (P : Params p) (cv : Curve p q G) (n : Nat) : UState p → List (UserAuxVar p G) → Prop
  | _, [] => True
  | z, a :: as => StepFacts P cv n z a ∧ RunFacts P cv n (z.after P cv a) as

theorem run_iff (h : FieldOk p) (P : Params p) (cv : Curve p q G) (n : Nat) (as : List (UserAuxVar p G))
    (z z' : UState p) :
    runSteps P cv n z as z' ↔ RunFacts P cv n z as ∧ z' = stateAt P cv z as := by
  induction as generalizing z with
  | nil => simp [runSteps, RunFacts, stateAt]
  | cons a as ih =>
    simp only [runSteps, RunFacts, stateAt, List.foldl_cons]
    constructor
    · rintro ⟨z1, h1, h2⟩
      obtain ⟨f, rfl⟩ := (step_iff h P cv n z a z1).1 h1
      obtain ⟨f2, rfl⟩ := (ih _).1 h2
      exact ⟨⟨f, f2⟩, rfl⟩
    · rintro ⟨⟨f, f2⟩, rfl⟩
      exact ⟨_, (step_iff h P cv n z a _).2 ⟨f, rfl⟩, (ih _).2 ⟨f2, rfl⟩⟩

theorem runFacts_append (P : Params p) (cv : Curve p q G) (n : Nat) (as bs : List (UserAuxVar p G))
    (z : UState p) :
    RunFacts P cv n z (as ++ bs) ↔ RunFacts P cv n z as ∧ RunFacts P cv n (stateAt P cv z as) bs := by
  induction as generalizing z with
  | nil => simp [RunFacts, stateAt]
  | cons a as ih => simp only [List.cons_append, RunFacts, ih, stateAt, List.foldl_cons, and_assoc]

theorem stateAt_append (P : Params p) (cv : Curve p q G) (as bs : List (UserAuxVar p G)) (z : UState p) :
    stateAt P cv z (as ++ bs) = stateAt P cv (stateAt P cv z as) bs := by
  simp [stateAt, List.foldl_append]

/-! ## The loop -/

theorem loopAt_cons (cv : Curve p q G) (hs : Hashes p) (k : G) (s : Loop p) (x : Shown p G)
    (xs : List (Shown p G)) : loopAt cv hs k s (x :: xs) = loopAt cv hs k (s.after cv hs k x) xs := rfl

theorem loopAt_balance (cv : Curve p q G) (hs : Hashes p) (k : G) (s : Loop p) (xs : List (Shown p G)) :
    (loopAt cv hs k s xs).balance = s.balance + (xs.map fun x => delta k x.tx).sum := by
  induction xs generalizing s with
  | nil => simp [loopAt]
  | cons x xs ih => rw [loopAt_cons, ih]; simp [Loop.after]; ring

theorem loopAt_nonce (cv : Curve p q G) (hs : Hashes p) (k : G) (s : Loop p) (xs : List (Shown p G)) :
    (loopAt cv hs k s xs).nonce = s.nonce + (signedBy k (xs.map (·.tx)) : Nat) := by
  induction xs generalizing s with
  | nil => simp [loopAt, signedBy]
  | cons x xs ih =>
    rw [loopAt_cons, ih]
    simp only [Loop.after, signedBy, List.map_cons, List.countP_cons]
    by_cases hk : k = x.tx.getSigner <;> simp [hk]
    ring

/-- The counted transactions of a step. -/
def countedIn (cv : Curve p q G) (hs : Hashes p) (xs : List (Shown p G)) : List (Shown p G) :=
  xs.filter (·.counts cv hs)

theorem countedIn_cons (cv : Curve p q G) (hs : Hashes p) (x : Shown p G) (xs : List (Shown p G)) :
    countedIn cv hs (x :: xs) = if x.counts cv hs then x :: countedIn cv hs xs else countedIn cv hs xs := by
  simp [countedIn, List.filter_cons]

/-- Counted indices increase strictly, from the last processed index to the new one. -/
theorem loop_increasing {P : Params p} {cv : Curve p q G} {blk : BlockVar (ZMod p)} {k : G}
    (xs : List (Shown p G)) (s : Loop p) (h : LoopFacts P cv blk k s xs) :
    s.prevTxIndex.val ≤ (loopAt cv P.hs k s xs).prevTxIndex.val ∧
    (∀ x ∈ countedIn cv P.hs xs, s.prevTxIndex.val < x.index.val ∧
      x.index.val ≤ (loopAt cv P.hs k s xs).prevTxIndex.val) ∧
    (countedIn cv P.hs xs).Pairwise fun x y => x.index.val < y.index.val := by
  induction xs generalizing s with
  | nil => exact ⟨le_refl _, by simp [countedIn], by simp [countedIn]⟩
  | cons x xs ih =>
    obtain ⟨f, h2⟩ := h
    obtain ⟨i1, i2, i3⟩ := ih _ h2
    rw [loopAt_cons, countedIn_cons]
    by_cases hc : x.counts cv P.hs = true
    · have hl := f.lower hc
      have hp : (s.after cv P.hs k x).prevTxIndex = x.index := by simp [Loop.after, hc]
      rw [hp] at i1 i2
      rw [if_pos hc]
      refine ⟨by omega, ?_, ?_⟩
      · intro y hy
        rcases List.mem_cons.1 hy with rfl | hy
        · exact ⟨hl, i1⟩
        · have := i2 y hy; exact ⟨by omega, this.2⟩
      · exact List.pairwise_cons.2 ⟨fun y hy => (i2 y hy).1, i3⟩
    · have hp : (s.after cv P.hs k x).prevTxIndex = s.prevTxIndex := by simp [Loop.after, hc]
      rw [hp] at i1 i2
      rw [if_neg hc]
      exact ⟨i1, i2, i3⟩

theorem loop_tx {P : Params p} {cv : Curve p q G} {blk : BlockVar (ZMod p)} {k : G}
    (xs : List (Shown p G)) (s : Loop p) (h : LoopFacts P cv blk k s xs) (x : Shown p G) (hx : x ∈ xs) :
    ∃ prev, TxFacts P cv blk prev x := by
  induction xs generalizing s with
  | nil => simp at hx
  | cons y xs ih =>
    rcases List.mem_cons.1 hx with rfl | hx
    · exact ⟨_, h.1⟩
    · exact ih _ h.2 hx

/-! ## Runs -/

/-- All counted transactions of a run, with the step they are counted in. -/
def counted (cv : Curve p q G) (hs : Hashes p) (as : List (UserAuxVar p G)) :
    List (UserAuxVar p G × Shown p G) :=
  as.flatMap fun a => (countedIn cv hs a.shown).map fun x => (a, x)

theorem counted_cons (cv : Curve p q G) (hs : Hashes p) (a : UserAuxVar p G) (as : List (UserAuxVar p G)) :
    counted cv hs (a :: as) = ((countedIn cv hs a.shown).map fun x => (a, x)) ++ counted cv hs as := by
  simp [counted]

theorem mem_counted {cv : Curve p q G} {hs : Hashes p} {as : List (UserAuxVar p G)}
    {e : UserAuxVar p G × Shown p G} :
    e ∈ counted cv hs as ↔ e.1 ∈ as ∧ e.2 ∈ e.1.shown ∧ e.2.counts cv hs = true := by
  obtain ⟨a, x⟩ := e
  unfold counted countedIn
  simp only [List.mem_flatMap, List.mem_map, List.mem_filter, Prod.mk.injEq]
  constructor
  · rintro ⟨b, hb, y, hy, rfl, rfl⟩; exact ⟨hb, hy⟩
  · rintro ⟨hb, hy⟩; exact ⟨a, hb, x, hy, rfl, rfl⟩

theorem run_mem {P : Params p} {cv : Curve p q G} {n : Nat} (as : List (UserAuxVar p G)) (z : UState p)
    (h : RunFacts P cv n z as) (a : UserAuxVar p G) (ha : a ∈ as) :
    ∃ z1, StepFacts P cv n z1 a := by
  induction as generalizing z with
  | nil => simp at ha
  | cons b as ih =>
    rcases List.mem_cons.1 ha with rfl | ha
    · exact ⟨z, h.1⟩
    · exact ih _ h.2 ha

theorem after_pkHash (P : Params p) (cv : Curve p q G) (z : UState p) (a : UserAuxVar p G) :
    (z.after P cv a).pkHash = z.pkHash := rfl

theorem run_pkHash (P : Params p) (cv : Curve p q G) (as : List (UserAuxVar p G)) (z : UState p) :
    (stateAt P cv z as).pkHash = z.pkHash := by
  induction as generalizing z with
  | nil => rfl
  | cons a as ih => simp only [stateAt, List.foldl_cons] at ih ⊢; rw [ih]; rfl

theorem run_keys {P : Params p} {cv : Curve p q G} {n : Nat} (as : List (UserAuxVar p G)) (z : UState p)
    (h : RunFacts P cv n z as) (a : UserAuxVar p G) (ha : a ∈ as) :
    P.hs.crh (pkEncVar cv a.pk) = z.pkHash := by
  induction as generalizing z with
  | nil => simp at ha
  | cons b as ih =>
    rcases List.mem_cons.1 ha with rfl | ha
    · exact h.1.key
    · exact ih (z.after P cv b) h.2 ha

theorem run_heights {P : Params p} {cv : Curve p q G} {n : Nat} (as : List (UserAuxVar p G)) (z : UState p)
    (h : RunFacts P cv n z as) :
    (∀ a ∈ as, z.prevBlockNumber.val ≤ a.block.height.val ∧
      a.block.height.val ≤ (stateAt P cv z as).prevBlockNumber.val) ∧
    z.prevBlockNumber.val ≤ (stateAt P cv z as).prevBlockNumber.val ∧
    as.Pairwise fun a b => a.block.height.val ≤ b.block.height.val := by
  induction as generalizing z with
  | nil => exact ⟨by simp, le_refl _, List.Pairwise.nil⟩
  | cons a as ih =>
    obtain ⟨i1, i2, i3⟩ := ih _ h.2
    have hh := h.1.height
    have e : (z.after P cv a).prevBlockNumber = a.block.height := rfl
    rw [e] at i1 i2
    have e2 : stateAt P cv z (a :: as) = stateAt P cv (z.after P cv a) as := rfl
    rw [e2]
    refine ⟨?_, by omega, List.pairwise_cons.2 ⟨fun b hb => (i1 b hb).1, i3⟩⟩
    intro b hb
    rcases List.mem_cons.1 hb with rfl | hb
    · exact ⟨hh, i2⟩
    · have := i1 b hb; exact ⟨by omega, this.2⟩

theorem run_balance (P : Params p) (cv : Curve p q G) (as : List (UserAuxVar p G)) (z : UState p) :
    (stateAt P cv z as).balance =
      z.balance + (as.map fun a => (a.shown.map fun x => delta a.pk x.tx).sum).sum ∧
    (stateAt P cv z as).nonce =
      z.nonce + ((as.map fun a => signedBy a.pk (a.shown.map (·.tx))).sum : Nat) := by
  induction as generalizing z with
  | nil => simp [stateAt]
  | cons a as ih =>
    have e2 : stateAt P cv z (a :: as) = stateAt P cv (z.after P cv a) as := rfl
    rw [e2, (ih _).1, (ih _).2]
    simp only [UState.after, loopAt_balance, loopAt_nonce, loopStart, List.map_cons, List.sum_cons]
    constructor
    · ring
    · push_cast; ring

theorem run_acc (P : Params p) (cv : Curve p q G) (as : List (UserAuxVar p G)) (z : UState p) :
    (stateAt P cv z as).acc =
      chain (fun x : ZMod p × ZMod p => P.acc x.1 x.2) Prod.mk z.acc (as.map (·.hash P.hs)) := by
  induction as generalizing z with
  | nil => rfl
  | cons a as ih =>
    have e2 : stateAt P cv z (a :: as) = stateAt P cv (z.after P cv a) as := rfl
    rw [e2, ih]; rfl

/-- Steps with one block hash: counted indices increase strictly along them. -/
theorem same_block_increasing {P : Params p} {cv : Curve p q G} {n : Nat} (H : ZMod p)
    (as : List (UserAuxVar p G)) (z : UState p) (h : RunFacts P cv n z as)
    (hH : ∀ a ∈ as, a.hash P.hs = H) :
    ((counted cv P.hs as).Pairwise fun e f => e.2.index.val < f.2.index.val) ∧
    (z.prevBlockHash = H → ∀ e ∈ counted cv P.hs as, z.prevTxIndex.val < e.2.index.val) := by
  induction as generalizing z with
  | nil => exact ⟨List.Pairwise.nil, by simp [counted]⟩
  | cons a as ih =>
    obtain ⟨l1, l2, l3⟩ := loop_increasing _ _ h.1.loop
    have hha := hH a (by simp)
    obtain ⟨i1, i2⟩ := ih _ h.2 (fun b hb => hH b (by simp [hb]))
    have i2 := i2 hha
    have e : (z.after P cv a).prevTxIndex = (loopAt cv P.hs a.pk (loopStart P.hs z a) a.shown).prevTxIndex := rfl
    rw [e] at i2
    rw [counted_cons]
    constructor
    · rw [List.pairwise_append]
      refine ⟨?_, i1, ?_⟩
      · rw [List.pairwise_map]; exact l3
      · intro x hx y hy
        obtain ⟨x', hx', rfl⟩ := List.mem_map.1 hx
        have := (l2 x' hx').2
        have := i2 y hy
        show x'.index.val < _
        omega
    · intro hz y hy
      have hs : (loopStart P.hs z a).prevTxIndex = z.prevTxIndex := by
        simp [loopStart, startIndex, hha, hz]
      rw [hs] at l1 l2
      rcases List.mem_append.1 hy with hy | hy
      · obtain ⟨x', hx', rfl⟩ := List.mem_map.1 hy
        exact (l2 x' hx').1
      · have := i2 y hy; omega

theorem counted_after {P : Params p} {cv : Curve p q G} {n : Nat}
    (as : List (UserAuxVar p G)) (z : UState p) (h : RunFacts P cv n z as)
    (hz : ∀ a ∈ as, a.block.height.val = z.prevBlockNumber.val → a.hash P.hs = z.prevBlockHash)
    (hu : ∀ a ∈ as, ∀ b ∈ as, a.block.height.val = b.block.height.val → a.hash P.hs = b.hash P.hs) :
    (∀ e ∈ counted cv P.hs as, z.prevBlockNumber.val < e.1.block.height.val ∨
      (z.prevBlockNumber.val = e.1.block.height.val ∧ z.prevTxIndex.val < e.2.index.val)) ∧
    ((counted cv P.hs as).Pairwise fun e f => e.1.block.height.val < f.1.block.height.val ∨
      (e.1.block.height.val = f.1.block.height.val ∧ e.2.index.val < f.2.index.val)) := by
  induction as generalizing z with
  | nil => exact ⟨by simp [counted], List.Pairwise.nil⟩
  | cons a as ih =>
    obtain ⟨l1, l2, l3⟩ := loop_increasing _ _ h.1.loop
    obtain ⟨i1, i2⟩ := ih _ h.2
      (fun b hb he => hu b (by simp [hb]) a (by simp) he)
      (fun b hb c hc => hu b (by simp [hb]) c (by simp [hc]))
    have e1 : (z.after P cv a).prevTxIndex = (loopAt cv P.hs a.pk (loopStart P.hs z a) a.shown).prevTxIndex := rfl
    have e2 : (z.after P cv a).prevBlockNumber = a.block.height := rfl
    rw [e1, e2] at i1
    have hh := h.1.height
    rw [counted_cons]
    constructor
    · intro e he
      by_cases hlt : z.prevBlockNumber.val < a.block.height.val
      · left
        rcases List.mem_append.1 he with he | he
        · obtain ⟨x', hx', rfl⟩ := List.mem_map.1 he; exact hlt
        · rcases i1 e he with h1 | ⟨h1, _⟩ <;> omega
      · have heq : a.block.height.val = z.prevBlockNumber.val := by omega
        have hs : (loopStart P.hs z a).prevTxIndex = z.prevTxIndex := by
          simp [loopStart, startIndex, hz a (by simp) heq]
        rw [hs] at l1 l2
        rcases List.mem_append.1 he with he | he
        · obtain ⟨x', hx', rfl⟩ := List.mem_map.1 he
          right; exact ⟨heq.symm, (l2 x' hx').1⟩
        · rcases i1 e he with h1 | ⟨h1, h2⟩
          · left; omega
          · right; exact ⟨by omega, by omega⟩
    · rw [List.pairwise_append]
      refine ⟨?_, i2, ?_⟩
      · rw [List.pairwise_map]
        exact l3.imp fun h => Or.inr ⟨rfl, h⟩
      · intro x hx y hy
        obtain ⟨x', hx', rfl⟩ := List.mem_map.1 hx
        have h5 := (l2 x' hx').2
        rcases i1 y hy with h1 | ⟨h1, h2⟩
        · left; exact h1
        · right; exact ⟨h1, by show x'.index.val < _; omega⟩

theorem counted_ordered {P : Params p} {cv : Curve p q G} {n : Nat}
    (as : List (UserAuxVar p G)) (z : UState p) (h : RunFacts P cv n z as)
    (hu : ∀ a ∈ as, ∀ b ∈ as, a.block.height.val = b.block.height.val → a.hash P.hs = b.hash P.hs) :
    (counted cv P.hs as).Pairwise fun e f => e.1.block.height.val < f.1.block.height.val ∨
      (e.1.block.height.val = f.1.block.height.val ∧ e.2.index.val < f.2.index.val) := by
  cases as with
  | nil => exact List.Pairwise.nil
  | cons a as =>
    obtain ⟨l1, l2, l3⟩ := loop_increasing _ _ h.1.loop
    obtain ⟨i1, i2⟩ := counted_after as _ h.2
      (fun b hb he => hu b (by simp [hb]) a (by simp) he)
      (fun b hb c hc => hu b (by simp [hb]) c (by simp [hc]))
    have e1 : (z.after P cv a).prevTxIndex = (loopAt cv P.hs a.pk (loopStart P.hs z a) a.shown).prevTxIndex := rfl
    have e2 : (z.after P cv a).prevBlockNumber = a.block.height := rfl
    rw [e1, e2] at i1
    rw [counted_cons, List.pairwise_append]
    refine ⟨?_, i2, ?_⟩
    · rw [List.pairwise_map]
      exact l3.imp fun h => Or.inr ⟨rfl, h⟩
    · intro x hx y hy
      obtain ⟨x', hx', rfl⟩ := List.mem_map.1 hx
      have h5 := (l2 x' hx').2
      rcases i1 y hy with h1 | ⟨h1, h2⟩
      · left; exact h1
      · right; exact ⟨h1, by show x'.index.val < _; omega⟩

end PF.Client
