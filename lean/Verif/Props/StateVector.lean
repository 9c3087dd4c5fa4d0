import Verif.Model.StateVector
import Verif.Props.ClientExamples
import Verif.Props.AggregatorCircuitRuns

/-!
# Property C90: the state vectors of the step circuits
-/

set_option linter.unusedSectionVars false

namespace PF.Props
open PF PF.MT PF.Spec PF.Circuit

variable {p q : Nat} {G : Type} [AddCommGroup G] [Module (ZMod q) G] [DecidableEq G]

section client
open PF.Client

/-- Reading a vector: it panics exactly if the vector is too short. -/
theorem client_ofVec (v : List (ZMod p)) :
    (v.length < 7 → UState.ofVec v = .panic) ∧
    ∀ z, UState.ofVec v = .ok z ↔ ∃ rest, v = z.toList ++ rest := by
  constructor
  · intro h
    rcases v with _ | ⟨a, _ | ⟨b, _ | ⟨c, _ | ⟨d, _ | ⟨e, _ | ⟨f, _ | ⟨g, l⟩⟩⟩⟩⟩⟩⟩ <;>
      first | rfl | (simp at h; omega)
  · intro z
    rcases v with _ | ⟨a, _ | ⟨b, _ | ⟨c, _ | ⟨d, _ | ⟨e, _ | ⟨f, _ | ⟨g, l⟩⟩⟩⟩⟩⟩⟩ <;>
      simp only [UState.ofVec, UState.toList, List.cons_append, List.nil_append] <;>
      try (constructor <;> intro h <;> simp at h; done)
    constructor
    · intro h
      have := Outcome.ok.inj h
      subst this
      exact ⟨l, rfl⟩
    · rintro ⟨rest, h⟩
      simp only [List.cons.injEq] at h
      obtain ⟨rfl, rfl, rfl, rfl, rfl, rfl, rfl, _⟩ := h
      rfl

theorem client_runVec_toList (P : Client.Params p) (cv : Curve p q G) (n i : Nat) (z : UState p)
    (as : List (UserAuxVar p G)) (v' : List (ZMod p)) :
    Client.runVec P cv n i z.toList as v' ↔ ∃ z', Client.runSteps P cv n z as z' ∧ v' = z'.toList := by
  have hof : UState.ofVec z.toList = .ok z := rfl
  induction as generalizing z i with
  | nil => simp [Client.runVec, Client.runSteps]
  | cons a as ih =>
    simp only [Client.runVec, Client.runSteps, Client.stepVec, hof, Outcome.ok.injEq]
    constructor
    · rintro ⟨v1, ⟨z0, z1, rfl, h1, rfl⟩, h2⟩
      obtain ⟨z', h3, rfl⟩ := (ih (i + 1) z1 rfl).1 h2
      exact ⟨z', ⟨z1, h1, h3⟩, rfl⟩
    · rintro ⟨z', ⟨z1, h1, h3⟩, rfl⟩
      exact ⟨_, ⟨z, z1, rfl, h1, rfl⟩, (ih (i + 1) z1 rfl).2 ⟨z', h3, rfl⟩⟩

/-- **C90** (client): a step needs a vector of at least seven elements (else it panics), ignores further
ones and the step number, and returns exactly seven. -/
theorem C90_client_vector_shape (P : Client.Params p) (cv : Curve p q G) (n i : Nat) (v v' : List (ZMod p))
    (a : UserAuxVar p G) :
    (Client.stepVec P cv n i v a v' → 7 ≤ v.length ∧ v'.length = Client.stateLen) ∧
    (∀ j w, 7 ≤ v.length → (Client.stepVec P cv n i (v ++ w) a v' ↔ Client.stepVec P cv n j v a v')) ∧
    (v.length < 7 → UState.ofVec v = .panic) := by
  refine ⟨?_, ?_, (client_ofVec v).1⟩
  · rintro ⟨z, z', h1, _, rfl⟩
    obtain ⟨rest, rfl⟩ := ((client_ofVec v).2 z).1 h1
    exact ⟨by simp [UState.toList], rfl⟩
  · intro j w hv
    have : UState.ofVec (v ++ w) = UState.ofVec v := by
      rcases v with _ | ⟨a, _ | ⟨b, _ | ⟨c, _ | ⟨d, _ | ⟨e, _ | ⟨f, _ | ⟨g, l⟩⟩⟩⟩⟩⟩⟩ <;>
        first | rfl | (simp at hv)
    unfold Client.stepVec
    rw [this]

theorem loopAt_index (cv : Curve p q G) (hs : Hashes p) (k : G) (s : Loop p) (xs : List (Shown p G)) :
    (loopAt cv hs k s xs).prevTxIndex =
      (((xs.filter fun x => x.counts cv hs).getLast?).map (·.index)).getD s.prevTxIndex := by
  induction xs using List.reverseRecOn with
  | nil => rfl
  | append_singleton xs x ih =>
    rw [loopAt_append, List.filter_append]
    show ((loopAt cv hs k s xs).after cv hs k x).prevTxIndex = _
    unfold Loop.after
    cases hx : x.counts cv hs
    · simp [ih, hx]
    · simp [hx]

/-- **C90** (client, one step): the seven elements are, in order, balance, nonce, key hash, accumulator,
hash of the last block, height of the last block, and index of the last counted transaction (zero if no
transaction of a new block counted). -/
theorem C90_client_step (h : FieldOk p) (P : Client.Params p) (cv : Curve p q G) (n i : Nat)
    (balance nonce key acc hash height index : ZMod p) (rest v' : List (ZMod p)) (a : UserAuxVar p G)
    (hstep : Client.stepVec P cv n i ([balance, nonce, key, acc, hash, height, index] ++ rest) a v') :
    v' = [balance + (a.transactions.map fun t => received a.pk t.1 - spent a.pk t.1).sum,
          nonce + (signedBy a.pk (a.transactions.map (·.1)) : Nat),
          key,
          P.acc acc (P.hs.crh (blockEncVar a.block)),
          P.hs.crh (blockEncVar a.block),
          a.block.height,
          (((a.shown.filter fun x => x.counts cv P.hs).getLast?).map (·.index)).getD
            (if P.hs.crh (blockEncVar a.block) = hash then index else 0)] ∧
    key = P.hs.crh (pkEncVar cv a.pk) ∧ height.val ≤ a.block.height.val := by
  obtain ⟨z, z', h1, h2, rfl⟩ := hstep
  obtain ⟨rest', hv⟩ := ((client_ofVec _).2 z).1 h1
  simp only [UState.toList, List.cons_append, List.nil_append, List.cons.injEq] at hv
  obtain ⟨rfl, rfl, rfl, rfl, rfl, rfl, rfl, _⟩ := hv
  have hrun : Client.runSteps P cv n z [a] z' := ⟨z', h2, rfl⟩
  obtain ⟨b1, b2⟩ := C61_balance_and_nonce h P cv n z z' [a] hrun
  obtain ⟨f, rfl⟩ := (step_iff h P cv n z a z').1 h2
  refine ⟨?_, f.key.symm, f.height⟩
  simp only [List.map_cons, List.map_nil, List.sum_cons, List.sum_nil, add_zero] at b1 b2
  unfold UState.toList
  rw [b1, b2]
  simp only [UState.after, List.cons.injEq, true_and, and_true]
  refine ⟨rfl, rfl, ?_⟩
  rw [loopAt_index]
  rfl

theorem stateAt_index (P : Client.Params p) (cv : Curve p q G) (z : UState p) (as : List (UserAuxVar p G))
    (a : UserAuxVar p G) : (stateAt P cv z (as ++ [a])).prevTxIndex =
      lastIndex cv P.hs z.prevBlockHash z.prevTxIndex as a := by
  have step : ∀ (bs : List (UserAuxVar p G)) (b : UserAuxVar p G),
      (stateAt P cv z (bs ++ [b])).prevTxIndex =
        (((b.shown.filter fun x => x.counts cv P.hs).getLast?).map (·.index)).getD
          (if P.hs.crh (blockEncVar b.block) = (stateAt P cv z bs).prevBlockHash then
            (stateAt P cv z bs).prevTxIndex else 0) := by
    intro bs b
    have : stateAt P cv z (bs ++ [b]) = (stateAt P cv z bs).after P cv b := by simp [stateAt]
    rw [this]
    simp only [UState.after]
    rw [loopAt_index]
    rfl
  induction as using List.reverseRecOn generalizing a with
  | nil =>
    rw [step]
    simp [lastIndex, lastBlockSteps, stateAt]
    rfl
  | append_singleton bs b ih =>
    rw [step, ih b]
    have hh : (stateAt P cv z (bs ++ [b])).prevBlockHash = P.hs.crh (blockEncVar b.block) := by
      have : stateAt P cv z (bs ++ [b]) = (stateAt P cv z bs).after P cv b := by simp [stateAt]
      rw [this]; rfl
    rw [hh]
    by_cases e : P.hs.crh (blockEncVar a.block) = P.hs.crh (blockEncVar b.block)
    · have hl : lastBlockSteps P.hs (bs ++ [b]) a = lastBlockSteps P.hs bs b ++ [a] := by
        simp only [lastBlockSteps, List.reverse_append, List.reverse_cons, List.reverse_nil, List.nil_append,
          List.cons_append, List.takeWhile_cons, decide_true, if_true, e]
      unfold lastIndex
      rw [hl, if_pos e, List.flatMap_append, List.filter_append, List.getLast?_append, e]
      simp only [List.flatMap_cons, List.flatMap_nil, List.append_nil, List.length_append,
        List.length_cons, List.length_nil, Nat.zero_add, Nat.add_right_cancel_iff]
      cases ((a.shown.filter fun x => x.counts cv P.hs).getLast?) <;> rfl
    · have hl : lastBlockSteps P.hs (bs ++ [b]) a = [a] := by
        have e' : ¬ P.hs.crh (blockEncVar b.block) = P.hs.crh (blockEncVar a.block) := fun k => e k.symm
        simp [lastBlockSteps, e']
      rw [if_neg e]
      unfold lastIndex
      rw [hl, if_neg]
      · simp
      · rintro ⟨k, _⟩
        simp at k

/-- **C90** (client, runs): what the vector holds after any number of steps. -/
theorem C90_client_run (h : FieldOk p) (P : Client.Params p) (cv : Curve p q G) (n i : Nat)
    (balance nonce key acc hash height index : ZMod p) (rest v' : List (ZMod p)) (a : UserAuxVar p G)
    (as : List (UserAuxVar p G))
    (hrun : Client.runVec P cv n i ([balance, nonce, key, acc, hash, height, index] ++ rest) (as ++ [a]) v') :
    v' =
      [balance + ((as ++ [a]).map fun a =>
          (a.transactions.map fun t => received a.pk t.1 - spent a.pk t.1).sum).sum,
       nonce + (((as ++ [a]).map fun a => signedBy a.pk (a.transactions.map (·.1))).sum : Nat),
       key,
       (as ++ [a]).foldl (fun x b => P.acc x (P.hs.crh (blockEncVar b.block))) acc,
       P.hs.crh (blockEncVar a.block),
       a.block.height,
       lastIndex cv P.hs hash index as a] := by
  have key1 : ∃ z z' : UState p, z.toList = [balance, nonce, key, acc, hash, height, index] ∧
      Client.runSteps P cv n z (as ++ [a]) z' ∧ v' = z'.toList := by
    refine ⟨⟨balance, nonce, key, acc, hash, height, index⟩, ?_⟩
    cases as with
    | nil =>
      obtain ⟨v1, ⟨z, z', h1, h2, rfl⟩, rfl⟩ := hrun
      have h1' := Outcome.ok.inj (h1 : Outcome.ok _ = _)
      subst h1'
      exact ⟨z', rfl, ⟨z', h2, rfl⟩, rfl⟩
    | cons b bs =>
      obtain ⟨v1, ⟨z, z', h1, h2, rfl⟩, h3⟩ := hrun
      have h1' := Outcome.ok.inj (h1 : Outcome.ok _ = _)
      subst h1'
      obtain ⟨z2, h4, rfl⟩ := (client_runVec_toList P cv n _ z' _ _).1 h3
      exact ⟨z2, rfl, ⟨z', h2, h4⟩, rfl⟩
  obtain ⟨z, z', hz, hr, rfl⟩ := key1
  simp only [UState.toList, List.cons.injEq, and_true] at hz
  obtain ⟨rfl, rfl, rfl, rfl, rfl, rfl, rfl⟩ := hz
  obtain ⟨b1, b2⟩ := C61_balance_and_nonce h P cv n z z' _ hr
  obtain ⟨f, rfl⟩ := (run_iff h P cv n _ z z').1 hr
  have hlast : stateAt P cv z (as ++ [a]) = (stateAt P cv z as).after P cv a := by
    simp [stateAt]
  have hkey : ∀ l : List (UserAuxVar p G), (stateAt P cv z l).pkHash = z.pkHash := by
    intro l
    induction l using List.reverseRecOn with
    | nil => rfl
    | append_singleton l x ih =>
      have : stateAt P cv z (l ++ [x]) = (stateAt P cv z l).after P cv x := by simp [stateAt]
      rw [this]; exact ih
  have hacc : ∀ l : List (UserAuxVar p G), (stateAt P cv z l).acc =
      l.foldl (fun x b => P.acc x (P.hs.crh (blockEncVar b.block))) z.acc := by
    intro l
    induction l using List.reverseRecOn with
    | nil => rfl
    | append_singleton l x ih =>
      have : stateAt P cv z (l ++ [x]) = (stateAt P cv z l).after P cv x := by simp [stateAt]
      rw [this, List.foldl_append, ← ih]; rfl
  unfold UState.toList
  rw [b1, b2, hkey, hacc, stateAt_index, hlast]
  rfl

/-- Non-vacuity: the demo run as a run over vectors, from the vector `[0, 0, key hash, 0, 0, 0, 0]`. -/
example (h : FieldOk p) (cv : Curve p q G) (k r : G) (hr : r ≠ k) (hr0 : r ≠ 0) :
    ∃ (a b : UserAuxVar p G) (v' : List (ZMod p)),
      Client.runVec (demoParams p) cv 2 0 [0, 0, (demoHs p).crh (pkEncVar cv r), 0, 0, 0, 0] ([a] ++ [b]) v' ∧
      v'[0]? = some 7 ∧ v'[5]? = some 1 := by
  obtain ⟨a, b, z', h1, h2, _, h4, h5⟩ := demo_run h cv k r hr hr0
  have hv := (client_runVec_toList (demoParams p) cv 2 0 (demoUser cv r) [a, b] z'.toList).2 ⟨z', h1, rfl⟩
  have e := C90_client_run h (demoParams p) cv 2 0 0 0 _ 0 0 0 0 [] z'.toList b [a] hv
  refine ⟨a, b, z'.toList, hv, by simp [UState.toList, h2], ?_⟩
  rw [e, h5, h4]
  rfl

end client

section aggregator
open PF.AggC PF.Contract

theorem agg_ofVec (v : List (ZMod p)) :
    (v.length < 8 → CState.ofVec v = .panic) ∧
    ∀ z, CState.ofVec v = .ok z ↔ ∃ rest, v = z.toList ++ rest := by
  constructor
  · intro h
    rcases v with _ | ⟨a, _ | ⟨b, _ | ⟨c, _ | ⟨d, _ | ⟨e, _ | ⟨f, _ | ⟨g, _ | ⟨k, l⟩⟩⟩⟩⟩⟩⟩⟩ <;>
      first | rfl | (simp at h; omega)
  · intro z
    rcases v with _ | ⟨a, _ | ⟨b, _ | ⟨c, _ | ⟨d, _ | ⟨e, _ | ⟨f, _ | ⟨g, _ | ⟨k, l⟩⟩⟩⟩⟩⟩⟩⟩ <;>
      simp only [CState.ofVec, CState.toList, List.cons_append, List.nil_append] <;>
      try (constructor <;> intro h <;> simp at h; done)
    constructor
    · intro h
      have := Outcome.ok.inj h
      subst this
      exact ⟨l, rfl⟩
    · rintro ⟨rest, h⟩
      simp only [List.cons.injEq] at h
      obtain ⟨rfl, rfl, rfl, rfl, rfl, rfl, rfl, rfl, _⟩ := h
      rfl

theorem agg_runVec_toList (P : AggC.Params p G) (cv : Curve p q G) (i : Nat) (z : CState p)
    (bs : List (List (CInputs p G))) (v' : List (ZMod p)) :
    AggC.runVec P cv i z.toList bs v' ↔ ∃ z', AggC.runSteps P cv z bs z' ∧ v' = z'.toList := by
  have hof : CState.ofVec z.toList = .ok z := rfl
  induction bs generalizing z i with
  | nil => simp [AggC.runVec, AggC.runSteps]
  | cons a as ih =>
    simp only [AggC.runVec, AggC.runSteps, AggC.stepVec, hof, Outcome.ok.injEq]
    constructor
    · rintro ⟨v1, ⟨z0, z1, rfl, h1, rfl⟩, h2⟩
      obtain ⟨z', h3, rfl⟩ := (ih (i + 1) z1 rfl).1 h2
      exact ⟨z', ⟨z1, h1, h3⟩, rfl⟩
    · rintro ⟨z', ⟨z1, h1, h3⟩, rfl⟩
      exact ⟨_, ⟨z, z1, rfl, h1, rfl⟩, (ih (i + 1) z1 rfl).2 ⟨z', h3, rfl⟩⟩

/-- **C90** (aggregator): a step needs a vector of at least eight elements (else it panics), ignores
further ones and the step number, and returns exactly eight. -/
theorem C90_aggregator_vector_shape (P : AggC.Params p G) (cv : Curve p q G) (i : Nat) (v v' : List (ZMod p))
    (b : List (CInputs p G)) :
    (AggC.stepVec P cv i v b v' → 8 ≤ v.length ∧ v'.length = AggC.stateLen) ∧
    (∀ j w, 8 ≤ v.length → (AggC.stepVec P cv i (v ++ w) b v' ↔ AggC.stepVec P cv j v b v')) ∧
    (v.length < 8 → CState.ofVec v = .panic) := by
  refine ⟨?_, ?_, (agg_ofVec v).1⟩
  · rintro ⟨z, z', h1, _, rfl⟩
    obtain ⟨rest, rfl⟩ := ((agg_ofVec v).2 z).1 h1
    exact ⟨by simp [CState.toList], rfl⟩
  · intro j w hv
    have : CState.ofVec (v ++ w) = CState.ofVec v := by
      rcases v with _ | ⟨a, _ | ⟨b, _ | ⟨c, _ | ⟨d, _ | ⟨e, _ | ⟨f, _ | ⟨g, _ | ⟨k, l⟩⟩⟩⟩⟩⟩⟩⟩ <;>
        first | rfl | (simp at hv)
    unfold AggC.stepVec
    rw [this]

/-- **C90** (aggregator, runs): the eight elements are, in order, the number of transactions so far, the
UTXO root, the transaction root so far, the final transaction root (never changed), the signer root, and
the signer, deposit and withdrawal chains (the latter two unchanged in transfer-only mode). Each of the three
roots is that of the contents after the updates of the run, unless the shown and true paths exhibit a
collision. -/
theorem C90_aggregator_run (h : Sizes p q) (P : AggC.Params p G)
    (cv : Curve p q G) (i : Nat) (count utxo tx final signer sacc dacc wacc : ZMod p)
    (v' : List (ZMod p)) (bs : List (List (CInputs p G)))
    (hrun : AggC.runVec P cv i [count, utxo, tx, final, signer, sacc, dacc, wacc] bs v') :
    ∃ utxo' tx' signer', v' =
      [count + (bs.flatten.length : Nat), utxo', tx', final, signer',
       chain (shaField p P.sha) (signerInput cv) sacc (signerList P cv final bs.flatten),
       if P.transferOnly then dacc else
        chain (shaField p P.sha) (amountInput cv) dacc (depositList P bs.flatten),
       if P.transferOnly then wacc else
        chain (shaField p P.sha) (amountInput cv) wacc (withdrawalList P bs.flatten)] ∧
    (∀ c, RootOf P.hs (utxoEncVar cv) 32 c utxo →
      RootOf P.hs (utxoEncVar cv) 32 (applied c (ledgerUpds P cv final bs.flatten)) utxo' ∨
      Collision P.hs (utxoEncVar cv) 32 c (ledgerUpds P cv final bs.flatten)) ∧
    (∀ ct, RootOf P.hs (txEncVar cv) 13 ct tx →
      RootOf P.hs (txEncVar cv) 13 (applied ct (txUpds count bs.flatten)) tx' ∨
      Collision P.hs (txEncVar cv) 13 ct (txUpds count bs.flatten)) ∧
    (∀ cs, RootOf P.hs (pkEncVar cv) 13 cs signer →
      RootOf P.hs (pkEncVar cv) 13 (applied cs (signerUpds P cv final count bs.flatten)) signer' ∨
      Collision P.hs (pkEncVar cv) 13 cs (signerUpds P cv final count bs.flatten)) := by
  obtain ⟨z', hr, rfl⟩ := (agg_runVec_toList P cv i ⟨count, utxo, tx, final, signer, sacc, dacc, wacc⟩ bs
    v').1 hrun
  have f := run_facts h hr
  refine ⟨z'.utxoRoot, z'.txRoot, z'.signerRoot, ?_, ?_, ?_, ?_⟩
  · unfold CState.toList
    rcases f.books with ⟨ht, b1, b2⟩ | ⟨ht, _, _, b1, b2⟩
    · rw [f.step, f.final, f.signerAcc, b1, b2, ht]
      rfl
    · rw [f.step, f.final, f.signerAcc, b1, b2, ht]
      rfl
  · intro c hc
    exact (C50_runs_are_ledger_transitions h P cv _ z' bs hr c hc).imp And.right id
  · intro c hc
    exact (tx_sound h P cv _ z' bs hr c hc).imp And.right id
  · intro c hc
    exact (signer_sound h P cv _ z' bs hr c hc).imp And.right id

/-- Non-vacuity: the circuit accepts the empty run, and longer runs exist from every open state
(`C54_unsigned_mint_unrecorded`), hence as runs over vectors. -/
example (P : AggC.Params p G) (cv : Curve p q G) (z z' : CState p) (i : CInputs p G)
    (hstep : stepOne P cv z i z') : AggC.runVec P cv 0 z.toList [[i]] z'.toList :=
  (agg_runVec_toList P cv 0 z [[i]] z'.toList).2 ⟨z', ⟨z', ⟨z', hstep, rfl⟩, rfl⟩, rfl⟩

end aggregator

end PF.Props
