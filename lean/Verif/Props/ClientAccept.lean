import Verif.Spec.ClientAccept
import Verif.Props.Wallet
import Verif.Props.AggregatorCircuitRuns

/-!
# Properties C85–C86: exactly which client steps are accepted; both circuits are deterministic
-/

set_option linter.unusedSectionVars false

namespace PF.Props
open PF PF.Spec PF.Client PF.MT PF.Circuit
variable {p q : Nat} {G : Type} [AddCommGroup G] [Module (ZMod q) G] [DecidableEq G]

/-! ## C85 -/

/-- The circuit value of an entry. -/
private def Ent.toShown (e : Entry p G) : Shown p G := ⟨e.tx.alloc p, (e.index : ZMod p), e.txPath, e.signerPath⟩

private theorem zip_map_fst {α β γ : Type} (f : α → γ) (as : List α) (bs : List β) :
    (as.map f).zip bs = (as.zip bs).map fun x => (f x.1, x.2) := by
  induction as generalizing bs with
  | nil => rfl
  | cons a as ih => cases bs with
    | nil => rfl
    | cons b bs => simp [ih]

private theorem shown_entries (a : UserAux p G) : a.alloc.shown = (entries a).map Ent.toShown := by
  unfold UserAuxVar.shown entries UserAux.alloc
  simp only
  rw [zip_map_fst, zip_map_fst, List.map_map, List.map_map]
  rfl

private theorem loopFacts_iff (P : Client.Params p) (cv : Curve p q G) (blk : BlockVar (ZMod p)) (k : G)
    (xs : List (Shown p G)) (s : Loop p) (hs : s.prevTxIndex.val ≤ (p - 1) / 2)
    (hx : ∀ x ∈ xs, x.index.val ≤ (p - 1) / 2) :
    LoopFacts P cv blk k s xs ↔
      (∀ x ∈ xs, x.txPath.length = 12 ∧ x.signerPath.length = 12 ∧
        (x.counts cv P.hs = true →
          checkMembershipIdx (txTreeCfgVar cv P.hs) x.txPath blk.txRoot x.tx x.index ∧
          checkMembership (signerTreeCfgVar cv P.hs) x.signerPath blk.signerRoot x.tx.getSigner)) ∧
      (s.prevTxIndex.val :: (xs.filter fun x => x.counts cv P.hs).map (·.index.val)).IsChain (· < ·) := by
  induction xs generalizing s with
  | nil => simp [LoopFacts]
  | cons x xs ih =>
    have hx0 := hx x (by simp)
    have hhalf : (s.after cv P.hs k x).prevTxIndex.val ≤ (p - 1) / 2 := by
      unfold Loop.after; simp only; split <;> assumption
    rw [LoopFacts, ih _ hhalf (fun y hy => hx y (by simp [hy]))]
    cases hc : x.counts cv P.hs with
    | false =>
      have e : (s.after cv P.hs k x).prevTxIndex = s.prevTxIndex := by simp [Loop.after, hc]
      rw [e, List.filter_cons_of_neg (by simp [hc])]
      constructor
      · rintro ⟨f, h1, h2⟩
        refine ⟨?_, h2⟩
        intro y hy
        rcases List.mem_cons.1 hy with rfl | hy
        · exact ⟨f.txPath, f.signerPath, fun h => by rw [hc] at h; cases h⟩
        · exact h1 y hy
      · rintro ⟨h1, h2⟩
        obtain ⟨a1, a2, -⟩ := h1 x (by simp)
        refine ⟨⟨hs, hx0, a1, a2, ?_, ?_, ?_⟩, fun y hy => h1 y (by simp [hy]), h2⟩ <;>
        · intro h; rw [hc] at h; cases h
    | true =>
      have e : (s.after cv P.hs k x).prevTxIndex = x.index := by simp [Loop.after, hc]
      rw [e, List.filter_cons_of_pos (by simp [hc]), List.map_cons, List.isChain_cons_cons]
      constructor
      · rintro ⟨f, h1, h2⟩
        refine ⟨?_, f.lower hc, h2⟩
        intro y hy
        rcases List.mem_cons.1 hy with rfl | hy
        · exact ⟨f.txPath, f.signerPath, fun h => ⟨f.included h, f.signer h⟩⟩
        · exact h1 y hy
      · rintro ⟨h1, h2, h3⟩
        obtain ⟨a1, a2, a3⟩ := h1 x (by simp)
        exact ⟨⟨hs, hx0, a1, a2, fun _ => h2, fun h => (a3 h).1, fun h => (a3 h).2⟩,
          fun y hy => h1 y (by simp [hy]), h3⟩

/-- **C85**: on native inputs with in-range indices, a step of the client circuit is satisfiable exactly
when the native checks `Acceptable` all hold. -/
theorem C85_accepts_iff (h : FieldOk p) (P : Client.Params p) (cv : Curve p q G) (n : Nat) (z : UState p)
    (a : UserAux p G) (hidx : ∀ x ∈ a.transactions, x.2 < CAP) (hheight : a.block.height < U64)
    (hz : z.prevTxIndex.val ≤ (p - 1) / 2) :
    (∃ z', updateBalance P cv n z a.alloc z') ↔ Acceptable cv P.hs n z a := by
  have hp : 2 ^ 67 ≤ p := h.large
  have hU : U64 = 2 ^ 64 := by norm_num [U64]
  have hNZ : NeZero p := ⟨by omega⟩
  have hmem : ∀ e ∈ entries a, e.index < 4096 := by
    intro e he
    unfold entries at he
    obtain ⟨x, hx, rfl⟩ := List.mem_map.1 he
    exact hidx _ ((List.of_mem_zip (List.of_mem_zip hx).1).1)
  have hval : ∀ e ∈ entries a, (e.index : ZMod p).val = e.index := by
    intro e he
    have := hmem e he
    rw [ZMod.val_natCast, Nat.mod_eq_of_lt (by omega)]
  have hcnt : ∀ e : Entry p G, (Ent.toShown e).counts cv P.hs = e.isReal cv P.hs := by
    intro e
    unfold Shown.counts Entry.isReal Ent.toShown
    have e1 := (C18_gadgets_agree cv P.hs.crh).2.2.2.1 e.tx
    have e2 := dummyHash_eq cv P
    unfold txVarCRH at e1
    unfold dummyHash at e2
    simp only
    rw [decide_eq_decide, e1, ← e2]
  have hbh : (a.block.height : ZMod p).val = a.block.height := by
    rw [ZMod.val_natCast, Nat.mod_eq_of_lt (by omega)]
  have hblk : a.alloc.hash P.hs = blockCRH P.hs.crh a.block :=
    (C18_gadgets_agree cv P.hs.crh).2.2.2.2 a.block
  have hpk : P.hs.crh (pkEncVar cv a.alloc.pk) = pkCRH cv P.hs.crh a.pk :=
    (C18_gadgets_agree cv P.hs.crh).2.1 a.pk
  have hstart : (loopStart P.hs z a.alloc).prevTxIndex.val = continuesFrom P.hs z a.block := by
    unfold loopStart startIndex continuesFrom
    simp only
    rw [hblk]
    split <;> simp
  have hsh : ∀ x ∈ a.alloc.shown, x.index.val ≤ (p - 1) / 2 := by
    rw [shown_entries]
    intro x hx
    obtain ⟨e, he, rfl⟩ := List.mem_map.1 hx
    have := hmem e he
    show (e.index : ZMod p).val ≤ _
    rw [hval e he]; omega
  have hchain : ((loopStart P.hs z a.alloc).prevTxIndex.val ::
      (a.alloc.shown.filter fun x => x.counts cv P.hs).map (·.index.val)) =
      continuesFrom P.hs z a.block :: ((entries a).filter fun e => e.isReal cv P.hs).map (·.index) := by
    rw [hstart, shown_entries, List.filter_map, List.map_map]
    congr 1
    have : ((fun x : Shown p G => x.counts cv P.hs) ∘ Ent.toShown) = fun e => e.isReal cv P.hs := by
      funext e; exact hcnt e
    rw [this]
    apply List.map_congr_left
    intro e he
    exact hval e (List.mem_of_mem_filter he)
  have hinc : ∀ e ∈ entries a,
      (checkMembershipIdx (txTreeCfgVar cv P.hs) e.txPath a.block.txRoot (e.tx.alloc p) (e.index : ZMod p) ↔
      (verifyWithIndex .debug (txTreeCfg cv P.hs) e.txPath a.block.txRoot e.tx e.index : Outcome Unit Bool)
        = .ok true) := by
    intro e he
    have := C12_indexed_gadget_iff_native _ _ _ (C18_tree_configs cv P.hs).2.1 (by show 2 ≤ 13; omega)
      (by show 13 ≤ 63; omega) (show 12 ≤ _ from h.bits) e.txPath a.block.txRoot e.tx (e.index : ZMod p)
      (by rw [hval e he]; exact hmem e he) .debug
    rw [hval e he] at this
    exact this
  have hsig : ∀ e ∈ entries a,
      (checkMembership (signerTreeCfgVar cv P.hs) e.signerPath a.block.signerRoot (e.tx.alloc p).getSigner ↔
      verify (signerTreeCfg cv P.hs) e.signerPath a.block.signerRoot e.tx.getSigner = true) := by
    intro e _
    rw [alloc_getSigner]
    exact C16_membership_gadget_iff_native _ _ _ (C18_tree_configs cv P.hs).2.2 _ _ _
  have hloop := loopFacts_iff P cv a.alloc.block a.alloc.pk a.alloc.shown (loopStart P.hs z a.alloc)
    (startIndex_half hz) hsh
  rw [hchain, List.isChain_iff_pairwise] at hloop
  constructor
  · rintro ⟨z', hs⟩
    obtain ⟨f, -⟩ := (step_iff h P cv n z _ z').1 hs
    obtain ⟨g1, g2⟩ := hloop.1 f.loop
    have g1' : ∀ e ∈ entries a, _ := fun e he => g1 (Ent.toShown e) (by
      rw [shown_entries]; exact List.mem_map_of_mem he)
    have ht := f.transactions
    simp only [UserAux.alloc, List.length_map] at ht
    refine ⟨ht, f.txProofs, f.signerProofs, by rw [← hpk]; exact f.key, ?_, ?_, ?_, ?_, g2⟩
    · have := f.height
      rwa [show a.alloc.block.height = (a.block.height : ZMod p) from rfl, hbh] at this
    · intro e he; exact ⟨(g1' e he).1, (g1' e he).2.1⟩
    · intro e he hr
      exact (hinc e he).1 ((g1' e he).2.2 (by rw [hcnt]; exact hr)).1
    · intro e he hr
      exact (hsig e he).1 ((g1' e he).2.2 (by rw [hcnt]; exact hr)).2
  · intro f
    refine ⟨_, (step_iff h P cv n z _ _).2 ⟨⟨f.txProofs, ?_, f.signerProofs, by rw [hpk]; exact f.key, ?_, ?_,
      hloop.2 ⟨?_, f.order⟩⟩, rfl⟩⟩
    · simp only [UserAux.alloc, List.length_map]; exact f.txs
    · rw [show a.alloc.block.height = (a.block.height : ZMod p) from rfl, hbh]; exact f.height
    · rw [show a.alloc.block.height = (a.block.height : ZMod p) from rfl, hbh]; omega
    · rw [shown_entries]
      intro x hx
      obtain ⟨e, he, rfl⟩ := List.mem_map.1 hx
      refine ⟨(f.shape e he).1, (f.shape e he).2, ?_⟩
      intro hr
      rw [hcnt] at hr
      exact ⟨(hinc e he).2 (f.included e he hr), (hsig e he).2 (f.signed e he hr)⟩

/-- The change payment of `C84_change_credited_too_much` is an accepted step, so it is `Acceptable`. -/
example (h : FieldOk p) (cv : Curve p q G) (k r : G) (hr : r ≠ k) :
    ∃ (a : UserAux p G) (z : UState p), z.balance = 8 ∧ shownTxs [a] = [changeTx k r] ∧ a.pk = k ∧
      ∃ z', updateBalance (demoParams p) cv 1 z a.alloc z' := by
  obtain ⟨a, z, z', u', h1, h2, h3, -, h5, -⟩ := C84_change_credited_too_much h cv k r hr
  obtain ⟨z1, h6, -⟩ := h1
  exact ⟨a, z, h3, h5, h2, z1, h6⟩

/-! ## C86 -/

/-- **C86** (client): the state after any number of steps is determined by the state before and the external
inputs; no choice of internal witnesses can change it. -/
theorem C86_client_deterministic (h : FieldOk p) (P : Client.Params p) (cv : Curve p q G) (n : Nat)
    (z z1 z2 : UState p) (as : List (UserAuxVar p G)) (h1 : Client.runSteps P cv n z as z1)
    (h2 : Client.runSteps P cv n z as z2) : z1 = z2 := by
  induction as generalizing z with
  | nil => exact h1.trans h2.symm
  | cons a as ih =>
    obtain ⟨y1, s1, r1⟩ := h1
    obtain ⟨y2, s2, r2⟩ := h2
    have e1 := ((step_iff h P cv n z a y1).1 s1).2
    have e2 := ((step_iff h P cv n z a y2).1 s2).2
    rw [e1] at r1
    rw [e2] at r2
    exact ih _ r1 r2

private theorem updChain_det {L D : Type} (h2 : D → D → D) (lh : L → D) (N : Nat) (us : List (Upd L D))
    (r r1 r2 : D) (a : UpdChain h2 lh N us r r1) (b : UpdChain h2 lh N us r r2) : r1 = r2 := by
  induction us generalizing r with
  | nil => exact Eq.trans a (Eq.symm b)
  | cons u us ih => exact ih _ a.2.2 b.2.2

/-- **C86** (aggregator, one transaction). -/
theorem C86_aggregator_step_deterministic (h : AggC.Sizes p q) (P : AggC.Params p G) (cv : Curve p q G)
    (z z1 z2 : AggC.CState p) (i : AggC.CInputs p G) (h1 : AggC.stepOne P cv z i z1)
    (h2 : AggC.stepOne P cv z i z2) : z1 = z2 := by
  rw [AggC.stepOne_iff h] at h1 h2
  obtain ⟨a1, a2, a3, a4, a5, a6, a7, a8⟩ := z1
  obtain ⟨b1, b2, b3, b4, b5, b6, b7, b8⟩ := z2
  have e1 := h1.step.trans h2.step.symm
  have e2 := updChain_det _ _ _ _ _ _ _ h1.utxo h2.utxo
  have e3 := updChain_det _ _ _ _ _ _ _ h1.tx h2.tx
  have e4 := h1.final.trans h2.final.symm
  have e5 := updChain_det _ _ _ _ _ _ _ h1.signer h2.signer
  have e6 := h1.signerAcc.trans h2.signerAcc.symm
  have e7 : a7 = b7 ∧ a8 = b8 := by
    rcases h1.books with ⟨t, x, y⟩ | ⟨t, -, -, x, y⟩ <;>
    rcases h2.books with ⟨t', x', y'⟩ | ⟨t', -, -, x', y'⟩
    · exact ⟨x.trans x'.symm, y.trans y'.symm⟩
    · rw [t] at t'; cases t'
    · rw [t] at t'; cases t'
    · exact ⟨x.trans x'.symm, y.trans y'.symm⟩
  simp only at e1 e2 e3 e4 e5 e6
  obtain ⟨e7, e8⟩ := e7
  subst e1 e2 e3 e4 e5 e6 e7 e8
  rfl

/-- **C86** (aggregator, any number of folded steps with any batches). -/
theorem C86_aggregator_deterministic (h : AggC.Sizes p q) (P : AggC.Params p G) (cv : Curve p q G)
    (z z1 z2 : AggC.CState p) (bs : List (List (AggC.CInputs p G))) (h1 : AggC.runSteps P cv z bs z1)
    (h2 : AggC.runSteps P cv z bs z2) : z1 = z2 := by
  have batch : ∀ (is : List (AggC.CInputs p G)) (z z1 z2 : AggC.CState p), AggC.stepBatch P cv z is z1 →
      AggC.stepBatch P cv z is z2 → z1 = z2 := by
    intro is
    induction is with
    | nil => intro z z1 z2 a b; exact Eq.trans a (Eq.symm b)
    | cons i is ih =>
      intro z z1 z2 a b
      obtain ⟨y1, s1, r1⟩ := a
      obtain ⟨y2, s2, r2⟩ := b
      rw [C86_aggregator_step_deterministic h P cv z y1 y2 i s1 s2] at r1
      exact ih _ _ _ r1 r2
  induction bs generalizing z with
  | nil => exact Eq.trans h1 (Eq.symm h2)
  | cons b bs ih =>
    obtain ⟨y1, s1, r1⟩ := h1
    obtain ⟨y2, s2, r2⟩ := h2
    rw [batch b z y1 y2 s1 s2] at r1
    exact ih _ r1 r2

end PF.Props
