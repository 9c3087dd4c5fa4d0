import Verif.Spec.ClientClaims
import Verif.Props.ClientChain

/-!
# What a client can claim about a list of published blocks (C111)
-/
set_option linter.unusedSectionVars false

namespace PF.Props
open PF PF.Spec PF.AggC PF.Contract PF.Client
variable {p q : Nat} {G : Type} [AddCommGroup G] [Module (ZMod q) G] [DecidableEq G]

theorem accOf_chain (P : Client.Params p) (a : ZMod p) (bs : List (Published p G)) :
    accOf P a bs = chain (fun x : ZMod p × ZMod p => P.acc x.1 x.2) Prod.mk a (bs.map (·.hash P.hs)) := rfl

/-- Positions counted in a step. -/
def stepPositions (cv : Curve p q G) (hs : Hashes p) (a : UserAuxVar p G) : List Nat :=
  (countedIn cv hs a.shown).map (·.position)

theorem counted_sums (cv : Curve p q G) (hs : Hashes p) (k : G) (xs : List (Shown p G))
    (hpad : ∀ x ∈ xs, x.counts cv hs = false → x.tx = Tx.default) :
    (xs.map fun x => delta k x.tx).sum = ((countedIn cv hs xs).map fun x => delta k x.tx).sum ∧
    (k ≠ 0 → signedBy k (xs.map (·.tx)) = signedBy k ((countedIn cv hs xs).map (·.tx))) := by
  induction xs with
  | nil => simp [countedIn]
  | cons x xs ih =>
    obtain ⟨i1, i2⟩ := ih fun y hy => hpad y (List.mem_cons_of_mem _ hy)
    rw [countedIn_cons]
    by_cases hc : x.counts cv hs = true
    · rw [if_pos hc]
      refine ⟨by simp [i1], fun hk => ?_⟩
      have := i2 hk
      simp only [signedBy, List.map_cons, List.countP_cons] at this ⊢
      rw [this]
    · rw [if_neg hc]
      have hx := hpad x (by simp) (by simpa using hc)
      refine ⟨by simp [i1, hx, default_delta], fun hk => ?_⟩
      have := i2 hk
      simp only [signedBy, List.map_cons, List.countP_cons] at this ⊢
      rw [this, hx, default_getSigner]
      simp [hk]

/-- What one step of the run counts, read off the published block. -/
theorem step_claim (h : FieldOk p) (P : Client.Params p) (cv : Curve p q G) (n : Nat) (z : UState p)
    (a : UserAuxVar p G) (f : StepFacts P cv n z a) (b : Published p G) (hb : b.Lists cv P.hs)
    (he : a.block = b.block) :
    ((stepPositions cv P.hs a).length ≤ n ∧ (∀ j ∈ stepPositions cv P.hs a, b.Countable cv P.hs j) ∧
      (∀ x ∈ a.shown, x.counts cv P.hs = false → x.tx = Tx.default) ∧
      (countedIn cv P.hs a.shown).map (·.tx) = (stepPositions cv P.hs a).map b.txs) ∨
    ∃ x ∈ a.shown, Collides P.hs.crh (txEncVar cv x.tx) (txEncVar cv (Tx.default : Tx (ZMod p) G)) ∨
      Collides P.hs.crh (txEncVar cv x.tx) (txEncVar cv (b.txs x.position)) ∨
      PathCollision P.hs.h2 x.txPath
          (truePath (fun t => P.hs.crh (txEncVar cv t)) P.hs.h2 13 b.txs x.position) ∨
      ∃ j, j < CAP ∧ (Collides P.hs.crh (pkEncVar cv x.tx.getSigner) (pkEncVar cv (b.signers j)) ∨
          PathCollision P.hs.h2 x.signerPath
            (truePath (fun k => P.hs.crh (pkEncVar cv k)) P.hs.h2 13 b.signers j)) := by
  classical
  by_cases hbad : ∃ x ∈ a.shown, Collides P.hs.crh (txEncVar cv x.tx) (txEncVar cv (Tx.default : Tx (ZMod p) G)) ∨
      Collides P.hs.crh (txEncVar cv x.tx) (txEncVar cv (b.txs x.position)) ∨
      PathCollision P.hs.h2 x.txPath
          (truePath (fun t => P.hs.crh (txEncVar cv t)) P.hs.h2 13 b.txs x.position) ∨
      ∃ j, j < CAP ∧ (Collides P.hs.crh (pkEncVar cv x.tx.getSigner) (pkEncVar cv (b.signers j)) ∨
          PathCollision P.hs.h2 x.signerPath
            (truePath (fun k => P.hs.crh (pkEncVar cv k)) P.hs.h2 13 b.signers j))
  · exact Or.inr hbad
  left
  have hp : 1 < p := lt_of_lt_of_le (by norm_num) h.large
  have hstep := (step_iff h P cv n z a _).2 ⟨f, rfl⟩
  have hin : ∀ x ∈ a.shown, x.counts cv P.hs = true → x.tx = b.txs x.position := by
    intro x hx hc
    rcases (C66_inclusion h P cv n z _ a hstep).2.2 b.txs (by rw [he]; exact hb.1) x hx hc with e | e | e
    · exact e
    · exact absurd ⟨x, hx, .inr (.inl e)⟩ hbad
    · exact absurd ⟨x, hx, .inr (.inr (.inl e))⟩ hbad
  refine ⟨?_, ?_, ?_, ?_⟩
  · have h1 : (countedIn cv P.hs a.shown).length ≤ a.shown.length := List.length_filter_le _ _
    have h2 : a.shown.length = n := by
      simp [UserAuxVar.shown, f.txProofs, f.transactions, f.signerProofs]
    simpa [stepPositions, h2] using h1.trans_eq h2
  · intro j hj
    obtain ⟨x, hx, rfl⟩ := List.mem_map.1 hj
    obtain ⟨hx, hc⟩ := List.mem_filter.1 hx
    refine ⟨Nat.mod_lt _ (by decide), ?_, ?_⟩
    · rw [← hin x hx hc]; simpa [Shown.counts] using hc
    · obtain ⟨l, hl, e⟩ := C67_signer_somewhere h P cv n z _ a hstep b.signers (by rw [he]; exact hb.2) x hx hc
      rcases e with e | e
      · exact ⟨l, hl, by rw [← hin x hx hc]; exact e⟩
      · exact absurd ⟨x, hx, .inr (.inr (.inr ⟨l, hl, e⟩))⟩ hbad
  · intro x hx hc
    by_contra hne
    refine hbad ⟨x, hx, .inl ⟨fun e => hne (txEncVar_inj cv hp e), ?_⟩⟩
    simpa [Shown.counts] using hc
  · rw [stepPositions, List.map_map]
    apply List.map_congr_left
    intro x hx
    obtain ⟨hx, hc⟩ := List.mem_filter.1 hx
    exact hin x hx hc

theorem signedBy_append (k : G) (l l' : List (Tx (ZMod p) G)) :
    signedBy k (l ++ l') = signedBy k l + signedBy k l' := by simp [signedBy, List.countP_append]

/-- The steps match the blocks one by one, or something breaks. -/
theorem claims_match (h : FieldOk p) (P : Client.Params p) (cv : Curve p q G) (n : Nat) (k : G)
    (as : List (UserAuxVar p G)) : ∀ (z : UState p) (bs : List (Published p G)), RunFacts P cv n z as →
    (∀ b ∈ bs, b.Lists cv P.hs) → z.pkHash = P.hs.crh (pkEncVar cv k) →
    as.map (·.hash P.hs) = bs.map (·.hash P.hs) →
    (List.Forall₂ (fun a b => a.block = b.block ∧ a.pk = k) as bs ∧
      Selection cv P.hs n bs (as.map (stepPositions cv P.hs)) ∧ Rising z.prevBlockNumber bs ∧
      (stateAt P cv z as).balance = z.balance +
        ((selected bs (as.map (stepPositions cv P.hs))).map (delta k)).sum ∧
      (k ≠ 0 → (stateAt P cv z as).nonce = z.nonce +
        (signedBy k (selected bs (as.map (stepPositions cv P.hs))) : Nat))) ∨
    ∃ s ∈ as, Collides P.hs.crh (pkEncVar cv s.pk) (pkEncVar cv k) ∨
    (∃ b ∈ bs, Collides P.hs.crh (blockEncVar s.block) (blockEncVar b.block)) ∨
    ∃ x ∈ s.shown, Collides P.hs.crh (txEncVar cv x.tx) (txEncVar cv (Tx.default : Tx (ZMod p) G)) ∨
      ∃ b ∈ bs, Collides P.hs.crh (txEncVar cv x.tx) (txEncVar cv (b.txs x.position)) ∨
        PathCollision P.hs.h2 x.txPath
          (truePath (fun t => P.hs.crh (txEncVar cv t)) P.hs.h2 13 b.txs x.position) ∨
        ∃ j, j < CAP ∧ (Collides P.hs.crh (pkEncVar cv x.tx.getSigner) (pkEncVar cv (b.signers j)) ∨
          PathCollision P.hs.h2 x.signerPath
            (truePath (fun k => P.hs.crh (pkEncVar cv k)) P.hs.h2 13 b.signers j)) := by
  have hp : 1 < p := lt_of_lt_of_le (by norm_num) h.large
  induction as with
  | nil =>
    intro z bs _ _ _ he
    have : bs = [] := by simpa using he.symm
    subst this
    left
    refine ⟨.nil, .nil, ⟨by simp, by simp⟩, by simp [stateAt, selected], fun _ => by simp [stateAt, selected, signedBy]⟩
  | cons a as ih =>
    intro z bs hr hl hk he
    rcases bs with _ | ⟨b, bs⟩
    · simp at he
    simp only [List.map_cons, List.cons.injEq] at he
    obtain ⟨hab, he⟩ := he
    obtain ⟨f, hr⟩ := hr
    by_cases hblk : blockEncVar a.block = blockEncVar b.block
    swap
    · exact Or.inr ⟨a, by simp, .inr (.inl ⟨b, by simp, hblk, hab⟩)⟩
    have hblk' : a.block = b.block := by
      rcases ha : a.block with ⟨u, t, s, m⟩
      rcases hb : b.block with ⟨u', t', s', m'⟩
      rw [ha, hb] at hblk
      simp only [blockEncVar, List.cons.injEq] at hblk
      obtain ⟨rfl, rfl, rfl, rfl, _⟩ := hblk
      rfl
    by_cases hkey : pkEncVar cv a.pk = pkEncVar cv k
    swap
    · exact Or.inr ⟨a, by simp, .inl ⟨hkey, by rw [f.key, hk]⟩⟩
    have hkey' := pkEncVar_inj cv hp hkey
    rcases step_claim h P cv n z a f b (hl b (by simp)) hblk' with ⟨s1, s2, s3, s4⟩ | ⟨x, hx, e⟩
    swap
    · refine Or.inr ⟨a, by simp, .inr (.inr ⟨x, hx, ?_⟩)⟩
      rcases e with e | e
      · exact .inl e
      · exact .inr ⟨b, by simp, e⟩
    rcases ih (z.after P cv a) bs hr (fun c hc => hl c (by simp [hc])) hk he with
      ⟨i1, i2, i3, i4, i5⟩ | ⟨s, hs, e⟩
    swap
    · refine Or.inr ⟨s, by simp [hs], ?_⟩
      rcases e with e | ⟨c, hc, e⟩ | ⟨x, hx, e | ⟨c, hc, e⟩⟩
      · exact .inl e
      · exact .inr (.inl ⟨c, by simp [hc], e⟩)
      · exact .inr (.inr ⟨x, hx, .inl e⟩)
      · exact .inr (.inr ⟨x, hx, .inr ⟨c, by simp [hc], e⟩⟩)
    left
    have hsel : selected (b :: bs) ((a :: as).map (stepPositions cv P.hs)) =
        (stepPositions cv P.hs a).map b.txs ++ selected bs (as.map (stepPositions cv P.hs)) := by
      simp [selected]
    obtain ⟨c1, c2⟩ := counted_sums cv P.hs k a.shown s3
    refine ⟨.cons ⟨hblk', hkey'⟩ i1, .cons ⟨s1, s2⟩ i2, ⟨?_, ?_⟩, ?_, ?_⟩
    · have hh : z.prevBlockNumber.val ≤ b.block.height.val := by rw [← hblk']; exact f.height
      have hi := i3.1
      rw [show (z.after P cv a).prevBlockNumber = b.block.height by rw [← hblk']; rfl] at hi
      rw [List.map_cons, List.pairwise_cons]
      refine ⟨fun y hy => ?_, hi⟩
      rcases List.mem_cons.1 hy with rfl | hy
      · exact hh
      · exact hh.trans ((List.pairwise_cons.1 hi).1 y hy)
    · intro c hc
      rcases List.mem_cons.1 hc with rfl | hc
      · rw [← hblk']; exact f.heightHalf
      · exact i3.2 c hc
    · show (stateAt P cv (z.after P cv a) as).balance = _
      rw [i4, hsel]
      have : (z.after P cv a).balance = z.balance + (a.shown.map fun x => delta k x.tx).sum := by
        show (loopAt cv P.hs a.pk (loopStart P.hs z a) a.shown).balance = _
        rw [loopAt_balance, hkey']; rfl
      rw [this, c1, List.map_append, List.sum_append, ← s4, List.map_map]
      simp only [Function.comp_def]
      ring
    · intro hk0
      show (stateAt P cv (z.after P cv a) as).nonce = _
      rw [i5 hk0, hsel]
      have : (z.after P cv a).nonce = z.nonce + (signedBy k (a.shown.map (·.tx)) : Nat) := by
        show (loopAt cv P.hs a.pk (loopStart P.hs z a) a.shown).nonce = _
        rw [loopAt_nonce, hkey']; rfl
      rw [this, c2 hk0, s4, signedBy_append]
      push_cast
      ring

/-- **C111** (soundness): whatever steps a user took, if its accumulator stands for the published blocks `bs`,
it made one step per block, each under its own key, heights never decrease, and its balance changed by what the
transactions of a selection from those blocks pay to it minus what they take from it; its nonce by the number of
those it signed. Or a hash function is broken on explicit inputs. -/
theorem C111_claims (h : FieldOk p) (P : Client.Params p) (cv : Curve p q G) (n : Nat) (k : G)
    (z z' : UState p) (as : List (UserAuxVar p G)) (hrun : Client.runSteps P cv n z as z')
    (hk : z.pkHash = P.hs.crh (pkEncVar cv k)) (bs : List (Published p G))
    (hl : ∀ b ∈ bs, b.Lists cv P.hs) (hacc : z'.acc = accOf P z.acc bs) :
    (as.length = bs.length ∧ Rising z.prevBlockNumber bs ∧ ∃ sel, Selection cv P.hs n bs sel ∧
      z'.balance = z.balance + ((selected bs sel).map (delta k)).sum ∧
      (k ≠ 0 → z'.nonce = z.nonce + (signedBy k (selected bs sel) : Nat))) ∨
    ClaimBreak P cv k z.acc as bs := by
  obtain ⟨f, rfl⟩ := (run_iff h P cv n as z z').1 hrun
  rw [run_acc, accOf_chain] at hacc
  rcases chain_bind_any _ (fun x : ZMod p × ZMod p => P.acc x.1 x.2) Prod.mk (fun _ => True)
    (fun _ _ _ _ _ _ h => Prod.mk.inj h) (fun _ _ h => h) _ _ _ (by simp) (by simp) hacc with e | e
  · rcases claims_match h P cv n k as z bs f hl hk e with ⟨i1, i2, i3, i4, i5⟩ | e
    · exact Or.inl ⟨i1.length_eq, i3, _, i2, i4, i5⟩
    · exact Or.inr (.inr e)
  · exact Or.inr (.inl e)

/-! ## Completeness -/

theorem loopAt_prev (cv : Curve p q G) (hs : Hashes p) (k : G) (N : Nat) (xs : List (Shown p G)) (s : Loop p)
    (h0 : s.prevTxIndex.val ≤ N) (hx : ∀ x ∈ xs, x.counts cv hs = true → x.index.val ≤ N) :
    (loopAt cv hs k s xs).prevTxIndex.val ≤ N := by
  induction xs generalizing s with
  | nil => exact h0
  | cons x xs ih =>
    rw [loopAt_cons]
    refine ih _ ?_ fun y hy => hx y (List.mem_cons_of_mem _ hy)
    by_cases hc : x.counts cv hs = true
    · simpa [Loop.after, hc] using hx x (by simp) hc
    · simpa [Loop.after, hc] using h0

/-- The picks that count the positions of `l` in turn, under fresh aliases from `m` on. -/
def aliasPicks (txs : Nat → Tx (ZMod p) G) (pos : Nat → Nat) : Nat → List Nat → List (Pick p G)
  | _, [] => []
  | m, j :: l => ⟨txs j, j + CAP * m, pos j⟩ :: aliasPicks txs pos (m + 1) l

theorem aliasPicks_length (txs : Nat → Tx (ZMod p) G) (pos : Nat → Nat) (m : Nat) (l : List Nat) :
    (aliasPicks txs pos m l).length = l.length := by
  induction l generalizing m with
  | nil => rfl
  | cons j l ih => simp [aliasPicks, ih]

theorem aliasPicks_tx (txs : Nat → Tx (ZMod p) G) (pos : Nat → Nat) (m : Nat) (l : List Nat) :
    (aliasPicks txs pos m l).map (·.tx) = l.map txs := by
  induction l generalizing m with
  | nil => rfl
  | cons j l ih => simp [aliasPicks, ih]

theorem aliasPicks_mem (txs : Nat → Tx (ZMod p) G) (pos : Nat → Nat) (m : Nat) (l : List Nat) (x : Pick p G)
    (hx : x ∈ aliasPicks txs pos m l) :
    ∃ j ∈ l, ∃ t, m ≤ t ∧ t < m + l.length ∧ x = ⟨txs j, j + CAP * t, pos j⟩ := by
  induction l generalizing m with
  | nil => simp [aliasPicks] at hx
  | cons j l ih =>
    rcases List.mem_cons.1 hx with rfl | hx
    · exact ⟨j, by simp, m, le_refl _, by simp, rfl⟩
    · obtain ⟨i, hi, t, h1, h2, e⟩ := ih (m + 1) hx
      refine ⟨i, by simp [hi], t, by omega, ?_, e⟩
      simp only [List.length_cons]; omega

theorem aliasPicks_ordered (txs : Nat → Tx (ZMod p) G) (pos : Nat → Nat) (m : Nat) (l : List Nat)
    (hl : ∀ j ∈ l, j < CAP) : (aliasPicks txs pos m l).Pairwise fun x y => x.index < y.index := by
  induction l generalizing m with
  | nil => exact .nil
  | cons j l ih =>
    refine List.pairwise_cons.2 ⟨fun y hy => ?_, ih (m + 1) fun i hi => hl i (by simp [hi])⟩
    obtain ⟨i, hi, t, h1, h2, rfl⟩ := aliasPicks_mem _ _ _ _ _ hy
    have hj : j < 4096 := hl j (by simp)
    show j + 4096 * m < i + 4096 * t
    omega

theorem step_selects (h : FieldOk p) (P : Client.Params p) (cv : Curve p q G) (n : Nat) (k : G) (hk0 : k ≠ 0)
    (z : UState p) (b : Published p G) (hb : b.Lists cv P.hs) (hz : ReadyFor cv P.hs k b.block.height z)
    (hh : b.block.height.val + 1 ≤ (p - 1) / 2) (l : List Nat) (hn : l.length ≤ n)
    (hl : ∀ j ∈ l, b.Countable cv P.hs j) (N : Nat) (hzN : z.prevTxIndex.val ≤ CAP * N)
    (hN : CAP * (N + n + 1) ≤ (p - 1) / 2) :
    ∃ (a : UserAuxVar p G) (z' : UState p), a.block = b.block ∧ a.pk = k ∧ updateBalance P cv n z a z' ∧
      z'.balance = z.balance + ((l.map b.txs).map (delta k)).sum ∧
      z'.nonce = z.nonce + (signedBy k (l.map b.txs) : Nat) ∧ z'.pkHash = z.pkHash ∧
      z'.acc = P.acc z.acc (b.hash P.hs) ∧ z'.prevBlockNumber = b.block.height ∧
      z'.prevTxIndex.val ≤ CAP * (N + n + 1) := by
  classical
  have hp : 2 ^ 67 ≤ p := h.large
  choose! pos hpos using fun j (hj : j ∈ l) => (hl j hj).2.2
  let xs : List (Pick p G) := aliasPicks b.txs pos (N + 1) l ++ List.replicate (n - l.length) ⟨Tx.default, 0, 0⟩
  have hlen : xs.length = n := by simp [xs, aliasPicks_length]; omega
  have hxs : ∀ x ∈ xs, x.real cv P.hs → ∃ j ∈ l, ∃ t, N + 1 ≤ t ∧ t < N + 1 + l.length ∧
      x = ⟨b.txs j, j + CAP * t, pos j⟩ := by
    intro x hx hr
    rcases List.mem_append.1 hx with hx | hx
    · exact aliasPicks_mem _ _ _ _ _ hx
    · obtain ⟨-, rfl⟩ := List.mem_replicate.1 hx
      exact absurd rfl hr
  have hle : ∀ x ∈ xs, x.index ≤ CAP * (N + n + 1) := by
    intro x hx
    rcases List.mem_append.1 hx with hx | hx
    · obtain ⟨j, hj, t, h1, h2, rfl⟩ := aliasPicks_mem _ _ _ _ _ hx
      have hj : j < 4096 := (hl j hj).1
      show j + 4096 * t ≤ 4096 * (N + n + 1)
      omega
    · obtain ⟨-, rfl⟩ := List.mem_replicate.1 hx
      simp
  obtain ⟨z', s1, s2, s3, s4, s5, s6, -⟩ := picks_step h P cv b.block b.txs b.signers ⟨hb.1, hb.2, hh⟩ k z hz xs (by
    refine ⟨fun x hx => (hle x hx).trans hN, fun x hx hr => ?_, fun x hx hr => ?_, fun x hx hr => ?_, ?_⟩
    · obtain ⟨j, hj, t, h1, h2, rfl⟩ := hxs x hx hr
      show b.txs ((j + CAP * t) % CAP) = b.txs j
      rw [Nat.add_mul_mod_self_left, Nat.mod_eq_of_lt (hl j hj).1]
    · obtain ⟨j, hj, t, h1, h2, rfl⟩ := hxs x hx hr
      exact hpos j hj
    · obtain ⟨j, hj, t, h1, h2, rfl⟩ := hxs x hx hr
      have h3 : (if P.hs.crh (blockEncVar b.block) = z.prevBlockHash then z.prevTxIndex.val else 0) ≤
          CAP * N := by split <;> [exact hzN; exact Nat.zero_le _]
      refine lt_of_le_of_lt h3 ?_
      show 4096 * N < j + 4096 * t
      omega
    · refine List.pairwise_append.2 ⟨(aliasPicks_ordered b.txs pos (N + 1) l fun j hj => (hl j hj).1).imp
        fun hlt _ _ => hlt, ?_, ?_⟩
      · exact List.pairwise_replicate.2 (Or.inr fun hr => absurd rfl hr)
      · intro x _ y hy _ hr
        obtain ⟨-, rfl⟩ := List.mem_replicate.1 hy
        exact absurd rfl hr)
  rw [hlen] at s1
  have htx : xs.map (·.tx) = l.map b.txs ++ List.replicate (n - l.length) Tx.default := by
    simp [xs, aliasPicks_tx]
  obtain ⟨-, hz'⟩ := (step_iff h P cv n z _ z').1 s1
  refine ⟨_, z', rfl, rfl, s1, ?_, ?_, s4, ?_, s6, ?_⟩
  · rw [s2]
    have : xs.map (fun x => delta k x.tx) = (xs.map (·.tx)).map (delta k) := by simp
    rw [this, htx]
    simp [default_delta]
  · rw [s3, htx, signedBy_append]
    have : signedBy k (List.replicate (n - l.length) (Tx.default : Tx (ZMod p) G)) = 0 := by
      simp [signedBy, List.countP_replicate, default_getSigner, hk0]
    rw [this]; simp
  · rw [hz']; rfl
  · rw [hz']
    refine loopAt_prev cv P.hs k _ _ _ ?_ ?_
    · show (startIndex P.hs z _).val ≤ _
      unfold startIndex
      split
      · exact hzN.trans (Nat.mul_le_mul_left _ (by omega))
      · simp
    · intro x hx _
      rw [mkAux_shown] at hx
      obtain ⟨y, hy, rfl⟩ := List.mem_map.1 hx
      have := hle y hy
      show ((y.index : ZMod p)).val ≤ _
      rw [ZMod.val_natCast]
      exact (Nat.mod_le _ _).trans this

/-- **C111** (completeness): every selection can be claimed. Whatever at most `n` countable positions per block
are chosen, in whatever order and however often each, user `k` has an accepted run that ends with the accumulator
of the published blocks and with the balance and nonce of that choice. -/
theorem C111_every_selection (h : FieldOk p) (P : Client.Params p) (cv : Curve p q G) (n : Nat) (k : G)
    (hk0 : k ≠ 0) (z : UState p) (hk : z.pkHash = P.hs.crh (pkEncVar cv k)) (hz0 : z.prevTxIndex = 0)
    (bs : List (Published p G)) (hl : ∀ b ∈ bs, b.Lists cv P.hs) (hr : Rising z.prevBlockNumber bs)
    (hsize : CAP * (bs.length * (n + 1)) ≤ (p - 1) / 2)
    (sel : List (List Nat)) (hsel : Selection cv P.hs n bs sel) :
    ∃ (as : List (UserAuxVar p G)) (z' : UState p), Client.runSteps P cv n z as z' ∧ (∀ a ∈ as, a.pk = k) ∧
      z'.acc = accOf P z.acc bs ∧
      z'.balance = z.balance + ((selected bs sel).map (delta k)).sum ∧
      z'.nonce = z.nonce + (signedBy k (selected bs sel) : Nat) ∧ z'.pkHash = z.pkHash := by
  suffices H : ∀ (bs : List (Published p G)) (sel : List (List Nat)) (N : Nat) (z : UState p),
      z.pkHash = P.hs.crh (pkEncVar cv k) → z.prevTxIndex.val ≤ CAP * N →
      (∀ b ∈ bs, b.Lists cv P.hs) → Rising z.prevBlockNumber bs →
      CAP * (N + bs.length * (n + 1)) ≤ (p - 1) / 2 → Selection cv P.hs n bs sel →
      ∃ (as : List (UserAuxVar p G)) (z' : UState p), Client.runSteps P cv n z as z' ∧ (∀ a ∈ as, a.pk = k) ∧
        z'.acc = accOf P z.acc bs ∧
        z'.balance = z.balance + ((selected bs sel).map (delta k)).sum ∧
        z'.nonce = z.nonce + (signedBy k (selected bs sel) : Nat) ∧ z'.pkHash = z.pkHash by
    exact H bs sel 0 z hk (by simp [hz0]) hl hr (by simpa using hsize) hsel
  clear hz0 hk hl hr hsize hsel z sel bs
  intro bs
  induction bs with
  | nil =>
    intro sel N z hk _ _ _ _ hsel
    cases hsel
    exact ⟨[], z, rfl, by simp, rfl, by simp [selected], by simp [selected, signedBy], rfl⟩
  | cons b bs ih =>
    intro sel N z hk hzN hl hr hsize hsel
    rcases hsel with _ | ⟨⟨hln, hlc⟩, hsel⟩
    rename_i l sel
    have hlen : (b :: bs).length = bs.length + 1 := rfl
    have hN : CAP * (N + n + 1) ≤ (p - 1) / 2 := by
      refine le_trans (Nat.mul_le_mul_left _ ?_) hsize
      rw [hlen, Nat.add_mul, Nat.one_mul]; omega
    obtain ⟨hr1, hr2⟩ := hr
    rw [List.map_cons, List.pairwise_cons] at hr1
    have hz : ReadyFor cv P.hs k b.block.height z := by
      refine ⟨hk, hr1.1 _ (by simp), hzN.trans (le_trans (Nat.mul_le_mul_left _ (by omega)) hN)⟩
    obtain ⟨a, z1, a1, a2, a3, a4, a5, a6, a7, a8, a9⟩ := step_selects h P cv n k hk0 z b (hl b (by simp)) hz
      (hr2 b (by simp)) l hln hlc N hzN hN
    obtain ⟨as, z', b1, b2, b3, b4, b5, b6⟩ := ih sel (N + n + 1) z1 (by rw [a6, hk]) a9
      (fun c hc => hl c (by simp [hc])) ⟨by rw [a8]; exact hr1.2, fun c hc => hr2 c (by simp [hc])⟩
      (by
        refine le_trans (Nat.mul_le_mul_left _ ?_) hsize
        rw [hlen, Nat.add_mul, Nat.one_mul]; omega) hsel
    have hs : selected (b :: bs) (l :: sel) = l.map b.txs ++ selected bs sel := by simp [selected]
    refine ⟨a :: as, z', ⟨z1, a3, b1⟩, ?_, ?_, ?_, ?_, by rw [b6, a6]⟩
    · intro c hc
      rcases List.mem_cons.1 hc with rfl | hc
      · exact a2
      · exact b2 c hc
    · rw [b3, a7]; rfl
    · rw [b4, a4, hs, List.map_append, List.sum_append]; ring
    · rw [b5, a5, hs, signedBy_append]; push_cast; ring

/-! ## Consequences -/

/-- **C111** (indices that are positions): if moreover every transaction is counted under an index that is a
position of the tree, which the circuit does not enforce, no position of a block is selected twice, and the first
one never. -/
theorem C111_own_positions (h : FieldOk p) (P : Client.Params p) (cv : Curve p q G) (n : Nat) (k : G)
    (z z' : UState p) (as : List (UserAuxVar p G)) (hrun : Client.runSteps P cv n z as z')
    (hk : z.pkHash = P.hs.crh (pkEncVar cv k)) (bs : List (Published p G))
    (hl : ∀ b ∈ bs, b.Lists cv P.hs) (hacc : z'.acc = accOf P z.acc bs)
    (hidx : ∀ a ∈ as, ∀ x ∈ a.shown, x.counts cv P.hs = true → x.index.val < CAP) :
    (∃ sel, Selection cv P.hs n bs sel ∧ (∀ l ∈ sel, l.Pairwise (· < ·) ∧ 0 ∉ l) ∧
      z'.balance = z.balance + ((selected bs sel).map (delta k)).sum ∧
      (k ≠ 0 → z'.nonce = z.nonce + (signedBy k (selected bs sel) : Nat))) ∨
    ClaimBreak P cv k z.acc as bs := by
  obtain ⟨f, rfl⟩ := (run_iff h P cv n as z z').1 hrun
  rw [run_acc, accOf_chain] at hacc
  rcases chain_bind_any _ (fun x : ZMod p × ZMod p => P.acc x.1 x.2) Prod.mk (fun _ => True)
    (fun _ _ _ _ _ _ h => Prod.mk.inj h) (fun _ _ h => h) _ _ _ (by simp) (by simp) hacc with e | e
  · rcases claims_match h P cv n k as z bs f hl hk e with ⟨i1, i2, i3, i4, i5⟩ | e
    · refine Or.inl ⟨_, i2, ?_, i4, i5⟩
      intro l hl
      obtain ⟨a, ha, rfl⟩ := List.mem_map.1 hl
      obtain ⟨z1, f1⟩ := run_mem as z f a ha
      obtain ⟨-, g2, g3⟩ := loop_increasing _ _ f1.loop
      have hpos : ∀ x ∈ countedIn cv P.hs a.shown, x.position = x.index.val := fun x hx =>
        Nat.mod_eq_of_lt (hidx a ha x (List.mem_filter.1 hx).1 (List.mem_filter.1 hx).2)
      have hmap : stepPositions cv P.hs a = (countedIn cv P.hs a.shown).map fun x => x.index.val :=
        List.map_congr_left hpos
      rw [hmap]
      refine ⟨List.pairwise_map.2 g3, fun h0 => ?_⟩
      obtain ⟨x, hx, e⟩ := List.mem_map.1 h0
      have := (g2 x hx).1
      omega
    · exact Or.inr (.inr e)
  · exact Or.inr (.inl e)

/-- **C111** (finding, omission): for every list of published blocks a user has an accepted run that ends with
their accumulator and with the balance it started with, whatever it spent in them. -/
theorem C111_spending_omitted (h : FieldOk p) (P : Client.Params p) (cv : Curve p q G) (n : Nat) (k : G)
    (hk0 : k ≠ 0) (z : UState p) (hk : z.pkHash = P.hs.crh (pkEncVar cv k)) (hz0 : z.prevTxIndex = 0)
    (bs : List (Published p G)) (hl : ∀ b ∈ bs, b.Lists cv P.hs) (hr : Rising z.prevBlockNumber bs)
    (hsize : CAP * (bs.length * (n + 1)) ≤ (p - 1) / 2) :
    ∃ (as : List (UserAuxVar p G)) (z' : UState p), Client.runSteps P cv n z as z' ∧ (∀ a ∈ as, a.pk = k) ∧
      z'.acc = accOf P z.acc bs ∧ z'.balance = z.balance ∧ z'.nonce = z.nonce := by
  have hsel : Selection cv P.hs n bs (bs.map fun _ => []) := by
    clear hl hr hsize
    induction bs with
    | nil => exact .nil
    | cons b bs ih => exact .cons ⟨Nat.zero_le _, by simp⟩ ih
  have he : selected bs (bs.map fun _ => []) = [] := by
    clear hl hr hsize hsel
    induction bs with
    | nil => rfl
    | cons b bs ih => simpa [selected] using ih
  obtain ⟨as, z', h1, h2, h3, h4, h5, -⟩ := C111_every_selection h P cv n k hk0 z hk hz0 bs hl hr hsize _ hsel
  rw [he] at h4 h5
  exact ⟨as, z', h1, h2, h3, by simpa using h4, by simpa [signedBy] using h5⟩

/-- **C111** (finding, repetition): a single transaction paying `k` in the last of the published blocks can be
counted `m` times for every `m` up to the number of transactions of a step, and the accumulator shows nothing. -/
theorem C111_income_multiplied (h : FieldOk p) (P : Client.Params p) (cv : Curve p q G) (n : Nat) (k : G)
    (hk0 : k ≠ 0) (z : UState p) (hk : z.pkHash = P.hs.crh (pkEncVar cv k)) (hz0 : z.prevTxIndex = 0)
    (bs : List (Published p G)) (b : Published p G) (hl : ∀ c ∈ bs ++ [b], c.Lists cv P.hs)
    (hr : Rising z.prevBlockNumber (bs ++ [b]))
    (hsize : CAP * ((bs ++ [b]).length * (n + 1)) ≤ (p - 1) / 2)
    (j : Nat) (hj : b.Countable cv P.hs j) (m : Nat) (hm : m ≤ n) :
    ∃ (as : List (UserAuxVar p G)) (z' : UState p), Client.runSteps P cv n z as z' ∧ (∀ a ∈ as, a.pk = k) ∧
      z'.acc = accOf P z.acc (bs ++ [b]) ∧ z'.balance = z.balance + (m : ZMod p) * delta k (b.txs j) := by
  have hsel : Selection cv P.hs n (bs ++ [b]) ((bs.map fun _ => []) ++ [List.replicate m j]) := by
    clear hl hr hsize
    induction bs with
    | nil => exact .cons ⟨by simpa using hm, fun i hi => by rw [(List.mem_replicate.1 hi).2]; exact hj⟩ .nil
    | cons b bs ih => exact .cons ⟨Nat.zero_le _, by simp⟩ ih
  have he : selected (bs ++ [b]) ((bs.map fun _ => []) ++ [List.replicate m j]) = List.replicate m (b.txs j) := by
    clear hl hr hsize hsel
    induction bs with
    | nil => simp [selected]
    | cons b bs ih => simpa [selected] using ih
  obtain ⟨as, z', h1, h2, h3, h4, -⟩ := C111_every_selection h P cv n k hk0 z hk hz0 _ hl hr hsize _ hsel
  rw [he] at h4
  exact ⟨as, z', h1, h2, h3, by simpa using h4⟩

/-! ## Chains of accepted blocks -/

/-- **C111** (chains): if the accumulator stands for the blocks of a list of accepted epochs, made by any
provers, the balance is that of a selection of transactions the provers ran, each by its position, whose signer
is the sender of an authorised transaction of its epoch or a key the signer tree held before; or a hash
collision is exhibited. -/
theorem C111_chain (hS : Sizes p q) (h : FieldOk p) (Q : AggC.Params p G) (P : Client.Params p)
    (hh : Q.hs = P.hs) (cv : Curve p q G) (n : Nat) (k : G) (z z' : UState p) (as : List (UserAuxVar p G))
    (hrun : Client.runSteps P cv n z as z') (hk : z.pkHash = P.hs.crh (pkEncVar cv k))
    (es : List (Epoch p G × (Nat → G))) (hes : ∀ x ∈ es, Published.FromProver Q cv x)
    (hacc : z'.acc = accOf P z.acc (es.map fun x => published Q cv x.1 x.2)) :
    (∃ sel : List (List Nat), List.Forall₂ (fun x l => l.length ≤ n ∧ ∀ j ∈ l, ∃ i, x.1.txs[j]? = some i ∧
        ((∃ i' ∈ x.1.txs, i'.authorised Q cv x.1.final = true ∧ i'.senderPk = i.tx.getSigner) ∨
          ∃ l, l < CAP ∧ x.2 l = i.tx.getSigner)) es sel ∧
      z'.balance = z.balance + ((selected (es.map fun x => published Q cv x.1 x.2) sel).map (delta k)).sum) ∨
    ClaimBreak P cv k z.acc as (es.map fun x => published Q cv x.1 x.2) ∨
    ∃ x ∈ es, Collision Q.hs (txEncVar cv) 13 (fun _ => Tx.default) (txUpds 0 x.1.txs) ∨
      Collision Q.hs (pkEncVar cv) 13 x.2 (signerUpds Q cv x.1.final 0 x.1.txs) := by
  classical
  by_cases hcol : ∃ x ∈ es, Collision Q.hs (txEncVar cv) 13 (fun _ => Tx.default) (txUpds 0 x.1.txs) ∨
      Collision Q.hs (pkEncVar cv) 13 x.2 (signerUpds Q cv x.1.final 0 x.1.txs)
  · exact Or.inr (.inr hcol)
  have hlist : ∀ b ∈ es.map fun x => published Q cv x.1 x.2, b.Lists cv P.hs := by
    intro b hb
    obtain ⟨x, hx, rfl⟩ := List.mem_map.1 hb
    obtain ⟨⟨u, ha⟩, x2, x3, x4⟩ := hes x hx
    rcases C108_block_lists hS Q cv u x.1 ha x2 x3 x.2 x4 with r | c
    · rw [hh] at r; exact r
    · exact absurd ⟨x, hx, c⟩ hcol
  rcases C111_claims h P cv n k z z' as hrun hk _ hlist hacc with ⟨-, -, sel, s1, s2, -⟩ | e
  · refine Or.inl ⟨sel, ?_, s2⟩
    unfold Selection at s1
    rw [List.forall₂_map_left_iff] at s1
    refine s1.imp fun x l hx => ⟨hx.1, fun j hj => ?_⟩
    obtain ⟨c1, c2, l', c3, c4⟩ := hx.2 j hj
    rcases hi : x.1.txs[j]? with _ | i
    · exact absurd (by simp [published, Epoch.txAt, hi]) c2
    have htx : (published Q cv x.1 x.2).txs j = i.tx := by simp [published, Epoch.txAt, hi]
    refine ⟨i, rfl, ?_⟩
    rw [htx] at c4
    rcases signerAt_cases Q cv x.1 x.2 l' with ⟨i', m1, m2, m3⟩ | m
    · exact .inl ⟨i', m1, m2, by rw [← c4]; exact m3.symm⟩
    · exact .inr ⟨l', c3, by rw [← c4]; exact m.symm⟩
  · exact Or.inr (.inl e)

/-! ## Blocks of the repository's aggregator -/

/-- Block `blk` produced in state `s` of an aggregator whose signer tree holds `sc`, with what it lists. -/
def producedAs (p : Nat) {q : Nat} {G : Type} [AddCommGroup G] [Module (ZMod q) G] [DecidableEq G]
    (s : Agg.State p q G) (sc : Nat → G) (blk : Block (ZMod p)) : Published p G := ⟨blk.alloc, txVars p s, sc⟩

theorem produced_height {b : Build} {cv : Curve p q G} {hs : Hashes p} {s : Agg.State p q G}
    {sc : Nat → G} (hs' : Agg.SignerLeaves b cv hs s sc) {ct : Contract.State G} {blk : Block (ZMod p)}
    (hb : Agg.produceBlock ct s = .ok blk) : blk.height = 0 := by
  obtain ⟨hR, -, c, hi⟩ := Agg.signerLeaves_inv hs'
  have h48 := C48_produce_block b cv hs s hR ct
  by_cases hreg : ∀ pk, (some pk ∈ s.signers ∨ pk ∈ s.deposits.map (·.1) ∨ pk ∈ s.withdrawals.map (·.1)) →
      Registered ct pk
  · obtain ⟨ur, sr, h1, h2, h3⟩ := h48.1 hreg
    rw [hb] at h3
    cases h3
    exact Agg.reach_height hR
  · rw [h48.2 hreg] at hb
    cases hb

/-- **C111** (produced blocks): the blocks an aggregator produces, in any states of its history, list what its
trees hold, and are of one height, so that what C111 says applies to every list of them. -/
theorem C111_produced_blocks (h : FieldOk p) (b : Build) (cv : Curve p q G) (hs : Hashes p)
    (bs : List (Published p G))
    (hbs : ∀ x ∈ bs, ∃ s sc ct blk, Agg.SignerLeaves b cv hs s sc ∧ Agg.produceBlock ct s = .ok blk ∧
      x = producedAs p s sc blk) :
    (∀ x ∈ bs, x.Lists cv hs) ∧ Rising 0 bs ∧ ∀ x ∈ bs, x.block.height = 0 := by
  have h0 : ∀ x ∈ bs, x.block.height = 0 := by
    intro x hx
    obtain ⟨s, sc, ct, blk, h1, h2, rfl⟩ := hbs x hx
    show ((blk.height : Nat) : ZMod p) = 0
    rw [produced_height h1 h2, Nat.cast_zero]
  refine ⟨?_, ⟨?_, ?_⟩, h0⟩
  · intro x hx
    obtain ⟨s, sc, ct, blk, h1, h2, rfl⟩ := hbs x hx
    have := produced_commits h h1 h2
    exact ⟨this.txs, this.signers⟩
  · have hp : 2 ^ 67 ≤ p := h.large
    have : bs.map (fun x => x.block.height.val) = List.replicate bs.length 0 := by
      rw [List.eq_replicate_iff]
      refine ⟨by simp, fun v hv => ?_⟩
      obtain ⟨x, hx, rfl⟩ := List.mem_map.1 hv
      rw [h0 x hx, ZMod.val_zero]
    rw [this, ZMod.val_zero, ← List.replicate_succ]
    exact List.pairwise_replicate.2 (Or.inr (le_refl _))
  · intro x hx
    obtain ⟨s, sc, ct, blk, h1, h2, rfl⟩ := hbs x hx
    exact (produced_commits h h1 h2).height

/-- C71, between blocks of one aggregator: as all blocks of the repository's aggregator have height zero
(`C47_height_always_zero`), any two different ones of them can be processed in the order first, second, first, and
a transaction of the first is counted twice under its own index. -/
theorem C71_own_blocks (h : FieldOk p) (b : Build) (P : Client.Params p) (cv : Curve p q G)
    (s s' : Agg.State p q G) (sc sc' : Nat → G) (hs : Agg.SignerLeaves b cv P.hs s sc)
    (hs' : Agg.SignerLeaves b cv P.hs s' sc') (ct ct' : Contract.State G) (blk blk' : Block (ZMod p))
    (hb : Agg.produceBlock ct s = .ok blk) (hb' : Agg.produceBlock ct' s' = .ok blk')
    (hne : P.hs.crh (blockEncVar blk.alloc) ≠ P.hs.crh (blockEncVar blk'.alloc))
    (k : G) (hk : k ≠ 0) (hnew : P.hs.crh (blockEncVar blk.alloc) ≠ 0)
    (i j : Nat) (t : Tx Nat G) (h0 : 0 < i) (ht : s.transactions[i]? = some t) (hj : j < CAP)
    (hreal : NotPadding cv P.hs (t.alloc p)) (hsig : sc j = t.getSigner) :
    ∃ (a a' : UserAuxVar p G) (z' : UState p), a.block = blk.alloc ∧ a'.block = blk'.alloc ∧
      Client.runSteps P cv 1 (freshUser cv P.hs k) [a, a', a] z' ∧ a.transactions = [(t.alloc p, (i : ZMod p))] ∧
      (∀ x ∈ a.shown, x.counts cv P.hs = true) ∧ z'.balance = 2 * delta k (t.alloc p) := by
  obtain ⟨-, -, c, hiv⟩ := Agg.signerLeaves_inv hs
  have hic : i < CAP := lt_of_lt_of_le (List.getElem?_eq_some_iff.1 ht).1 hiv.txCap
  have hv := txVars_some (p := p) ht
  obtain ⟨a, a', z', e1, e2, e3, e4, e5, e6⟩ := C71_replay h P cv blk.alloc blk'.alloc _ _ _ _
    (produced_commits h hs hb) (produced_commits h hs' hb')
    (by show ((blk.height : Nat) : ZMod p) = ((blk'.height : Nat) : ZMod p)
        rw [produced_height hs hb, produced_height hs' hb']) hne k hk (freshUser cv P.hs k)
    (fresh_ready _ _ _ _) hnew i j h0 hic hj (by rw [hv]; exact hreal) (by rw [hv, alloc_getSigner]; exact hsig)
  rw [hv] at e4 e6
  exact ⟨a, a', z', e1, e2, e3, e4, e5, by rw [e6]; simp [freshUser]⟩

end PF.Props
