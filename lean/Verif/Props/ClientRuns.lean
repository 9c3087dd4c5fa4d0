import Verif.Props.Client

/-!
# Properties C62, C67–C71, C75 (client circuit): what runs count, and what they should not
-/

set_option linter.unusedSectionVars false

namespace PF.Props
open PF PF.MT PF.Spec PF.Circuit PF.Client
open PF.AggC (pkEncVar_inj txEncVar_inj)

variable {p q : Nat} {G : Type} [AddCommGroup G] [Module (ZMod q) G] [DecidableEq G]

/-! ## C62 -/

/-- **C62** (one block): in consecutive steps of a run about one block hash, the indices of the counted
transactions increase strictly. -/
theorem C62_within_block (h : FieldOk p) (P : Client.Params p) (cv : Curve p q G) (n : Nat)
    (z z' : UState p) (pre mid post : List (UserAuxVar p G))
    (hrun : Client.runSteps P cv n z (pre ++ mid ++ post) z') (H : ZMod p)
    (hH : ∀ a ∈ mid, a.hash P.hs = H) :
    (counted cv P.hs mid).Pairwise fun e f => e.2.index.val < f.2.index.val := by
  obtain ⟨f, rfl⟩ := (run_iff h P cv n _ z z').1 hrun
  rw [runFacts_append, runFacts_append] at f
  exact (same_block_increasing H mid _ f.1.2 hH).1

/-- **C62** (coming back to a block): if the same block is processed in a step `a` and in a later step `b`,
then every index counted in `b` is larger than every index counted in `a`, unless a different block of the
same height was processed in between, or the sponge hash collides on the two blocks. -/
theorem C62_reentry (h : FieldOk p) (P : Client.Params p) (cv : Curve p q G) (n : Nat)
    (z z' : UState p) (pre mid post : List (UserAuxVar p G)) (a b : UserAuxVar p G)
    (hrun : Client.runSteps P cv n z (pre ++ (a :: (mid ++ [b])) ++ post) z')
    (hab : a.hash P.hs = b.hash P.hs) (x y : Shown p G) (hx : x ∈ a.shown) (hy : y ∈ b.shown)
    (hcx : x.counts cv P.hs = true) (hcy : y.counts cv P.hs = true) :
    x.index.val < y.index.val ∨
    (∃ m ∈ mid, m.hash P.hs ≠ a.hash P.hs ∧ m.block.height.val = a.block.height.val) ∨
    Collides P.hs.crh (blockEncVar a.block) (blockEncVar b.block) := by
  obtain ⟨f, rfl⟩ := (run_iff h P cv n _ z z').1 hrun
  rw [runFacts_append, runFacts_append] at f
  obtain ⟨⟨-, f⟩, -⟩ := f
  by_cases hall : ∀ m ∈ mid, m.hash P.hs = a.hash P.hs
  · left
    have := (same_block_increasing (a.hash P.hs) _ _ f (by
      intro m hm
      rcases List.mem_cons.1 hm with rfl | hm
      · rfl
      rcases List.mem_append.1 hm with hm | hm
      · exact hall m hm
      · rw [List.mem_singleton.1 hm, hab])).1
    rw [counted_cons, List.pairwise_append] at this
    exact this.2.2 (a, x) (List.mem_map.2 ⟨x, List.mem_filter.2 ⟨hx, hcx⟩, rfl⟩) (b, y)
      (mem_counted.2 ⟨by simp, hy, hcy⟩)
  · right
    push Not at hall
    obtain ⟨m, hm, hne⟩ := hall
    rcases C72_blocks P.hs a b hab with e | e
    · left
      refine ⟨m, hm, hne, ?_⟩
      have hp := (run_heights _ _ f).2.2
      rw [List.pairwise_cons, List.pairwise_append] at hp
      have h1 := hp.1 m (by simp [hm])
      have h2 := hp.2.2.2 m hm b (by simp)
      rw [← e] at h2
      omega
    · right; exact e

private theorem pairwise_counted {cv : Curve p q G} {hs : Hashes p}
    {R : UserAuxVar p G × Shown p G → UserAuxVar p G × Shown p G → Prop} (as : List (UserAuxVar p G))
    (h1 : ∀ a ∈ as, ((countedIn cv hs a.shown).map fun x => (a, x)).Pairwise R)
    (h2 : ∀ pre a mid b post, as = pre ++ (a :: (mid ++ [b])) ++ post → ∀ x ∈ a.shown, ∀ y ∈ b.shown,
      x.counts cv hs = true → y.counts cv hs = true → R (a, x) (b, y)) :
    (counted cv hs as).Pairwise R := by
  induction as with
  | nil => exact List.Pairwise.nil
  | cons a as ih =>
    rw [counted_cons, List.pairwise_append]
    refine ⟨h1 a (by simp), ih (fun b hb => h1 b (by simp [hb])) ?_, ?_⟩
    · intro pre a' mid b post e
      exact h2 (a :: pre) a' mid b post (by rw [e]; rfl)
    · intro e he g hg
      obtain ⟨x, hx, rfl⟩ := List.mem_map.1 he
      rw [countedIn, List.mem_filter] at hx
      obtain ⟨g1, g2, g3⟩ := mem_counted.1 hg
      obtain ⟨l1, l2, e⟩ := List.append_of_mem g1
      exact h2 [] a l1 g.1 l2 (by rw [e]; simp) x hx.1 g.2 g2 hx.2 g3

/-- **C62**: in every accepted run, if a position of a block is counted twice then the later count uses an
index beyond the capacity of the transaction tree (an alias of the position), or a *different* block of
the same height was processed in the run, or the sponge hash collides on the two occurrences of the block.
Both exceptions occur: `C62_counted_many_times`, `C71_replay`. -/
theorem C62_counted_twice (h : FieldOk p) (P : Client.Params p) (cv : Curve p q G) (n : Nat)
    (z z' : UState p) (as : List (UserAuxVar p G)) (hrun : Client.runSteps P cv n z as z') :
    (counted cv P.hs as).Pairwise fun e f =>
      e.1.hash P.hs = f.1.hash P.hs → e.2.position = f.2.position →
        CAP ≤ f.2.index.val ∨
        (∃ m ∈ as, m.hash P.hs ≠ e.1.hash P.hs ∧ m.block.height.val = e.1.block.height.val) ∨
        Collides P.hs.crh (blockEncVar e.1.block) (blockEncVar f.1.block) := by
  have hali : ∀ x y : Shown p G, x.index.val < y.index.val → x.position = y.position →
      CAP ≤ y.index.val := by
    intro x y hlt hpos
    by_contra hc
    unfold Shown.position at hpos
    rw [Nat.mod_eq_of_lt (by omega), Nat.mod_eq_of_lt (by omega)] at hpos
    omega
  refine pairwise_counted as ?_ ?_
  · intro a ha
    obtain ⟨l1, l2, e⟩ := List.append_of_mem ha
    have := C62_within_block h P cv n z z' l1 [a] l2 (by rw [show l1 ++ [a] ++ l2 = as by rw [e]; simp]; exact hrun)
      (a.hash P.hs) (by simp)
    simp only [counted, List.flatMap_cons, List.flatMap_nil, List.append_nil] at this
    exact List.Pairwise.imp (fun hlt _ hpos => Or.inl (hali _ _ hlt hpos)) this
  · intro pre a mid b post e x hx y hy hcx hcy hab hpos
    subst e
    rcases C62_reentry h P cv n z z' pre mid post a b hrun hab x y hx hy hcx hcy with h1 | ⟨m, hm, h2, h3⟩ | h4
    · exact .inl (hali _ _ h1 hpos)
    · exact .inr (.inl ⟨m, by simp [hm], h2, h3⟩)
    · exact .inr (.inr h4)

/-- **C62**: hence, if the blocks of the run are pairwise different in height unless they are the same
block, and the indices used are positions of the tree, no (block, position) is counted twice, or the sponge
hash collides on two of the blocks. The circuit enforces neither of the two conditions. -/
theorem C62_counted_once (h : FieldOk p) (P : Client.Params p) (cv : Curve p q G) (n : Nat)
    (z z' : UState p) (as : List (UserAuxVar p G)) (hrun : Client.runSteps P cv n z as z')
    (hone : ∀ a ∈ as, ∀ b ∈ as, a.block.height = b.block.height → a.hash P.hs = b.hash P.hs)
    (hidx : ∀ a ∈ as, ∀ x ∈ a.shown, x.counts cv P.hs = true → x.index.val < CAP) :
    ((counted cv P.hs as).Pairwise fun e f =>
      ¬ (e.1.hash P.hs = f.1.hash P.hs ∧ e.2.position = f.2.position)) ∨
    ∃ a ∈ as, ∃ b ∈ as, Collides P.hs.crh (blockEncVar a.block) (blockEncVar b.block) := by
  have hNZ : NeZero p := ⟨by have := h.large; omega⟩
  obtain ⟨f, rfl⟩ := (run_iff h P cv n _ z z').1 hrun
  by_cases hcol : ∃ a ∈ as, ∃ b ∈ as, Collides P.hs.crh (blockEncVar a.block) (blockEncVar b.block)
  · right; exact hcol
  left
  have hord := counted_ordered as z f (fun a ha b hb e => hone a ha b hb (ZMod.val_injective p e))
  refine List.Pairwise.imp_of_mem ?_ hord
  intro e g he hg hlt ⟨h1, h2⟩
  obtain ⟨e1, e2, e3⟩ := mem_counted.1 he
  obtain ⟨g1, g2, g3⟩ := mem_counted.1 hg
  have hblk : e.1.block = g.1.block := by
    rcases C72_blocks P.hs e.1 g.1 h1 with hh | hh
    · exact hh
    · exact absurd ⟨e.1, e1, g.1, g1, hh⟩ hcol
  rw [hblk] at hlt
  have i1 := hidx e.1 e1 e.2 e2 e3
  have i2 := hidx g.1 g1 g.2 g2 g3
  unfold Shown.position at h2
  rw [Nat.mod_eq_of_lt i1, Nat.mod_eq_of_lt i2] at h2
  omega

/-- The block `blk` commits to transactions `c` and signers `sc`. -/
structure Commits (cv : Curve p q G) (hs : Hashes p) (blk : BlockVar (ZMod p)) (c : Nat → Tx (ZMod p) G)
    (sc : Nat → G) : Prop where
  txs : RootOf hs (txEncVar cv) 13 c blk.txRoot
  signers : RootOf hs (pkEncVar cv) 13 sc blk.signerRoot
  height : blk.height.val + 1 ≤ (p - 1) / 2

/-- State of user `k` that may process blocks from height `m` on. -/
structure ReadyFor (cv : Curve p q G) (hs : Hashes p) (k : G) (m : ZMod p) (z : UState p) : Prop where
  key : z.pkHash = hs.crh (pkEncVar cv k)
  height : z.prevBlockNumber.val ≤ m.val
  index : z.prevTxIndex.val ≤ (p - 1) / 2

/-- The transaction does not hash like padding (a different transaction that did would be a collision). -/
def NotPadding (cv : Curve p q G) (hs : Hashes p) (t : Tx (ZMod p) G) : Prop :=
  hs.crh (txEncVar cv t) ≠ hs.crh (txEncVar cv (Tx.default : Tx (ZMod p) G))

theorem startIndex_half {hs : Hashes p} {z : UState p} {a : UserAuxVar p G}
    (h : z.prevTxIndex.val ≤ (p - 1) / 2) : (startIndex hs z a).val ≤ (p - 1) / 2 := by
  unfold startIndex
  split
  · exact h
  · simp

theorem picks_step (h : FieldOk p) (P : Client.Params p) (cv : Curve p q G) (blk : BlockVar (ZMod p))
    (c : Nat → Tx (ZMod p) G) (sc : Nat → G) (hb : Commits cv P.hs blk c sc) (k : G) (z : UState p)
    (hz : ReadyFor cv P.hs k blk.height z) (xs : List (Pick p G))
    (ok : PicksOk cv P.hs c sc (if P.hs.crh (blockEncVar blk) = z.prevBlockHash then z.prevTxIndex.val else 0) xs) :
    ∃ z', updateBalance P cv xs.length z (mkAux blk k (xs.map (Pick.shown cv P.hs c sc))) z' ∧
      z'.balance = z.balance + (xs.map fun x => delta k x.tx).sum ∧
      z'.nonce = z.nonce + (signedBy k (xs.map (·.tx)) : Nat) ∧
      z'.pkHash = z.pkHash ∧ z'.prevBlockHash = P.hs.crh (blockEncVar blk) ∧
      z'.prevBlockNumber = blk.height ∧ z'.prevTxIndex.val ≤ (p - 1) / 2 := by
  have hv : (startIndex P.hs z (mkAux blk k (xs.map (Pick.shown cv P.hs c sc)))).val =
      (if P.hs.crh (blockEncVar blk) = z.prevBlockHash then z.prevTxIndex.val else 0) := by
    unfold startIndex
    have e : (mkAux blk k (xs.map (Pick.shown cv P.hs c sc))).hash P.hs = P.hs.crh (blockEncVar blk) := rfl
    rw [e]
    split <;> simp
  have f := step_complete h (k := k) c sc hb.txs hb.signers xs z hz.key.symm hz.height hb.height
    (startIndex_half hz.index) (by rw [hv]; exact ok)
  refine ⟨_, (step_iff h P cv _ z _ _).2 ⟨f, rfl⟩, ?_, ?_, rfl, rfl, rfl, ?_⟩
  · show (loopAt _ _ _ _ _).balance = _
    rw [loopAt_balance, mkAux_shown, List.map_map]
    rfl
  · show (loopAt _ _ _ _ _).nonce = _
    rw [loopAt_nonce, mkAux_shown, List.map_map]
    rfl
  · exact loopAt_half _ _ (startIndex_half hz.index) f.loop

/-- C62, the first exception: a transaction at any position `i` of a block can be counted `n` times in a single step, by
presenting the indices `i + 4096`, `i + 2·4096`, …, `i + n·4096`, which all stand for position `i`. -/
theorem C62_counted_many_times (h : FieldOk p) (P : Client.Params p) (cv : Curve p q G)
    (blk : BlockVar (ZMod p)) (c : Nat → Tx (ZMod p) G) (sc : Nat → G) (hb : Commits cv P.hs blk c sc)
    (k : G) (z : UState p) (hz : ReadyFor cv P.hs k blk.height z) (hz0 : z.prevTxIndex = 0)
    (i j : Nat) (hi : i < CAP) (hj : j < CAP) (hreal : NotPadding cv P.hs (c i))
    (hsig : sc j = (c i).getSigner) (n : Nat) (hn : i + CAP * n ≤ (p - 1) / 2) :
    ∃ (a : UserAuxVar p G) (z' : UState p), a.block = blk ∧ a.pk = k ∧ updateBalance P cv n z a z' ∧
      (∀ x ∈ a.shown, x.tx = c i ∧ x.counts cv P.hs = true ∧ x.position = i) ∧
      a.transactions.length = n ∧
      z'.balance = z.balance + (n : ZMod p) * delta k (c i) := by
  have hp : 2 ^ 67 ≤ p := h.large
  let xs : List (Pick p G) := (List.range n).map fun l => ⟨c i, i + CAP * (l + 1), j⟩
  have hxs : ∀ x ∈ xs, x.tx = c i ∧ x.signerPos = j ∧ x.index % CAP = i ∧ 0 < x.index ∧
      x.index ≤ (p - 1) / 2 := by
    intro x hx
    obtain ⟨l, hl, rfl⟩ := List.mem_map.1 hx
    rw [List.mem_range] at hl
    refine ⟨rfl, rfl, ?_, ?_, ?_⟩
    · show (i + CAP * (l + 1)) % CAP = i
      rw [Nat.add_mul_mod_self_left, Nat.mod_eq_of_lt hi]
    · exact Nat.lt_of_lt_of_le (Nat.mul_pos (show 0 < CAP by decide) (Nat.succ_pos l)) (Nat.le_add_left _ i)
    · show i + CAP * (l + 1) ≤ (p - 1) / 2
      exact (Nat.add_le_add_left (Nat.mul_le_mul_left CAP hl) i).trans hn
  have hlen : xs.length = n := by simp [xs]
  obtain ⟨z', h1, h2, -⟩ := picks_step h P cv blk c sc hb k z hz xs (by
    rw [hz0, ZMod.val_zero, ite_self]
    refine ⟨fun x hx => (hxs x hx).2.2.2.2, fun x hx _ => ?_, fun x hx _ => ?_,
      fun x hx _ => (hxs x hx).2.2.2.1, ?_⟩
    · obtain ⟨a1, -, a3, -⟩ := hxs x hx; rw [a3, a1]
    · obtain ⟨a1, a2, -⟩ := hxs x hx; rw [a1, a2]; exact ⟨hj, hsig⟩
    · rw [List.pairwise_map]
      refine List.pairwise_lt_range.imp ?_
      intro l m hlm _ _
      exact Nat.add_lt_add_left (Nat.mul_lt_mul_of_pos_left (Nat.add_lt_add_right hlm 1) (by decide)) i)
  rw [hlen] at h1
  refine ⟨_, z', rfl, rfl, h1, ?_, by simp [mkAux, hlen], ?_⟩
  · intro x hx
    rw [mkAux_shown] at hx
    obtain ⟨y, hy, rfl⟩ := List.mem_map.1 hx
    obtain ⟨a1, -, a3, -, a5⟩ := hxs y hy
    refine ⟨a1, (shown_counts cv P.hs c sc y).2 (by unfold Pick.real; rw [a1]; exact hreal), ?_⟩
    show ((y.index : ZMod p)).val % CAP = i
    rw [ZMod.val_natCast, Nat.mod_eq_of_lt (show y.index < p by omega), a3]
  · rw [h2]
    have : xs.map (fun x => delta k x.tx) = List.replicate n (delta k (c i)) := by
      rw [List.eq_replicate_iff]
      refine ⟨by simp [hlen], ?_⟩
      intro d hd
      obtain ⟨y, hy, rfl⟩ := List.mem_map.1 hd
      rw [(hxs y hy).1]
    rw [this]; simp

/-! ## C67, limit -/

/-- C67, not at its own position: a transaction at position `i ≥ 1` is counted although position `i` of the signer tree is
empty (or holds another key): it suffices that its sender's key is found at any other position `j`. -/
theorem C67_unsigned_transaction_counted (h : FieldOk p) (P : Client.Params p) (cv : Curve p q G)
    (blk : BlockVar (ZMod p)) (c : Nat → Tx (ZMod p) G) (sc : Nat → G) (hb : Commits cv P.hs blk c sc)
    (k : G) (z : UState p) (hz : ReadyFor cv P.hs k blk.height z)
    (hnew : P.hs.crh (blockEncVar blk) ≠ z.prevBlockHash)
    (i j : Nat) (h0 : 0 < i) (hi : i < CAP) (hj : j < CAP) (hreal : NotPadding cv P.hs (c i))
    (hun : sc i ≠ (c i).getSigner) (hsig : sc j = (c i).getSigner) :
    ∃ (a : UserAuxVar p G) (z' : UState p), a.block = blk ∧ a.pk = k ∧ updateBalance P cv 1 z a z' ∧
      a.transactions = [(c i, (i : ZMod p))] ∧ (∀ x ∈ a.shown, x.counts cv P.hs = true) ∧
      z'.balance = z.balance + delta k (c i) := by
  have hp : 2 ^ 67 ≤ p := h.large
  obtain ⟨z', h1, h2, -⟩ := picks_step h P cv blk c sc hb k z hz [⟨c i, i, j⟩] (by
    rw [if_neg hnew]
    refine ⟨?_, ?_, ?_, ?_, List.pairwise_singleton _ _⟩ <;> simp only [List.mem_singleton, forall_eq]
    · show i ≤ _; have : i < 4096 := hi; omega
    · intro _; rw [Nat.mod_eq_of_lt hi]
    · intro _; exact ⟨hj, hsig⟩
    · intro _; exact h0)
  refine ⟨_, z', rfl, rfl, h1, rfl, ?_, by simpa using h2⟩
  intro x hx
  rw [mkAux_shown] at hx
  obtain ⟨y, hy, rfl⟩ := List.mem_map.1 hx
  rw [List.mem_singleton.1 hy]
  exact (shown_counts cv P.hs c sc _).2 hreal

/-! ## C68 -/

/-- Amounts of the real outputs minus the real inputs carrying key `k`. -/
def realDelta (k : G) (t : Tx (ZMod p) G) : ZMod p :=
  ((t.outputs.toList.filter fun u => u.pk = k ∧ u.isDummy = false).map (·.amount)).sum -
  ((t.inputs.toList.filter fun u => u.pk = k ∧ u.isDummy = false).map (·.amount)).sum

theorem clean_filter (k : G) (us : List (UTXO (ZMod p) G)) (hc : ∀ u ∈ us, u.isDummy = true → u.amount = 0) :
    ((us.filter fun u => u.pk = k).map (·.amount)).sum =
      ((us.filter fun u => u.pk = k ∧ u.isDummy = false).map (·.amount)).sum := by
  induction us with
  | nil => simp
  | cons u us ih =>
    have ih := ih fun v hv => hc v (by simp [hv])
    have hu := hc u (by simp)
    by_cases h : u.pk = k <;> cases hd : u.isDummy <;>
      simp [List.filter_cons, h, hd] at ih hu ⊢ <;> simp [ih, hu]

/-- Amounts of the *dummy* outputs minus the dummy inputs carrying key `k`. -/
def dummyDelta (k : G) (t : Tx (ZMod p) G) : ZMod p :=
  ((t.outputs.toList.filter fun u => u.pk = k ∧ u.isDummy = true).map (·.amount)).sum -
  ((t.inputs.toList.filter fun u => u.pk = k ∧ u.isDummy = true).map (·.amount)).sum

private theorem filter_split (k : G) (us : List (UTXO (ZMod p) G)) :
    ((us.filter fun u => u.pk = k).map (·.amount)).sum =
      ((us.filter fun u => u.pk = k ∧ u.isDummy = false).map (·.amount)).sum +
      ((us.filter fun u => u.pk = k ∧ u.isDummy = true).map (·.amount)).sum := by
  induction us with
  | nil => simp
  | cons u us ih =>
    by_cases h : u.pk = k <;> cases hd : u.isDummy <;>
      simp [List.filter_cons, h, hd] at ih ⊢ <;> rw [ih] <;> ring

/-- **C68** (exact): in every accepted run dummies count like real UTXOs: the balance changes by the real
outputs minus the real inputs of the user plus its dummy outputs minus its dummy inputs. So dummies leave
the balance alone exactly when their contributions cancel. -/
theorem C68_exact (h : FieldOk p) (P : Client.Params p) (cv : Curve p q G) (n : Nat)
    (z z' : UState p) (as : List (UserAuxVar p G)) (hrun : Client.runSteps P cv n z as z') :
    z'.balance = z.balance +
      (as.map fun a => (a.transactions.map fun t => realDelta a.pk t.1).sum).sum +
      (as.map fun a => (a.transactions.map fun t => dummyDelta a.pk t.1).sum).sum := by
  rw [(C61_balance_and_nonce h P cv n z z' as hrun).1, add_assoc, ← List.sum_map_add]
  congr 2
  apply List.map_congr_left
  intro a ha
  rw [← List.sum_map_add]
  congr 1
  apply List.map_congr_left
  intro t ht
  unfold received spent realDelta dummyDelta
  rw [filter_split, filter_split]
  ring

/-- **C68**: if the dummies of all transactions of a run carry no amount, the balance changes by the real
outputs minus the real inputs of the user. Nothing in the circuit makes dummies carry no amount, see
`C68_dummy_output_mints`. -/
theorem C68_clean_transactions (h : FieldOk p) (P : Client.Params p) (cv : Curve p q G) (n : Nat)
    (z z' : UState p) (as : List (UserAuxVar p G)) (hrun : Client.runSteps P cv n z as z')
    (hc : ∀ a ∈ as, ∀ t ∈ a.transactions, Clean t.1) :
    z'.balance = z.balance + (as.map fun a => (a.transactions.map fun t => realDelta a.pk t.1).sum).sum := by
  rw [(C61_balance_and_nonce h P cv n z z' as hrun).1]
  congr 2
  apply List.map_congr_left
  intro a ha
  congr 1
  apply List.map_congr_left
  intro t ht
  have := hc a ha t ht
  unfold received spent realDelta
  rw [clean_filter _ _ fun u hu => this u (by simp [Tx.ios] at hu ⊢; tauto),
    clean_filter _ _ fun u hu => this u (by simp [Tx.ios] at hu ⊢; tauto)]

/-- A transaction without inputs whose only non-trivial output is a *dummy* of amount `m` for `k`. -/
def mintTx {A : Type} [Zero A] (k : G) (m : A) : Tx A G where
  inputs := ⟨#[UTXO.dummy, UTXO.dummy, UTXO.dummy, UTXO.dummy], rfl⟩
  outputs := ⟨#[⟨m, k, true⟩, UTXO.dummy, UTXO.dummy, UTXO.dummy], rfl⟩

/-- C68, a dummy output mints: `mintTx` passes the native and the circuit validity check for every sender, needs no
signature (any empty position of the signer tree will do), and raises the balance of `k` by `m`. -/
theorem C68_dummy_output_mints (h : FieldOk p) (P : Client.Params p) (cv : Curve p q G)
    (blk : BlockVar (ZMod p)) (c : Nat → Tx (ZMod p) G) (sc : Nat → G) (hb : Commits cv P.hs blk c sc)
    (k : G) (hk : k ≠ 0) (m : Nat) (z : UState p) (hz : ReadyFor cv P.hs k blk.height z)
    (hnew : P.hs.crh (blockEncVar blk) ≠ z.prevBlockHash)
    (i j : Nat) (h0 : 0 < i) (hi : i < CAP) (hj : j < CAP) (hc : c i = (mintTx k m).alloc p)
    (hreal : NotPadding cv P.hs (c i)) (hempty : sc j = 0) :
    (∀ (b : Build) (s : G), (mintTx k m : Tx Nat G).isValid b (some s) = .ok ()) ∧
    (∀ s : G, (c i).enforceValid s) ∧
    ∃ (a : UserAuxVar p G) (z' : UState p), a.block = blk ∧ a.pk = k ∧ updateBalance P cv 1 z a z' ∧
      a.transactions = [(c i, (i : ZMod p))] ∧
      z'.balance = z.balance + (m : ZMod p) := by
  have hp : 2 ^ 67 ≤ p := h.large
  have hsig : (c i).getSigner = 0 := by
    rw [hc]; simp [Tx.getSigner, mintTx, Tx.alloc, vmap, UTXO.alloc, UTXO.dummy, select]
  have hd : delta k (c i) = (m : ZMod p) := by
    rw [hc]
    unfold delta received spent
    simp [mintTx, Tx.alloc, vmap, UTXO.alloc, UTXO.dummy, List.filter_cons, hk.symm]
  refine ⟨?_, ?_, ?_⟩
  · intro b s
    cases b <;> simp [mintTx, Tx.isValid, nonDummy, UTXO.dummy, sumU64] <;> rfl
  · intro s
    rw [hc]
    simp [Tx.enforceValid, mintTx, Tx.alloc, vmap, UTXO.alloc, UTXO.dummy, select, condEq]
  · obtain ⟨z', h1, h2, -⟩ := picks_step h P cv blk c sc hb k z hz [⟨c i, i, j⟩] (by
      rw [if_neg hnew]
      refine ⟨?_, ?_, ?_, ?_, List.pairwise_singleton _ _⟩ <;> simp only [List.mem_singleton, forall_eq]
      · show i ≤ _; have : i < 4096 := hi; omega
      · intro _; rw [Nat.mod_eq_of_lt hi]
      · intro _; exact ⟨hj, by rw [hempty, hsig]⟩
      · intro _; exact h0)
    exact ⟨_, z', rfl, rfl, h1, rfl, by simpa [hd] using h2⟩

/-! ## C69 -/

/-- **C69**: the index of a counted transaction lies above the index counted before and is at most half
the field order. It need not be a position of the tree, see `C69_any_alias_accepted` and `C69_exact`. -/
theorem C69_index_range (h : FieldOk p) (P : Client.Params p) (cv : Curve p q G) (n : Nat)
    (z z' : UState p) (a : UserAuxVar p G) (hstep : updateBalance P cv n z a z')
    (x : Shown p G) (hx : x ∈ a.shown) (hcnt : x.counts cv P.hs = true) :
    (if P.hs.crh (blockEncVar a.block) = z.prevBlockHash then z.prevTxIndex.val else 0) < x.index.val ∧
    x.index.val ≤ (p - 1) / 2 := by
  obtain ⟨f, rfl⟩ := (step_iff h P cv n z a z').1 hstep
  obtain ⟨prev, tf⟩ := loop_tx _ _ f.loop x hx
  have := ((loop_increasing _ _ f.loop).2.1 x (List.mem_filter.2 ⟨hx, hcnt⟩)).1
  refine ⟨?_, tf.indexHalf⟩
  unfold loopStart startIndex at this
  have e : a.hash P.hs = P.hs.crh (blockEncVar a.block) := rfl
  rw [e] at this
  split at this
  · rename_i hh; rw [if_pos hh]; exact this
  · rename_i hh; rw [if_neg hh]; simpa using this

/-- **C69**, aliases: for a transaction at position `i` every index `i + 4096·l` (up to half the field order) is
accepted. -/
theorem C69_any_alias_accepted (h : FieldOk p) (P : Client.Params p) (cv : Curve p q G)
    (blk : BlockVar (ZMod p)) (c : Nat → Tx (ZMod p) G) (sc : Nat → G) (hb : Commits cv P.hs blk c sc)
    (k : G) (z : UState p) (hz : ReadyFor cv P.hs k blk.height z)
    (hnew : P.hs.crh (blockEncVar blk) ≠ z.prevBlockHash)
    (i j l : Nat) (h0 : 0 < i + CAP * l) (hi : i < CAP) (hl : i + CAP * l ≤ (p - 1) / 2) (hj : j < CAP)
    (hreal : NotPadding cv P.hs (c i)) (hsig : sc j = (c i).getSigner) :
    ∃ (a : UserAuxVar p G) (z' : UState p), a.block = blk ∧ a.pk = k ∧ updateBalance P cv 1 z a z' ∧
      a.transactions = [(c i, ((i + CAP * l : Nat) : ZMod p))] ∧ (∀ x ∈ a.shown, x.counts cv P.hs = true) ∧
      z'.balance = z.balance + delta k (c i) ∧
      z'.nonce = z.nonce + if k = (c i).getSigner then 1 else 0 := by
  obtain ⟨z', h1, h2, h3, -⟩ := picks_step h P cv blk c sc hb k z hz [⟨c i, i + CAP * l, j⟩] (by
    rw [if_neg hnew]
    refine ⟨?_, ?_, ?_, ?_, List.pairwise_singleton _ _⟩ <;> simp only [List.mem_singleton, forall_eq]
    · exact hl
    · intro _; rw [Nat.add_mul_mod_self_left, Nat.mod_eq_of_lt hi]
    · intro _; exact ⟨hj, hsig⟩
    · intro _; exact h0)
  refine ⟨_, z', rfl, rfl, h1, rfl, ?_, by simpa using h2, ?_⟩
  · intro x hx
    rw [mkAux_shown] at hx
    obtain ⟨y, hy, rfl⟩ := List.mem_map.1 hx
    rw [List.mem_singleton.1 hy]
    exact (shown_counts cv P.hs c sc _).2 hreal
  · rw [h3]
    by_cases hk : k = (c i).getSigner <;> simp [signedBy, hk]

/-- **C69**, **C67** (exact): which single transactions `t` a user can show under which index `l` in a
block it has not processed, whatever the tree's contents `c` and signers `sc`. If `l` is positive and at
most half the field order, `t` is the content of position `l mod 4096`, and the signer of `t` is at *some*
position of the signer tree, then there is an accepted step showing it. Conversely, in every accepted step
showing a real `t` under `l` these conditions hold, or a hash collision on the shown paths is exhibited. -/
theorem C69_exact (h : FieldOk p) (P : Client.Params p) (cv : Curve p q G)
    (blk : BlockVar (ZMod p)) (c : Nat → Tx (ZMod p) G) (sc : Nat → G) (hb : Commits cv P.hs blk c sc)
    (k : G) (z : UState p) (hz : ReadyFor cv P.hs k blk.height z)
    (hnew : P.hs.crh (blockEncVar blk) ≠ z.prevBlockHash) (t : Tx (ZMod p) G)
    (hreal : NotPadding cv P.hs t) (l : ZMod p) :
    ((0 < l.val ∧ l.val ≤ (p - 1) / 2 ∧ c (l.val % CAP) = t ∧ ∃ j, j < CAP ∧ sc j = t.getSigner) →
      ∃ (a : UserAuxVar p G) (z' : UState p), a.block = blk ∧ a.pk = k ∧ updateBalance P cv 1 z a z' ∧
        a.transactions = [(t, l)]) ∧
    (∀ (a : UserAuxVar p G) (z' : UState p), a.block = blk → updateBalance P cv 1 z a z' →
      a.transactions = [(t, l)] →
      0 < l.val ∧ l.val ≤ (p - 1) / 2 ∧
      (c (l.val % CAP) = t ∨ Collides P.hs.crh (txEncVar cv t) (txEncVar cv (c (l.val % CAP))) ∨
        ∃ x ∈ a.shown, PathCollision P.hs.h2 x.txPath
          (truePath (fun t => P.hs.crh (txEncVar cv t)) P.hs.h2 13 c (l.val % CAP))) ∧
      ∃ j, j < CAP ∧ (sc j = t.getSigner ∨
        Collides P.hs.crh (pkEncVar cv t.getSigner) (pkEncVar cv (sc j)) ∨
        ∃ x ∈ a.shown, PathCollision P.hs.h2 x.signerPath
          (truePath (fun k => P.hs.crh (pkEncVar cv k)) P.hs.h2 13 sc j))) := by
  have hNZ : NeZero p := ⟨by have := h.large; omega⟩
  constructor
  · rintro ⟨h1, h2, h3, j, hj, hsig⟩
    obtain ⟨z', s1, -⟩ := picks_step h P cv blk c sc hb k z hz [⟨t, l.val, j⟩] (by
      rw [if_neg hnew]
      refine ⟨?_, ?_, ?_, ?_, List.pairwise_singleton _ _⟩ <;> simp only [List.mem_singleton, forall_eq]
      · exact h2
      · intro _; exact h3
      · intro _; exact ⟨hj, hsig⟩
      · intro _; exact h1)
    refine ⟨_, z', rfl, rfl, s1, ?_⟩
    simp [mkAux, Pick.shown, honestShown]
  · intro a z' hblk hstep htx
    have hf := ((step_iff h P cv 1 z a z').1 hstep).1
    obtain ⟨x, hx⟩ : ∃ x, a.shown = [x] := by
      have h1 := hf.txProofs
      have h2 := hf.signerProofs
      obtain ⟨u, hu⟩ := List.length_eq_one_iff.1 h1
      obtain ⟨v, hv⟩ := List.length_eq_one_iff.1 h2
      unfold UserAuxVar.shown
      rw [htx, hu, hv]
      exact ⟨_, rfl⟩
    have hxt : x.tx = t ∧ x.index = l := by
      have h1 := hf.txProofs
      have h2 := hf.signerProofs
      obtain ⟨u, hu⟩ := List.length_eq_one_iff.1 h1
      obtain ⟨v, hv⟩ := List.length_eq_one_iff.1 h2
      unfold UserAuxVar.shown at hx
      rw [htx, hu, hv] at hx
      simp only [List.zip_cons_cons, List.zip_nil_right, List.map_cons, List.map_nil, List.cons.injEq,
        and_true] at hx
      rw [← hx]; exact ⟨rfl, rfl⟩
    have hmem : x ∈ a.shown := by rw [hx]; simp
    have hcnt : x.counts cv P.hs = true := by
      unfold Shown.counts
      rw [hxt.1]
      exact decide_eq_true hreal
    have hr := C69_index_range h P cv 1 z z' a hstep x hmem hcnt
    rw [hblk, if_neg hnew, hxt.2] at hr
    refine ⟨hr.1, hr.2, ?_, ?_⟩
    · have hpos : x.position = l.val % CAP := by rw [← hxt.2]; rfl
      have := (C66_inclusion h P cv 1 z z' a hstep).2.2 c (by rw [hblk]; exact hb.txs) x hmem hcnt
      rw [hpos, hxt.1] at this
      rcases this with e | e | e
      · exact .inl e.symm
      · exact .inr (.inl e)
      · exact .inr (.inr ⟨x, hmem, e⟩)
    · obtain ⟨j, hj, e⟩ := C67_signer_somewhere h P cv 1 z z' a hstep sc (by rw [hblk]; exact hb.signers) x
        hmem hcnt
      rw [hxt.1] at e
      refine ⟨j, hj, ?_⟩
      rcases e with e | e | e
      · exact .inl e
      · exact .inr (.inl e)
      · exact .inr (.inr ⟨x, hmem, e⟩)

/-! ## C70 -/

/-- **C70** : every transaction at a position `i ≥ 1` of a block, whose signer is in
the signer tree, can be counted by any user that has not processed that block yet, under its own position
as index; the balance and nonce change accordingly. Position zero is reserved, see
`C70_first_position_never`. -/
theorem C70_every_position (h : FieldOk p) (P : Client.Params p) (cv : Curve p q G)
    (blk : BlockVar (ZMod p)) (c : Nat → Tx (ZMod p) G) (sc : Nat → G) (hb : Commits cv P.hs blk c sc)
    (k : G) (z : UState p) (hz : ReadyFor cv P.hs k blk.height z)
    (hnew : P.hs.crh (blockEncVar blk) ≠ z.prevBlockHash)
    (i j : Nat) (h0 : 0 < i) (hi : i < CAP) (hj : j < CAP) (hreal : NotPadding cv P.hs (c i))
    (hsig : sc j = (c i).getSigner) :
    ∃ (a : UserAuxVar p G) (z' : UState p), a.block = blk ∧ a.pk = k ∧ updateBalance P cv 1 z a z' ∧
      a.transactions = [(c i, (i : ZMod p))] ∧ (∀ x ∈ a.shown, x.counts cv P.hs = true) ∧
      z'.balance = z.balance + delta k (c i) ∧
      z'.nonce = z.nonce + if k = (c i).getSigner then 1 else 0 := by
  have hp : 2 ^ 67 ≤ p := h.large
  have := C69_any_alias_accepted h P cv blk c sc hb k z hz hnew i j 0 (by omega) hi
    (by have : i < 4096 := hi; omega) hj hreal hsig
  simpa using this

/-- **C70** (position zero): in no accepted step is a transaction counted under index zero, whatever the
state, so the first transaction of a block is never counted under its own position; any counted transaction
at position zero carries an index of at least 4096. -/
theorem C70_first_position_never (h : FieldOk p) (P : Client.Params p) (cv : Curve p q G) (n : Nat)
    (z z' : UState p) (as : List (UserAuxVar p G)) (hrun : Client.runSteps P cv n z as z')
    (a : UserAuxVar p G) (ha : a ∈ as) (x : Shown p G) (hx : x ∈ a.shown) (hcnt : x.counts cv P.hs = true) :
    x.index ≠ 0 ∧ (x.position = 0 → CAP ≤ x.index.val) := by
  obtain ⟨f, rfl⟩ := (run_iff h P cv n _ z z').1 hrun
  obtain ⟨z1, f1⟩ := run_mem as z f a ha
  have := ((loop_increasing _ _ f1.loop).2.1 x (List.mem_filter.2 ⟨hx, hcnt⟩)).1
  refine ⟨fun e => ?_, fun e => ?_⟩
  · rw [e, ZMod.val_zero] at this; omega
  · unfold Shown.position at e
    by_contra hlt
    rw [Nat.mod_eq_of_lt (by omega)] at e
    omega

/-! ## C71 -/

/-- **C71**: once a block of larger height has been processed, an earlier block cannot be processed again
(or the sponge hash collides). -/
theorem C71_left_for_good (h : FieldOk p) (P : Client.Params p) (cv : Curve p q G) (n : Nat)
    (z z' : UState p) (pre mid post : List (UserAuxVar p G)) (a b m : UserAuxVar p G)
    (hrun : Client.runSteps P cv n z (pre ++ (a :: (mid ++ [b])) ++ post) z') (hm : m ∈ mid)
    (hlt : a.block.height.val < m.block.height.val) :
    a.hash P.hs ≠ b.hash P.hs ∨ Collides P.hs.crh (blockEncVar a.block) (blockEncVar b.block) := by
  obtain ⟨f, rfl⟩ := (run_iff h P cv n _ z z').1 hrun
  rw [runFacts_append, runFacts_append] at f
  obtain ⟨⟨-, f⟩, -⟩ := f
  by_cases hab : a.hash P.hs = b.hash P.hs
  · rcases C72_blocks P.hs a b hab with e | e
    · exfalso
      have hp := (run_heights _ _ f).2.2
      rw [List.pairwise_cons, List.pairwise_append] at hp
      have h2 := hp.2.2.2 m hm b (by simp)
      rw [← e] at h2
      omega
    · right; exact e
  · left; exact hab

/-- **C71**: between two steps about the same block, all blocks processed have the height of that block
(or the sponge hash collides on the two occurrences). That they may be different blocks: `C71_replay`. -/
theorem C71_between (h : FieldOk p) (P : Client.Params p) (cv : Curve p q G) (n : Nat)
    (z z' : UState p) (pre mid post : List (UserAuxVar p G)) (a b : UserAuxVar p G)
    (hrun : Client.runSteps P cv n z (pre ++ (a :: (mid ++ [b])) ++ post) z')
    (hab : a.hash P.hs = b.hash P.hs) :
    (∀ m ∈ mid, m.block.height.val = a.block.height.val) ∨
    Collides P.hs.crh (blockEncVar a.block) (blockEncVar b.block) := by
  obtain ⟨f, rfl⟩ := (run_iff h P cv n _ z z').1 hrun
  rw [runFacts_append, runFacts_append] at f
  obtain ⟨⟨-, f⟩, -⟩ := f
  rcases C72_blocks P.hs a b hab with e | e
  · left
    intro m hm
    have hp := (run_heights _ _ f).2.2
    rw [List.pairwise_cons, List.pairwise_append] at hp
    have h1 := hp.1 m (by simp [hm])
    have h2 := hp.2.2.2 m hm b (by simp)
    rw [← e] at h2
    omega
  · right; exact e

theorem nat_lt_half (h : FieldOk p) {i : Nat} (hi : i < CAP) : i ≤ (p - 1) / 2 := by
  have hp : 2 ^ 67 ≤ p := h.large
  have : i < 4096 := hi
  omega

/-- C71, replay at equal heights: with two different blocks of equal height, the steps "first block, second block, first
block" are accepted, and the same transaction of the first block is counted twice, under the same index. -/
theorem C71_replay (h : FieldOk p) (P : Client.Params p) (cv : Curve p q G)
    (blk blk' : BlockVar (ZMod p)) (c c' : Nat → Tx (ZMod p) G) (sc sc' : Nat → G)
    (hb : Commits cv P.hs blk c sc) (hb' : Commits cv P.hs blk' c' sc') (hheight : blk.height = blk'.height)
    (hne : P.hs.crh (blockEncVar blk) ≠ P.hs.crh (blockEncVar blk'))
    (k : G) (hk : k ≠ 0) (z : UState p) (hz : ReadyFor cv P.hs k blk.height z)
    (hnew : P.hs.crh (blockEncVar blk) ≠ z.prevBlockHash)
    (i j : Nat) (h0 : 0 < i) (hi : i < CAP) (hj : j < CAP) (hreal : NotPadding cv P.hs (c i))
    (hsig : sc j = (c i).getSigner) :
    ∃ (a b : UserAuxVar p G) (z' : UState p), a.block = blk ∧ b.block = blk' ∧
      Client.runSteps P cv 1 z [a, b, a] z' ∧ a.transactions = [(c i, (i : ZMod p))] ∧
      (∀ x ∈ a.shown, x.counts cv P.hs = true) ∧
      z'.balance = z.balance + 2 * delta k (c i) := by
  have pk1 : PicksOk cv P.hs c sc 0 [⟨c i, i, j⟩] := by
    refine ⟨?_, ?_, ?_, ?_, List.pairwise_singleton _ _⟩ <;> simp only [List.mem_singleton, forall_eq]
    · exact nat_lt_half h hi
    · intro _; rw [Nat.mod_eq_of_lt hi]
    · intro _; exact ⟨hj, hsig⟩
    · intro _; exact h0
  obtain ⟨z1, s1, b1, -, k1, g1, n1, x1⟩ := picks_step h P cv blk c sc hb k z hz [⟨c i, i, j⟩]
    (by rw [if_neg hnew]; exact pk1)
  obtain ⟨z2, s2, b2, -, k2, g2, n2, x2⟩ := picks_step h P cv blk' c' sc' hb' k z1
    ⟨by rw [k1]; exact hz.key, by rw [n1, hheight], x1⟩ [⟨Tx.default, 0, 0⟩] (by
      have hnr : ¬ (⟨Tx.default, 0, 0⟩ : Pick p G).real cv P.hs := fun hh => hh rfl
      refine ⟨?_, ?_, ?_, ?_, List.pairwise_singleton _ _⟩ <;> simp only [List.mem_singleton, forall_eq]
      · exact Nat.zero_le _
      · intro hh; exact absurd hh hnr
      · intro hh; exact absurd hh hnr
      · intro hh; exact absurd hh hnr)
  obtain ⟨z3, s3, b3, -⟩ := picks_step h P cv blk c sc hb k z2
    ⟨by rw [k2, k1]; exact hz.key, by rw [n2, hheight], x2⟩ [⟨c i, i, j⟩]
    (by rw [if_neg (by rw [g2]; exact hne)]; exact pk1)
  refine ⟨_, _, z3, rfl, rfl, ⟨z1, s1, z2, s2, z3, s3, rfl⟩, rfl, ?_, ?_⟩
  · intro x hx
    rw [mkAux_shown] at hx
    obtain ⟨y, hy, rfl⟩ := List.mem_map.1 hx
    rw [List.mem_singleton.1 hy]
    exact (shown_counts cv P.hs c sc _).2 hreal
  · rw [b3, b2, b1]
    simp [default_delta]
    ring

/-! ## C75 -/

/-- Transfer of `m` from `k` to `r`. -/
def transferTx {A : Type} [Zero A] (k r : G) (m : A) : Tx A G where
  inputs := ⟨#[⟨m, k, false⟩, UTXO.dummy, UTXO.dummy, UTXO.dummy], rfl⟩
  outputs := ⟨#[⟨m, r, false⟩, UTXO.dummy, UTXO.dummy, UTXO.dummy], rfl⟩

/-- **C75** (exact): the recorded balance is the exact integer balance modulo the field order; so it is
that integer exactly when the integer is neither negative nor too large. -/
theorem C75_recorded_balance (h : FieldOk p) (P : Client.Params p) (cv : Curve p q G) (n : Nat)
    (z z' : UState p) (as : List (UserAux p G)) (hrun : Client.runSteps P cv n z (as.map UserAux.alloc) z') :
    (z'.balance.val : Int) = exactBalance z.balance.val as % p ∧
    ((z'.balance.val : Int) = exactBalance z.balance.val as ↔
      0 ≤ exactBalance z.balance.val as ∧ exactBalance z.balance.val as < p) := by
  have hNZ : NeZero p := ⟨by have := h.large; omega⟩
  have hb := (C61_exact_integers h P cv n z z' as hrun).1
  have e : (z'.balance.val : Int) = exactBalance z.balance.val as % p := by
    rw [hb, ZMod.val_intCast]
  have hlt := ZMod.val_lt z'.balance
  refine ⟨e, fun he => ?_, fun ⟨h0, h1⟩ => ?_⟩
  · rw [← he]; omega
  · rw [e, Int.emod_eq_of_lt h0 h1]

private theorem loopFacts_congr {P : Client.Params p} {cv : Curve p q G} {blk : BlockVar (ZMod p)} {k : G}
    (xs : List (Shown p G)) : ∀ s s' : Loop p, s.prevTxIndex = s'.prevTxIndex →
      LoopFacts P cv blk k s xs → LoopFacts P cv blk k s' xs ∧
        (loopAt cv P.hs k s xs).prevTxIndex = (loopAt cv P.hs k s' xs).prevTxIndex := by
  induction xs with
  | nil => intro s s' e _; exact ⟨trivial, e⟩
  | cons x xs ih =>
    intro s s' e f
    obtain ⟨f1, f2⟩ := f
    have hi : (s.after cv P.hs k x).prevTxIndex = (s'.after cv P.hs k x).prevTxIndex := by
      simp only [Loop.after, e]
    obtain ⟨g1, g2⟩ := ih _ _ hi f2
    refine ⟨⟨by rw [← e]; exact f1, g1⟩, ?_⟩
    rw [loopAt_cons, loopAt_cons]; exact g2

/-- **C75**: no step is ever rejected for lack of funds: if a run is accepted from a state, it is accepted
from the same state with any other balance, and ends in the same state up to the same shift of the
balance. -/
theorem C75_funds_not_checked (h : FieldOk p) (P : Client.Params p) (cv : Curve p q G) (n : Nat)
    (z z' : UState p) (as : List (UserAuxVar p G)) (hrun : Client.runSteps P cv n z as z') (d : ZMod p) :
    Client.runSteps P cv n { z with balance := z.balance + d } as
      { z' with balance := z'.balance + d } := by
  induction as generalizing z with
  | nil =>
    have e : z' = z := hrun
    subst e; rfl
  | cons a as ih =>
    obtain ⟨z1, h1, h2⟩ := hrun
    obtain ⟨f, rfl⟩ := (step_iff h P cv n z a z1).1 h1
    refine ⟨{ z.after P cv a with balance := (z.after P cv a).balance + d }, ?_, ih _ h2⟩
    rw [step_iff h]
    have hst : (loopStart P.hs { z with balance := z.balance + d } a).prevTxIndex =
        (loopStart P.hs z a).prevTxIndex := rfl
    obtain ⟨g1, g2⟩ := loopFacts_congr a.shown _ _ hst.symm f.loop
    refine ⟨⟨f.txProofs, f.transactions, f.signerProofs, f.key, f.height, f.heightHalf, g1⟩, ?_⟩
    unfold UState.after
    simp only [UState.mk.injEq, true_and, and_true]
    refine ⟨?_, ?_, g2⟩
    · rw [loopAt_balance, loopAt_balance]; simp only [loopStart]; ring
    · rw [loopAt_nonce, loopAt_nonce]; rfl

/-- C75, wrapping: a user with balance zero can count a valid transfer of `m > 0`; the recorded balance becomes
`p - m`. -/
theorem C75_balance_wraps (h : FieldOk p) (P : Client.Params p) (cv : Curve p q G)
    (blk : BlockVar (ZMod p)) (c : Nat → Tx (ZMod p) G) (sc : Nat → G) (hb : Commits cv P.hs blk c sc)
    (k r : G) (hk : k ≠ 0) (hr : r ≠ k) (m : Nat) (hm : 0 < m) (hm64 : m < U64) (z : UState p)
    (hz : ReadyFor cv P.hs k blk.height z) (hzero : z.balance = 0)
    (hnew : P.hs.crh (blockEncVar blk) ≠ z.prevBlockHash)
    (i j : Nat) (h0 : 0 < i) (hi : i < CAP) (hj : j < CAP) (hc : c i = (transferTx k r m).alloc p)
    (hreal : NotPadding cv P.hs (c i)) (hsig : sc j = k) :
    (∀ b : Build, (transferTx k r m : Tx Nat G).isValid b (some k) = .ok ()) ∧
    ∃ (a : UserAuxVar p G) (z' : UState p), a.block = blk ∧ a.pk = k ∧ updateBalance P cv 1 z a z' ∧
      a.transactions = [(c i, (i : ZMod p))] ∧ z'.balance.val = p - m := by
  have hp : 2 ^ 67 ≤ p := h.large
  have hNZ : NeZero p := ⟨by omega⟩
  have hmp : m < p := lt_of_lt_of_le hm64 (le_trans (by unfold U64; norm_num) hp)
  have hsig' : (c i).getSigner = k := by
    rw [hc]; simp [Tx.getSigner, transferTx, Tx.alloc, vmap, UTXO.alloc, UTXO.dummy, select]
  have hd : delta k (c i) = -(m : ZMod p) := by
    rw [hc]
    unfold delta received spent
    simp [transferTx, Tx.alloc, vmap, UTXO.alloc, UTXO.dummy, List.filter_cons, hr, hk.symm]
  refine ⟨?_, ?_⟩
  · intro b
    rw [C20_is_valid_decision]
    simp [transferTx, OwnedBy, totalOf, UTXO.dummy, hm64]
  · obtain ⟨a, z', h1, h2, h3, h4, -, h6, -⟩ := C70_every_position h P cv blk c sc hb k z hz hnew
      i j h0 hi hj hreal (by rw [hsig, hsig'])
    refine ⟨a, z', h1, h2, h3, h4, ?_⟩
    rw [h6, hzero, hd, zero_add, ZMod.neg_val, if_neg]
    · rw [ZMod.val_natCast, Nat.mod_eq_of_lt hmp]
    · intro e
      have := congrArg ZMod.val e
      rw [ZMod.val_natCast, Nat.mod_eq_of_lt hmp, ZMod.val_zero] at this
      omega

end PF.Props
