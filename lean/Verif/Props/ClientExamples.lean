import Verif.Props.ClientRuns
import Verif.Proof.BnSizes

/-!
# Non-vacuity of the client properties C61–C73, C75

A block of height one that commits to one transfer at position 3 and one signer at position 5, a user that
has processed nothing yet, and hash functions under which the transfer does not hash like padding. The
field, the group and the keys are arbitrary; the last example fixes those of the repository.
-/

set_option linter.unusedSectionVars false

namespace PF.Props
open PF PF.MT PF.Spec PF.Circuit PF.Client
open PF.AggC (grumpkinQ bnCurve)

variable {p q : Nat} {G : Type} [AddCommGroup G] [Module (ZMod q) G] [DecidableEq G]

/-- Blocks hash to their first root, everything else to its element 20 (of a transaction: the amount of its
first output). -/
def demoHs (p : Nat) : Hashes p := ⟨fun l => if l.length = 4 then l.getD 0 0 else l.getD 20 0, fun a b => a + 2 * b⟩

def demoParams (p : Nat) : Client.Params p := poseidonParams (demoHs p)

/-- Transaction `t` at position 3. -/
def demoTxs (t : Tx (ZMod p) G) (i : Nat) : Tx (ZMod p) G := if i = 3 then t else Tx.default

/-- Signer `k` at position 5. -/
def demoSigners (k : G) (i : Nat) : G := if i = 5 then k else 0

/-- Block of height one with UTXO root `u`. -/
def demoBlk (cv : Curve p q G) (u : ZMod p) (t : Tx (ZMod p) G) (k : G) : BlockVar (ZMod p) where
  utxoRoot := u
  txRoot := merkleRoot (fun l => (demoHs p).crh (txEncVar cv l)) (demoHs p).h2 13 (demoTxs t)
  signerRoot := merkleRoot (fun l => (demoHs p).crh (pkEncVar cv l)) (demoHs p).h2 13 (demoSigners k)
  height := 1

/-- User with key `k` before its first block. -/
def demoUser (cv : Curve p q G) (k : G) : UState p :=
  ⟨0, 0, (demoHs p).crh (pkEncVar cv k), 0, 0, 0, 0⟩

theorem demo_commits (h : FieldOk p) (cv : Curve p q G) (u : ZMod p) (t : Tx (ZMod p) G) (k : G) :
    Commits cv (demoParams p).hs (demoBlk cv u t k) (demoTxs t) (demoSigners k) where
  txs := rfl
  signers := rfl
  height := by
    have hp : 2 ^ 67 ≤ p := h.large
    have : Fact (1 < p) := ⟨by omega⟩
    show (1 : ZMod p).val + 1 ≤ _
    rw [ZMod.val_one]; omega

theorem demo_ready (cv : Curve p q G) (k : G) (m : ZMod p) :
    ReadyFor cv (demoParams p).hs k m (demoUser cv k) where
  key := rfl
  height := by simp [demoUser]
  index := by simp [demoUser]

theorem demo_hash (cv : Curve p q G) (u : ZMod p) (t : Tx (ZMod p) G) (k : G) :
    (demoParams p).hs.crh (blockEncVar (demoBlk cv u t k)) = u := rfl

theorem demo_real (cv : Curve p q G) (a b : G) (m : Nat) (hm : (m : ZMod p) ≠ 0) :
    NotPadding cv (demoParams p).hs ((transferTx a b m).alloc p) ∧
    NotPadding cv (demoParams p).hs ((mintTx a m).alloc p) := by
  have e1 : (demoParams p).hs.crh (txEncVar cv ((transferTx a b m).alloc p)) = (m : ZMod p) := rfl
  have e2 : (demoParams p).hs.crh (txEncVar cv ((mintTx a m).alloc p)) = (m : ZMod p) := rfl
  have e3 : (demoParams p).hs.crh (txEncVar cv (Tx.default : Tx (ZMod p) G)) = 0 := rfl
  exact ⟨by unfold NotPadding; rw [e1, e3]; exact hm, by unfold NotPadding; rw [e2, e3]; exact hm⟩

theorem natCast_ne (h : FieldOk p) {m : Nat} (h0 : 0 < m) (hm : m < 2 ^ 64) : (m : ZMod p) ≠ 0 := by
  have hp : 2 ^ 67 ≤ p := h.large
  rw [Ne, ZMod.natCast_eq_zero_iff]
  exact Nat.not_dvd_of_pos_of_lt h0 (by omega)

section
variable (h : FieldOk p) (cv : Curve p q G) (k r : G)
include h

/-- The transfer of seven from `k` to `r`. -/
abbrev seven (p : Nat) (k r : G) : Tx (ZMod p) G := (transferTx k r 7).alloc p

theorem seven_signer : (seven p k r).getSigner = k := by
  simp [seven, Tx.getSigner, transferTx, Tx.alloc, vmap, UTXO.alloc, UTXO.dummy, select]

theorem one_ne : (1 : ZMod p) ≠ 0 := by
  have := natCast_ne (p := p) (m := 1) h (by decide) (by decide)
  simpa using this

/-- A run of two steps, of two transactions each, about the demo block: the transfer and padding, then
padding only. The receiver's balance becomes seven. Meets the hypotheses of C61, C63–C69, C72, and of the
theorems about one step. -/
theorem demo_run (hr : r ≠ k) (hr0 : r ≠ 0) : ∃ (a b : UserAuxVar p G) (z' : UState p),
    Client.runSteps (demoParams p) cv 2 (demoUser cv r) [a, b] z' ∧ z'.balance = 7 ∧
    (∃ x ∈ a.shown, x.tx = seven p k r ∧ x.index = 3 ∧ x.counts cv (demoParams p).hs = true) ∧
    a.block = demoBlk cv 1 (seven p k r) k ∧ b.block = a.block := by
  have real := (demo_real (p := p) cv k r 7 (natCast_ne h (by decide) (by decide))).1
  have hnr : ∀ i j, ¬ (⟨Tx.default, i, j⟩ : Pick p G).real cv (demoParams p).hs := fun i j hh => hh rfl
  have hp : 2 ^ 67 ≤ p := h.large
  have hb := demo_commits h cv 1 (seven p k r) k
  obtain ⟨z1, s1, b1, -, k1, g1, n1, x1⟩ := picks_step h (demoParams p) cv _ _ _ hb r (demoUser cv r)
    (demo_ready cv r _) [⟨seven p k r, 3, 5⟩, ⟨Tx.default, 0, 0⟩] (by
      rw [if_neg (by rw [demo_hash]; exact one_ne h)]
      refine ⟨?_, ?_, ?_, ?_, ?_⟩
      · intro x hx
        simp only [List.mem_cons, List.not_mem_nil, or_false] at hx
        rcases hx with rfl | rfl
        · show 3 ≤ _; omega
        · show 0 ≤ _; omega
      · intro x hx hh
        simp only [List.mem_cons, List.not_mem_nil, or_false] at hx
        rcases hx with rfl | rfl
        · rfl
        · exact absurd hh (hnr _ _)
      · intro x hx hh
        simp only [List.mem_cons, List.not_mem_nil, or_false] at hx
        rcases hx with rfl | rfl
        · exact ⟨show 5 < CAP by decide, (seven_signer h k r).symm⟩
        · exact absurd hh (hnr _ _)
      · intro x hx hh
        simp only [List.mem_cons, List.not_mem_nil, or_false] at hx
        rcases hx with rfl | rfl
        · exact Nat.succ_pos 2
        · exact absurd hh (hnr _ _)
      · rw [List.pairwise_cons]
        refine ⟨?_, List.pairwise_singleton _ _⟩
        intro y hy _ hh
        rw [List.mem_singleton.1 hy] at hh
        exact absurd hh (hnr _ _))
  obtain ⟨z2, s2, b2, -⟩ := picks_step h (demoParams p) cv _ _ _ hb r z1
    ⟨by rw [k1]; rfl, by rw [n1], x1⟩ [⟨Tx.default, 0, 0⟩, ⟨Tx.default, 0, 0⟩] (by
      have hl : ∀ x ∈ [(⟨Tx.default, 0, 0⟩ : Pick p G), ⟨Tx.default, 0, 0⟩], x = ⟨Tx.default, 0, 0⟩ := by
        intro x hx; simpa using hx
      refine ⟨fun x hx => ?_, fun x hx hh => ?_, fun x hx hh => ?_, fun x hx hh => ?_, ?_⟩
      · rw [hl x hx]; exact Nat.zero_le _
      · rw [hl x hx] at hh; exact absurd hh (hnr _ _)
      · rw [hl x hx] at hh; exact absurd hh (hnr _ _)
      · rw [hl x hx] at hh; exact absurd hh (hnr _ _)
      · rw [List.pairwise_cons]
        refine ⟨fun y _ hh => absurd hh (hnr _ _), List.pairwise_singleton _ _⟩)
  refine ⟨_, _, z2, ⟨z1, s1, z2, s2, rfl⟩, ?_,
    ⟨Pick.shown cv (demoParams p).hs (demoTxs (seven p k r)) (demoSigners k) ⟨seven p k r, 3, 5⟩, ?_, rfl, Nat.cast_ofNat, ?_⟩, rfl, rfl⟩
  · rw [b2, b1]
    simp [default_delta, demoUser]
    unfold delta received spent
    simp [seven, transferTx, Tx.alloc, vmap, UTXO.alloc, UTXO.dummy, List.filter_cons, hr0.symm, hr.symm]
  · rw [mkAux_shown]; exact List.mem_cons_self
  · exact (shown_counts cv (demoParams p).hs _ _ ⟨seven p k r, 3, 5⟩).2 real

/-- Non-vacuity of C62's counterexample, C67's, C69's and C71's: the transfer sits at position 3, its signer
at position 5 (position 3 of the signer tree is empty), the user has processed nothing. -/
theorem demo_hypotheses :
    Commits cv (demoParams p).hs (demoBlk cv 1 (seven p k r) k) (demoTxs (seven p k r)) (demoSigners k) ∧
    ReadyFor cv (demoParams p).hs r (demoBlk cv 1 (seven p k r) k).height (demoUser cv r) ∧
    (demoParams p).hs.crh (blockEncVar (demoBlk cv 1 (seven p k r) k)) ≠ (demoUser cv r).prevBlockHash ∧
    NotPadding cv (demoParams p).hs (demoTxs (seven p k r) 3) ∧
    demoSigners k 5 = (demoTxs (seven p k r) 3).getSigner := by
  refine ⟨demo_commits h cv 1 _ k, demo_ready cv r _, one_ne h, ?_, ?_⟩
  · exact (demo_real cv k r 7 (natCast_ne h (by decide) (by decide))).1
  · exact (seven_signer h k r).symm

/-- C62: the transfer counted a hundred times in one step. -/
example : ∃ (a : UserAuxVar p G) (z' : UState p), updateBalance (demoParams p) cv 100 (demoUser cv r) a z' ∧
    (∀ x ∈ a.shown, x.tx = seven p k r ∧ x.counts cv (demoParams p).hs = true ∧ x.position = 3) ∧
    a.transactions.length = 100 := by
  have hp : 2 ^ 67 ≤ p := h.large
  obtain ⟨h1, h2, h3, h4, h5⟩ := demo_hypotheses h cv k r
  obtain ⟨a, z', -, -, e1, e2, e3, -⟩ := C62_counted_many_times h (demoParams p) cv _ _ _ h1 r _ h2 rfl 3 5
    (by decide) (by decide) h4 h5 100 (show 3 + 4096 * 100 ≤ _ by omega)
  exact ⟨a, z', e1, e2, e3⟩

/-- C67: counted although position 3 of the signer tree is empty. -/
example (hk : k ≠ 0) : demoSigners k 3 = 0 ∧ ∃ (a : UserAuxVar p G) (z' : UState p),
    updateBalance (demoParams p) cv 1 (demoUser cv r) a z' ∧
    a.transactions = [(seven p k r, ((3 : Nat) : ZMod p))] := by
  obtain ⟨h1, h2, h3, h4, h5⟩ := demo_hypotheses h cv k r
  obtain ⟨a, z', -, -, e1, e2, -⟩ := C67_unsigned_transaction_counted h (demoParams p) cv _ _ _ h1 r _ h2 h3 3 5
    (by decide) (by decide) (by decide) h4 (by rw [← h5]; exact hk.symm) h5
  exact ⟨rfl, a, z', e1, e2⟩

/-- C68: a mint of seven, with the empty position zero of the signer tree. -/
example (hk : k ≠ 0) : ∃ (a : UserAuxVar p G) (z' : UState p),
    updateBalance (demoParams p) cv 1 (demoUser cv k) a z' ∧
    a.transactions = [((mintTx k 7).alloc p, ((3 : Nat) : ZMod p))] ∧ z'.balance = 7 := by
  obtain ⟨-, -, a, z', -, -, e1, e2, e3⟩ := C68_dummy_output_mints h (demoParams p) cv
    (demoBlk cv 1 ((mintTx k 7).alloc p) k) (demoTxs ((mintTx k 7).alloc p)) (demoSigners k)
    (demo_commits h cv 1 _ k) k hk 7 (demoUser cv k) (demo_ready cv k _) (one_ne h) 3 0 (by decide) (by decide)
    (by decide) rfl (demo_real cv k k 7 (natCast_ne h (by decide) (by decide))).2 rfl
  exact ⟨a, z', e1, e2, by rw [e3]; simp [demoUser]⟩

/-- C69: index `3 + 4096·9`. -/
example : ∃ (a : UserAuxVar p G) (z' : UState p),
    updateBalance (demoParams p) cv 1 (demoUser cv r) a z' ∧
    a.transactions = [(seven p k r, ((36867 : Nat) : ZMod p))] := by
  have hp : 2 ^ 67 ≤ p := h.large
  obtain ⟨h1, h2, h3, h4, h5⟩ := demo_hypotheses h cv k r
  obtain ⟨a, z', -, -, e1, e2, -⟩ := C69_any_alias_accepted h (demoParams p) cv _ _ _ h1 r _ h2 h3 3 5 9
    (by decide) (by decide) (show 36867 ≤ _ by omega) (by decide) h4 h5
  exact ⟨a, z', e1, e2⟩

/-- C71: two blocks of height one, with UTXO roots one and two. -/
example (hr0 : r ≠ 0) : ∃ (a b : UserAuxVar p G) (z' : UState p),
    Client.runSteps (demoParams p) cv 1 (demoUser cv r) [a, b, a] z' ∧
    a.transactions = [(seven p k r, ((3 : Nat) : ZMod p))] := by
  obtain ⟨h1, h2, h3, h4, h5⟩ := demo_hypotheses h cv k r
  obtain ⟨a, b, z', -, -, e1, e2, -⟩ := C71_replay h (demoParams p) cv _ (demoBlk cv 2 (seven p k r) k) _ _ _ _
    h1 (demo_commits h cv 2 (seven p k r) k) rfl
    (by rw [demo_hash, demo_hash]
        intro e
        have e2 : (2 : ZMod p) = 1 + 1 := by norm_num
        rw [e2] at e
        exact one_ne h (left_eq_add.1 e))
    r hr0 _ h2 h3 3 5 (by decide) (by decide) (by decide) h4 h5
  exact ⟨a, b, z', e1, e2⟩

/-- C75: a user of balance zero counts having spent seven. -/
example (hk : k ≠ 0) (hr : r ≠ k) : ∃ (a : UserAuxVar p G) (z' : UState p),
    updateBalance (demoParams p) cv 1 (demoUser cv k) a z' ∧ z'.balance.val = p - 7 := by
  obtain ⟨h1, -, -, h4, h5⟩ := demo_hypotheses h cv k r
  obtain ⟨-, a, z', -, -, e1, -, e2⟩ := C75_balance_wraps h (demoParams p) cv _ _ _ h1 k r hk hr 7 (by decide)
    (by decide) (demoUser cv k) (demo_ready cv k _) rfl (one_ne h) 3 5 (by decide) (by decide) (by decide) rfl
    h4 rfl
  exact ⟨a, z', e1, e2⟩

end

/-- The circuit field of the repository meets the size conditions. -/
theorem fieldOk_bn254 : FieldOk bn254r := ⟨by decide, by decide⟩

/-- The demo run over the field and the group order of the repository. -/
example : ∃ (a b : UserAuxVar bn254r (ZMod grumpkinQ)) (z' : UState bn254r),
    Client.runSteps (demoParams bn254r) bnCurve 2
      (demoUser bnCurve ((2 : Nat) : ZMod grumpkinQ)) [a, b] z' ∧ z'.balance = 7 := by
  have ne : ∀ {i j : Nat}, i % grumpkinQ ≠ j % grumpkinQ → ((i : ZMod grumpkinQ)) ≠ (j : ZMod grumpkinQ) := by
    intro i j hh; rw [Ne, ZMod.natCast_eq_natCast_iff']; exact hh
  obtain ⟨a, b, z', h1, h2, -⟩ := demo_run fieldOk_bn254 bnCurve ((1 : Nat) : ZMod grumpkinQ)
    ((2 : Nat) : ZMod grumpkinQ) (ne (by decide))
    (by have := ne (i := 2) (j := 0) (by decide); rwa [Nat.cast_zero] at this)
  exact ⟨a, b, z', h1, h2⟩

end PF.Props
