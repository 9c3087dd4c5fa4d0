import Verif.Proof.ClientHonest
import Verif.Proof.AggregatorCircuitPublic
import Verif.Props.Contract

/-!
# Properties C61–C73 (client circuit), positive parts
-/

set_option linter.unusedSectionVars false

namespace PF.Props
open PF PF.MT PF.Spec PF.Circuit PF.Client
open PF.AggC (pkEncVar_inj txEncVar_inj)
open PF.Contract (truncated)

variable {p q : Nat} {G : Type} [AddCommGroup G] [Module (ZMod q) G] [DecidableEq G]

theorem shown_txs {P : Client.Params p} {cv : Curve p q G} {n : Nat} {z : UState p} {a : UserAuxVar p G}
    (f : StepFacts P cv n z a) : a.shown.map (·.tx) = a.transactions.map (·.1) ∧
      a.shown.map (·.index) = a.transactions.map (·.2) := by
  have h1 := f.txProofs
  have h2 := f.transactions
  have h3 := f.signerProofs
  have e : ((a.transactions.zip a.txProofs).zip a.signerProofs).map (fun x => x.1.1) = a.transactions := by
    have : (fun x : ((Tx (ZMod p) G × ZMod p) × List (ZMod p × ZMod p)) × List (ZMod p × ZMod p) => x.1.1)
        = Prod.fst ∘ Prod.fst := rfl
    rw [this, ← List.map_map, List.map_fst_zip (by simp [h1, h2, h3]), List.map_fst_zip (by omega)]
  constructor
  · unfold UserAuxVar.shown
    rw [List.map_map]
    conv_rhs => rw [← e, List.map_map]
    rfl
  · unfold UserAuxVar.shown
    rw [List.map_map]
    conv_rhs => rw [← e, List.map_map]
    rfl

/-! ## C61 -/

/-- **C61**: along an accepted run the balance changes by what the outputs minus the inputs carrying the
user's key amount to, over all transactions of all steps, and the nonce by the number of transactions whose
signer is the user. -/
theorem C61_balance_and_nonce (h : FieldOk p) (P : Client.Params p) (cv : Curve p q G) (n : Nat)
    (z z' : UState p) (as : List (UserAuxVar p G)) (hrun : Client.runSteps P cv n z as z') :
    z'.balance = z.balance +
      (as.map fun a => (a.transactions.map fun t => received a.pk t.1 - spent a.pk t.1).sum).sum ∧
    z'.nonce = z.nonce + ((as.map fun a => signedBy a.pk (a.transactions.map (·.1))).sum : Nat) := by
  obtain ⟨f, rfl⟩ := (run_iff h P cv n as z z').1 hrun
  obtain ⟨h1, h2⟩ := run_balance P cv as z
  rw [h1, h2]
  have key : ∀ a ∈ as, a.shown.map (·.tx) = a.transactions.map (·.1) := by
    intro a ha
    obtain ⟨z1, f1⟩ := run_mem as z f a ha
    exact (shown_txs f1).1
  constructor
  · congr 2
    apply List.map_congr_left
    intro a ha
    have := congrArg (List.map (delta a.pk)) (key a ha)
    rw [List.map_map, List.map_map] at this
    exact congrArg List.sum this
  · congr 3
    apply List.map_congr_left
    intro a ha
    rw [key a ha]

/-- Amounts of the outputs of a native transaction carrying key `k`. -/
def receivedNat (k : G) (t : Tx Nat G) : Nat := ((t.outputs.toList.filter fun u => u.pk = k).map (·.amount)).sum

/-- Amounts of the inputs of a native transaction carrying key `k`. -/
def spentNat (k : G) (t : Tx Nat G) : Nat := ((t.inputs.toList.filter fun u => u.pk = k).map (·.amount)).sum

theorem filter_alloc_sum (k : G) (us : List (UTXO Nat G)) :
    (((us.map (UTXO.alloc p)).filter fun u => u.pk = k).map (·.amount)).sum =
      ((((us.filter fun u => u.pk = k).map (·.amount)).sum : Nat) : ZMod p) := by
  induction us with
  | nil => simp
  | cons u us ih =>
    by_cases hk : u.pk = k <;> simp [List.filter_cons, UTXO.alloc, hk] at ih ⊢ <;> rw [ih]

theorem received_alloc (k : G) (t : Tx Nat G) : received k (t.alloc p) = (receivedNat k t : ZMod p) := by
  unfold received receivedNat
  rw [← filter_alloc_sum]
  simp [Tx.alloc, vmap]

theorem spent_alloc (k : G) (t : Tx Nat G) : spent k (t.alloc p) = (spentNat k t : ZMod p) := by
  unfold spent spentNat
  rw [← filter_alloc_sum]
  simp [Tx.alloc, vmap]

/-- The balance an exact bookkeeper would have after the steps, as an integer. -/
def exactBalance (b : Int) (as : List (UserAux p G)) : Int :=
  b + (as.map fun a => (a.transactions.map fun t =>
    ((receivedNat a.pk t.1 : Int) - (spentNat a.pk t.1 : Int))).sum).sum

/-- **C61** (integers): on allocated native inputs the balance is the exact integer balance as long as that
stays between zero and the field order; likewise the nonce. -/
theorem C61_exact_integers (h : FieldOk p) (P : Client.Params p) (cv : Curve p q G) (n : Nat)
    (z z' : UState p) (as : List (UserAux p G)) (hrun : Client.runSteps P cv n z (as.map UserAux.alloc) z') :
    z'.balance = ((exactBalance z.balance.val as : Int) : ZMod p) ∧
    (0 ≤ exactBalance z.balance.val as → exactBalance z.balance.val as < p →
      (z'.balance.val : Int) = exactBalance z.balance.val as) ∧
    (z.nonce.val + (as.map fun a => (a.transactions.countP fun t => a.pk = t.1.getSigner)).sum < p →
      z'.nonce.val = z.nonce.val +
        (as.map fun a => (a.transactions.countP fun t => a.pk = t.1.getSigner)).sum) := by
  have hp : 0 < p := lt_of_lt_of_le (by norm_num) h.large
  have : NeZero p := ⟨by omega⟩
  obtain ⟨h1, h2⟩ := C61_balance_and_nonce h P cv n z z' _ hrun
  have hb : z'.balance = ((exactBalance z.balance.val as : Int) : ZMod p) := by
    rw [h1]
    unfold exactBalance
    push_cast
    rw [ZMod.natCast_zmod_val, List.map_map]
    congr 1
    rw [List.map_map]
    congr 1
    apply List.map_congr_left
    intro a _
    simp only [Function.comp_apply, UserAux.alloc, List.map_map]
    push_cast
    rw [List.map_map]
    congr 1
    apply List.map_congr_left
    intro t _
    simp [received_alloc, spent_alloc]
  refine ⟨hb, ?_, ?_⟩
  · intro h0 hlt
    rw [hb]
    obtain ⟨m, hm⟩ := Int.eq_ofNat_of_zero_le h0
    rw [hm] at hlt ⊢
    have : m < p := by exact_mod_cast hlt
    rw [show (((m : Int)) : ZMod p) = ((m : Nat) : ZMod p) by push_cast; rfl, ZMod.val_natCast,
      Nat.mod_eq_of_lt this]
  · intro hlt
    have hc : ((as.map UserAux.alloc).map fun a => signedBy a.pk (a.transactions.map (·.1))).sum =
        (as.map fun a => (a.transactions.countP fun t => a.pk = t.1.getSigner)).sum := by
      rw [List.map_map]
      congr 1
      apply List.map_congr_left
      intro a _
      simp only [Function.comp_apply, UserAux.alloc, signedBy, List.map_map, List.countP_map]
      apply List.countP_congr
      intro t _
      simp [Tx.getSigner, Tx.alloc, vmap, List.foldl_map, UTXO.alloc]
    rw [h2, hc]
    conv_lhs => rw [← ZMod.natCast_zmod_val z.nonce, ← Nat.cast_add, ZMod.val_natCast, Nat.mod_eq_of_lt hlt]

/-! ## C63 -/

/-- **C63**: along an accepted run the block heights never decrease, starting from the height recorded in
the state, and the height recorded at the end is that of the last block. -/
theorem C63_heights (h : FieldOk p) (P : Client.Params p) (cv : Curve p q G) (n : Nat)
    (z z' : UState p) (as : List (UserAuxVar p G)) (hrun : Client.runSteps P cv n z as z') :
    (as.Pairwise fun a b => a.block.height.val ≤ b.block.height.val) ∧
    (∀ a ∈ as, z.prevBlockNumber.val ≤ a.block.height.val ∧
      a.block.height.val ≤ z'.prevBlockNumber.val) ∧
    z'.prevBlockNumber = (as.getLast?.map (·.block.height)).getD z.prevBlockNumber := by
  obtain ⟨f, rfl⟩ := (run_iff h P cv n as z z').1 hrun
  obtain ⟨i1, _, i3⟩ := run_heights as z f
  refine ⟨i3, i1, ?_⟩
  rcases List.eq_nil_or_concat as with rfl | ⟨bs, b, rfl⟩
  · rfl
  · rw [List.concat_eq_append, stateAt_append]
    simp [stateAt, UState.after]

/-! ## C64 -/

theorem default_getSigner {A : Type} [Zero A] : (Tx.default : Tx A G).getSigner = 0 := by
  simp [Tx.getSigner, Tx.default, UTXO.dummy, List.replicate, select]

theorem default_delta (k : G) : delta k (Tx.default : Tx (ZMod p) G) = 0 := by
  unfold delta received spent
  by_cases hk : (0 : G) = k <;> simp [Tx.default, UTXO.dummy, List.replicate, hk]

theorem default_counts (cv : Curve p q G) (hs : Hashes p) (x : Shown p G) (hx : x.tx = Tx.default) :
    x.counts cv hs = false := by
  simp [Shown.counts, hx]

theorem loopAt_append (cv : Curve p q G) (hs : Hashes p) (k : G) (s : Loop p) (xs ys : List (Shown p G)) :
    loopAt cv hs k s (xs ++ ys) = loopAt cv hs k (loopAt cv hs k s xs) ys := by
  simp [loopAt, List.foldl_append]

theorem loopFacts_append {P : Client.Params p} {cv : Curve p q G} {blk : BlockVar (ZMod p)} {k : G}
    (s : Loop p) (xs ys : List (Shown p G)) :
    LoopFacts P cv blk k s (xs ++ ys) ↔
      LoopFacts P cv blk k s xs ∧ LoopFacts P cv blk k (loopAt cv P.hs k s xs) ys := by
  induction xs generalizing s with
  | nil => simp [LoopFacts, loopAt]
  | cons x xs ih => simp only [List.cons_append, LoopFacts, ih, loopAt_cons, and_assoc]

theorem padding_after (cv : Curve p q G) (hs : Hashes p) {k : G} (hk : k ≠ 0) (s : Loop p) (x : Shown p G)
    (hx : x.tx = Tx.default) : s.after cv hs k x = s := by
  have h1 := default_counts cv hs x hx
  unfold Loop.after
  rw [h1, hx, default_delta, default_getSigner]
  simp [hk]

theorem loopAt_half {P : Client.Params p} {cv : Curve p q G} {blk : BlockVar (ZMod p)} {k : G}
    (s : Loop p) (xs : List (Shown p G)) (hs : s.prevTxIndex.val ≤ (p - 1) / 2)
    (f : LoopFacts P cv blk k s xs) : (loopAt cv P.hs k s xs).prevTxIndex.val ≤ (p - 1) / 2 := by
  induction xs generalizing s with
  | nil => exact hs
  | cons x xs ih =>
    rw [loopAt_cons]
    apply ih _ _ f.2
    show (if x.counts cv P.hs = true then x.index else s.prevTxIndex).val ≤ _
    split
    · exact f.1.indexHalf
    · exact hs

/-- **C64**: padding is inert. A padding transaction, with any index below half the field order and any
paths of the right length, may be inserted anywhere among the transactions of a step, or removed: the step
is accepted with it exactly when it is accepted without it, and leads to the same state (for a user whose
key is not the identity). -/
theorem C64_padding_inert (h : FieldOk p) (P : Client.Params p) (cv : Curve p q G) (n : Nat)
    (blk : BlockVar (ZMod p)) (k : G) (hk : k ≠ 0) (xs ys : List (Shown p G)) (pad : Shown p G)
    (hpad : pad.tx = Tx.default) (hi : pad.index.val ≤ (p - 1) / 2) (h1 : pad.txPath.length = 12)
    (h2 : pad.signerPath.length = 12) (z z' : UState p) (hz : z.prevTxIndex.val ≤ (p - 1) / 2) :
    updateBalance P cv (n + 1) z (mkAux blk k (xs ++ pad :: ys)) z' ↔
      updateBalance P cv n z (mkAux blk k (xs ++ ys)) z' := by
  rw [step_iff h, step_iff h]
  have hst : loopStart P.hs z (mkAux blk k (xs ++ pad :: ys)) = loopStart P.hs z (mkAux blk k (xs ++ ys)) := rfl
  have hsh : (loopStart P.hs z (mkAux blk k (xs ++ ys))).prevTxIndex.val ≤ (p - 1) / 2 := by
    unfold loopStart startIndex
    split
    · exact hz
    · simp
  have hl : LoopFacts P cv blk k (loopStart P.hs z (mkAux blk k (xs ++ ys))) (xs ++ pad :: ys) ↔
      LoopFacts P cv blk k (loopStart P.hs z (mkAux blk k (xs ++ ys))) (xs ++ ys) := by
    rw [loopFacts_append, loopFacts_append]
    refine and_congr_right fun fx => ?_
    have hh := loopAt_half _ _ hsh fx
    unfold LoopFacts
    rw [padding_after cv P.hs hk _ pad hpad]
    have hc := default_counts cv P.hs pad hpad
    constructor
    · rintro ⟨_, f⟩
      cases ys with
      | nil => trivial
      | cons y ys => exact f
    · intro f
      refine ⟨⟨hh, hi, h1, h2, ?_, ?_, ?_⟩, ?_⟩
      · intro e; rw [hc] at e; cases e
      · intro e; rw [hc] at e; cases e
      · intro e; rw [hc] at e; cases e
      · cases ys with
        | nil => trivial
        | cons y ys => exact f
  have ha : z.after P cv (mkAux blk k (xs ++ pad :: ys)) = z.after P cv (mkAux blk k (xs ++ ys)) := by
    have : loopAt cv P.hs k (loopStart P.hs z (mkAux blk k (xs ++ ys))) (xs ++ pad :: ys) =
        loopAt cv P.hs k (loopStart P.hs z (mkAux blk k (xs ++ ys))) (xs ++ ys) := by
      rw [loopAt_append, loopAt_append, loopAt_cons, padding_after cv P.hs hk _ pad hpad]
    unfold UState.after
    simp only [mkAux_shown, hst]
    congr 1 <;> simp only [mkAux] at this ⊢ <;> rw [this]
  rw [ha]
  refine and_congr_left fun _ => ?_
  constructor
  · rintro ⟨a1, a2, a3, a4, a5, a6, a7⟩
    rw [mkAux_shown, hst] at a7
    refine ⟨?_, ?_, ?_, a4, a5, a6, by rw [mkAux_shown]; exact hl.1 a7⟩ <;>
      simp [mkAux] at a1 ⊢ <;> omega
  · rintro ⟨a1, a2, a3, a4, a5, a6, a7⟩
    rw [mkAux_shown] at a7
    refine ⟨?_, ?_, ?_, a4, a5, a6, by rw [mkAux_shown, hst]; exact hl.2 a7⟩ <;>
      simp [mkAux] at a1 ⊢ <;> omega

/-- The condition of C64 on the state: it holds initially (index zero) and is kept by every run. -/
theorem C64_state_condition (h : FieldOk p) (P : Client.Params p) (cv : Curve p q G) (n : Nat)
    (z z' : UState p) (as : List (UserAuxVar p G)) (hrun : Client.runSteps P cv n z as z')
    (hz : z.prevTxIndex.val ≤ (p - 1) / 2) : z'.prevTxIndex.val ≤ (p - 1) / 2 := by
  obtain ⟨f, rfl⟩ := (run_iff h P cv n as z z').1 hrun
  clear hrun
  induction as generalizing z with
  | nil => exact hz
  | cons a as ih =>
    apply ih _ _ f.2
    apply loopAt_half _ _ _ f.1.loop
    unfold loopStart startIndex
    split
    · exact hz
    · simp

/-- C64 limit: for the identity key every padding transaction raises the nonce by one. -/
theorem C64_identity_key (h : FieldOk p) (P : Client.Params p) (cv : Curve p q G) (n : Nat)
    (z z' : UState p) (a : UserAuxVar p G) (ha : a.pk = 0) (hp : ∀ t ∈ a.transactions, t.1 = Tx.default)
    (hstep : updateBalance P cv n z a z') : z'.nonce = z.nonce + (n : ZMod p) ∧ z'.balance = z.balance := by
  obtain ⟨f, rfl⟩ := (step_iff h P cv n z a z').1 hstep
  have hs := (shown_txs f).1
  have hd : a.transactions.map (·.1) = List.replicate n Tx.default := by
    rw [List.eq_replicate_iff]
    refine ⟨by simp [f.transactions], ?_⟩
    intro t ht
    obtain ⟨x, hx, rfl⟩ := List.mem_map.1 ht
    exact hp x hx
  rw [hd] at hs
  constructor
  · show (loopAt _ _ _ _ _).nonce = _
    rw [loopAt_nonce, hs, ha]
    simp [signedBy, List.countP_replicate, default_getSigner, loopStart]
  · show (loopAt _ _ _ _ _).balance = _
    rw [loopAt_balance]
    have : a.shown.map (fun x => delta a.pk x.tx) = List.replicate n 0 := by
      have := congrArg (List.map (delta a.pk)) hs
      rw [List.map_map, List.map_replicate, default_delta] at this
      exact this
    rw [this]; simp [loopStart]

/-! ## C65 -/

/-- **C65**: the committed key hash never changes, and any two steps of runs from states with the same key
hash are about the same key, or exhibit a collision of the sponge hash. -/
theorem C65_identity (h : FieldOk p) (P : Client.Params p) (cv : Curve p q G) (n m : Nat)
    (z z' y y' : UState p) (as bs : List (UserAuxVar p G)) (hrun : Client.runSteps P cv n z as z')
    (hrun' : Client.runSteps P cv m y bs y') (hzy : z.pkHash = y.pkHash) :
    z'.pkHash = z.pkHash ∧
    ∀ a ∈ as, ∀ b ∈ bs, a.pk = b.pk ∨ Collides P.hs.crh (pkEncVar cv a.pk) (pkEncVar cv b.pk) := by
  have hp : 1 < p := lt_of_lt_of_le (by norm_num) h.large
  obtain ⟨f, rfl⟩ := (run_iff h P cv n as z z').1 hrun
  obtain ⟨g, rfl⟩ := (run_iff h P cv m bs y y').1 hrun'
  refine ⟨run_pkHash P cv as z, fun a ha b hb => ?_⟩
  have h1 := run_keys as z f a ha
  have h2 := run_keys bs y g b hb
  by_cases e : pkEncVar cv a.pk = pkEncVar cv b.pk
  · left; exact pkEncVar_inj cv hp e
  · right; exact ⟨e, by rw [h1, h2, hzy]⟩

/-! ## C66, C67 -/

/-- **C66**: a counted transaction is the one at its position of every tree of transactions with the
block's transaction root, where the block is the one whose hash the step absorbs into the accumulator and
records as last block hash — or a hash collision is exhibited. -/
theorem C66_inclusion (h : FieldOk p) (P : Client.Params p) (cv : Curve p q G) (n : Nat)
    (z z' : UState p) (a : UserAuxVar p G) (hstep : updateBalance P cv n z a z') :
    z'.acc = P.acc z.acc (P.hs.crh (blockEncVar a.block)) ∧
    z'.prevBlockHash = P.hs.crh (blockEncVar a.block) ∧
    ∀ c : Nat → Tx (ZMod p) G, RootOf P.hs (txEncVar cv) 13 c a.block.txRoot →
      ∀ x ∈ a.shown, x.counts cv P.hs = true →
        x.tx = c x.position ∨ Collides P.hs.crh (txEncVar cv x.tx) (txEncVar cv (c x.position)) ∨
        PathCollision P.hs.h2 x.txPath
          (truePath (fun t => P.hs.crh (txEncVar cv t)) P.hs.h2 13 c x.position) := by
  have hp : 1 < p := lt_of_lt_of_le (by norm_num) h.large
  obtain ⟨f, rfl⟩ := (step_iff h P cv n z a z').1 hstep
  refine ⟨rfl, rfl, fun c hc x hx hcnt => ?_⟩
  obtain ⟨prev, tf⟩ := loop_tx _ _ f.loop x hx
  rcases tx_included h cv c _ hc x (tf.included hcnt) with e | e
  · by_cases e' : txEncVar cv x.tx = txEncVar cv (c x.position)
    · left; exact txEncVar_inj cv hp e'
    · right; left; exact ⟨e', e⟩
  · right; right; exact e

/-- **C67**: the signer of a counted transaction is the content of *some* position of every signer tree
with the block's signer root, or a hash collision is exhibited. The position is not tied to the
transaction's position, see `C67_unsigned_transaction_counted`; the exact condition is in `C69_exact`. -/
theorem C67_signer_somewhere (h : FieldOk p) (P : Client.Params p) (cv : Curve p q G) (n : Nat)
    (z z' : UState p) (a : UserAuxVar p G) (hstep : updateBalance P cv n z a z')
    (sc : Nat → G) (hsc : RootOf P.hs (pkEncVar cv) 13 sc a.block.signerRoot)
    (x : Shown p G) (hx : x ∈ a.shown) (hcnt : x.counts cv P.hs = true) :
    ∃ j, j < CAP ∧ (sc j = x.tx.getSigner ∨
      Collides P.hs.crh (pkEncVar cv x.tx.getSigner) (pkEncVar cv (sc j)) ∨
      PathCollision P.hs.h2 x.signerPath
        (truePath (fun k => P.hs.crh (pkEncVar cv k)) P.hs.h2 13 sc j)) := by
  have hp : 1 < p := lt_of_lt_of_le (by norm_num) h.large
  obtain ⟨f, rfl⟩ := (step_iff h P cv n z a z').1 hstep
  obtain ⟨prev, tf⟩ := loop_tx _ _ f.loop x hx
  obtain ⟨j, hj, e⟩ := signer_included cv sc _ hsc _ _ (tf.signer hcnt)
  refine ⟨j, hj, ?_⟩
  rcases e with e | e
  · by_cases e' : pkEncVar cv x.tx.getSigner = pkEncVar cv (sc j)
    · left; exact (pkEncVar_inj cv hp e').symm
    · right; left; exact ⟨e', e⟩
  · right; right; exact e

/-! ## C72 -/

/-- **C72** (any accumulator): two runs of equal length that end with the same accumulator value started
from the same value and processed the same sequence of block hashes, or two different inputs of the
accumulator function with the same output are among those met at one position of the runs. -/
theorem C72_accumulator (h : FieldOk p) (P : Client.Params p) (cv : Curve p q G) (n m : Nat)
    (z z' y y' : UState p) (as bs : List (UserAuxVar p G)) (hrun : Client.runSteps P cv n z as z')
    (hrun' : Client.runSteps P cv m y bs y') (hl : as.length = bs.length) (he : z'.acc = y'.acc) :
    (z.acc = y.acc ∧ as.map (·.hash P.hs) = bs.map (·.hash P.hs)) ∨
    TranscriptCollision (fun x : ZMod p × ZMod p => P.acc x.1 x.2)
      (chainInputs (fun x => P.acc x.1 x.2) Prod.mk z.acc (as.map (·.hash P.hs)))
      (chainInputs (fun x => P.acc x.1 x.2) Prod.mk y.acc (bs.map (·.hash P.hs))) := by
  obtain ⟨f, rfl⟩ := (run_iff h P cv n as z z').1 hrun
  obtain ⟨g, rfl⟩ := (run_iff h P cv m bs y y').1 hrun'
  rw [run_acc, run_acc] at he
  exact chain_bind _ (fun x : ZMod p × ZMod p => P.acc x.1 x.2) Prod.mk
    (fun _ _ _ _ h => Prod.mk.inj h) (fun _ _ h => h) _ _ _ _ (by simpa using hl) he

/-- **C72** (any lengths): runs from the same accumulator value `a₀` that end with the same value, whatever
their lengths, processed the same sequence of block hashes, or the accumulator function is broken (a
collision, or an input that gives back the starting value). -/
theorem C72_accumulator_any_length (h : FieldOk p) (P : Client.Params p) (cv : Curve p q G) (n m : Nat)
    (z z' y y' : UState p) (as bs : List (UserAuxVar p G)) (hrun : Client.runSteps P cv n z as z')
    (hrun' : Client.runSteps P cv m y bs y') (hs : z.acc = y.acc) (he : z'.acc = y'.acc) :
    as.map (·.hash P.hs) = bs.map (·.hash P.hs) ∨
    ChainBreak (fun x : ZMod p × ZMod p => P.acc x.1 x.2) (fun x : ZMod p × ZMod p => P.acc x.1 x.2) Prod.mk
      z.acc (as.map (·.hash P.hs)) (bs.map (·.hash P.hs)) := by
  obtain ⟨f, rfl⟩ := (run_iff h P cv n as z z').1 hrun
  obtain ⟨g, rfl⟩ := (run_iff h P cv m bs y y').1 hrun'
  rw [run_acc, run_acc, ← hs] at he
  exact chain_bind_any _ (fun x : ZMod p × ZMod p => P.acc x.1 x.2) Prod.mk (fun _ => True)
    (fun _ _ _ _ _ _ h => Prod.mk.inj h) (fun _ _ h => h) _ _ _ (by simp) (by simp) he

/-- **C72** (SHA-256 client): a break of the accumulator is a collision of SHA-256 truncated to the bytes
kept. -/
theorem C72_sha (h : FieldOk p) (hs : Hashes p) (sha : Sha) (cv : Curve p q G) (n m : Nat)
    (z z' y y' : UState p) (as bs : List (UserAuxVar p G))
    (hrun : Client.runSteps (shaParams hs sha) cv n z as z')
    (hrun' : Client.runSteps (shaParams hs sha) cv m y bs y') (hl : as.length = bs.length)
    (he : z'.acc = y'.acc) :
    (z.acc = y.acc ∧ as.map (·.hash hs) = bs.map (·.hash hs)) ∨
    TranscriptCollision (truncated p sha)
      (chainInputs (shaField p sha) (fun a v => fBytes a ++ fBytes v) z.acc (as.map (·.hash hs)))
      (chainInputs (shaField p sha) (fun a v => fBytes a ++ fBytes v) y.acc (bs.map (·.hash hs))) := by
  have hp : 1 < p := lt_of_lt_of_le (by norm_num) h.large
  obtain ⟨f, rfl⟩ := (run_iff h _ cv n as z z').1 hrun
  obtain ⟨g, rfl⟩ := (run_iff h _ cv m bs y y').1 hrun'
  rw [run_acc, run_acc] at he
  exact C31_sha_accumulator hp sha _ _ _ _ (by simpa using hl) he

/-- **C72** (value, Poseidon client): the final accumulator is the starting one, compressed with the hash of each
block in turn, the accumulator on the left. -/
theorem C72_poseidon_value (h : FieldOk p) (hs : Hashes p) (cv : Curve p q G) (n : Nat)
    (z z' : UState p) (as : List (UserAuxVar p G)) (hrun : Client.runSteps (poseidonParams hs) cv n z as z') :
    z'.acc = (as.map fun a => hs.crh (blockEncVar a.block)).foldl (fun acc b => hs.h2 acc b) z.acc := by
  obtain ⟨f, rfl⟩ := (run_iff h _ cv n as z z').1 hrun
  rw [run_acc]; rfl

/-- **C72** (value, SHA-256 client): the final accumulator is what the native accumulator computes from the starting
one and the hashes of the blocks. -/
theorem C72_sha_value (h : FieldOk p) (hp : 249 ≤ Circuit.modBits p) (hs : Hashes p) (sha : Sha) (cv : Curve p q G)
    (n : Nat) (z z' : UState p) (as : List (UserAuxVar p G))
    (hrun : Client.runSteps (shaParams hs sha) cv n z as z') :
    z'.acc = (as.map fun a => hs.crh (blockEncVar a.block)).foldl (shaAccNative sha) z.acc := by
  obtain ⟨f, rfl⟩ := (run_iff h _ cv n as z z').1 hrun
  rw [run_acc]
  have hp1 : 1 < p := lt_of_lt_of_le (by norm_num) h.large
  have e : (shaAccVar sha : ZMod p → ZMod p → ZMod p) = shaAccNative sha := by
    funext a v; exact (C32_gadgets_compute_native_bytes (by omega) sha).2.2.2 hp a v
  rw [← e]; rfl

/-- **C72** (Poseidon client): a break of the accumulator is a collision of the two-to-one hash. -/
theorem C72_poseidon (h : FieldOk p) (hs : Hashes p) (cv : Curve p q G) (n m : Nat)
    (z z' y y' : UState p) (as bs : List (UserAuxVar p G))
    (hrun : Client.runSteps (poseidonParams hs) cv n z as z')
    (hrun' : Client.runSteps (poseidonParams hs) cv m y bs y') (hl : as.length = bs.length)
    (he : z'.acc = y'.acc) :
    (z.acc = y.acc ∧ as.map (·.hash hs) = bs.map (·.hash hs)) ∨
    TranscriptCollision (fun x : ZMod p × ZMod p => hs.h2 x.1 x.2)
      (chainInputs (fun x => hs.h2 x.1 x.2) Prod.mk z.acc (as.map (·.hash hs)))
      (chainInputs (fun x => hs.h2 x.1 x.2) Prod.mk y.acc (bs.map (·.hash hs))) :=
  C72_accumulator h (poseidonParams hs) cv n m z z' y y' as bs hrun hrun' hl he

/-- **C72** (blocks): equal block hashes are equal blocks, up to the parts a block hash covers (roots and
height), or the sponge hash collides on the two blocks. -/
theorem C72_blocks (hs : Hashes p) (a b : UserAuxVar p G) (he : a.hash hs = b.hash hs) :
    a.block = b.block ∨ Collides hs.crh (blockEncVar a.block) (blockEncVar b.block) := by
  by_cases e : blockEncVar a.block = blockEncVar b.block
  · left
    cases ha : a.block with
    | mk u t s ht =>
      cases hb : b.block with
      | mk u' t' s' ht' =>
        rw [ha, hb] at e
        simp only [blockEncVar, List.cons.injEq] at e
        obtain ⟨rfl, rfl, rfl, rfl, _⟩ := e
        rfl
  · right; exact ⟨e, he⟩

/-! ## C73 -/

theorem sum_over_keys (S : Finset G) (us : List (UTXO (ZMod p) G)) (hS : ∀ u ∈ us, u.pk ∈ S) :
    ∑ k ∈ S, ((us.filter fun u => u.pk = k).map (·.amount)).sum = (us.map (·.amount)).sum := by
  induction us with
  | nil => simp
  | cons u us ih =>
    have ih := ih fun v hv => hS v (by simp [hv])
    have hk : ∀ k, (((u :: us).filter fun u => u.pk = k).map (·.amount)).sum =
        (if u.pk = k then u.amount else 0) + ((us.filter fun u => u.pk = k).map (·.amount)).sum := by
      intro k
      by_cases h : u.pk = k <;> simp [List.filter_cons, h]
    simp only [hk, Finset.sum_add_distrib, ih, List.map_cons, List.sum_cons]
    rw [Finset.sum_ite_eq S u.pk]
    simp [hS u (by simp)]

theorem select_sum_clean (us : List (UTXO (ZMod p) G)) (hc : ∀ u ∈ us, u.isDummy = true → u.amount = 0)
    (b : ZMod p) :
    us.foldl (fun s i => s + select i.isDummy 0 i.amount) b = b + (us.map (·.amount)).sum ∧
    us.foldl (fun s i => s - select i.isDummy 0 i.amount) b = b - (us.map (·.amount)).sum := by
  induction us generalizing b with
  | nil => simp
  | cons u us ih =>
    have ih := ih fun v hv => hc v (by simp [hv])
    have hu : select u.isDummy (0 : ZMod p) u.amount = u.amount := by
      unfold select
      cases hd : u.isDummy with
      | true => simp [hc u (by simp) hd]
      | false => simp
    simp only [List.foldl_cons, hu, (ih _).1, (ih _).2, List.map_cons, List.sum_cons]
    constructor <;> ring

/-- **C73**: for a transaction accepted as valid (for whatever sender) whose dummies carry no amount, the
balance changes of all users sum to zero: over any finite set of keys that contains all keys of the
transaction. -/
theorem C73_deltas_sum_to_zero (t : Tx (ZMod p) G) (sender : G) (hv : t.enforceValid sender) (hc : Clean t)
    (S : Finset G) (hS : ∀ u ∈ t.ios, u.pk ∈ S) :
    ∑ k ∈ S, (received k t - spent k t) = 0 := by
  rw [Finset.sum_sub_distrib]
  unfold received spent
  rw [sum_over_keys S _ fun u hu => hS u (by simp [Tx.ios] at hu ⊢; tauto),
    sum_over_keys S _ fun u hu => hS u (by simp [Tx.ios] at hu ⊢; tauto)]
  have h0 := hv.2
  simp only at h0
  rw [(select_sum_clean _ (fun u hu => hc u (by simp [Tx.ios] at hu ⊢; tauto)) _).1,
    (select_sum_clean _ (fun u hu => hc u (by simp [Tx.ios] at hu ⊢; tauto)) _).2] at h0
  have : (t.inputs.toList.map (·.amount)).sum = (t.outputs.toList.map (·.amount)).sum := by
    have := sub_eq_zero.1 h0
    simpa using this
  rw [this]; ring

end PF.Props
