import Verif.Proof.Data
import Verif.Props.SparseMTGadget
import Mathlib.Algebra.Module.ZMod

/-!
# Properties C17–C24, C33: encodings, transaction validity, user bookkeeping
-/

namespace PF.Props
open PF PF.Circuit
variable {G : Type} {p q : Nat}

/-! ## A toy curve for the non-vacuity examples -/

/-- Group of order 7 with coordinates in the field of 101 elements. -/
def toyCurve : Curve 101 7 (ZMod 7) :=
  { gen := 1
    gen_ne := by decide
    xy := fun P => if P = 0 then none else some ((P.val : ZMod 101), 1)
    xy_none := by decide
    xy_inj := by decide }

/-- A transaction: 1 spends 5 + 3, pays 6 to key 2 and 2 back to itself. -/
def toyTx : Tx Nat (ZMod 7) :=
  { inputs := #v[UTXO.new 1 5, UTXO.dummy, UTXO.new 1 3, UTXO.dummy]
    outputs := #v[UTXO.new 2 6, UTXO.new 1 2, UTXO.dummy, UTXO.dummy] }

section enc
variable [AddCommGroup G] [Module (ZMod q) G]

/-! ## C17 -/

/-- C17: transactions with the same field encoding are equal, if amounts are below the modulus. -/
theorem C17_tx_encoding_injective (cv : Curve p q G) (hp : 1 < p) (t t' : Tx Nat G)
    (ht : ∀ u ∈ t.ios, u.amount < p) (ht' : ∀ u ∈ t'.ios, u.amount < p)
    (h : txEnc cv t = txEnc cv t') : t = t' :=
  Tx.ext_ios (flatMap_inj (utxoEnc cv) 5 (utxoEnc_length cv) _ _ (by simp [Tx.ios_length])
    (fun a ha b hb => utxoEnc_inj cv hp (ht a ha) (ht' b hb)) h)

/-- C17: in-circuit transactions with the same encoding are equal, with no range condition. -/
theorem C17_tx_var_encoding_injective (cv : Curve p q G) (hp : 1 < p) (t t' : Tx (ZMod p) G)
    (h : txEncVar cv t = txEncVar cv t') : t = t' :=
  Tx.ext_ios (flatMap_inj (utxoEncVar cv) 5 (utxoEncVar_length cv) _ _ (by simp [Tx.ios_length])
    (fun _ _ _ _ => utxoEncVar_inj cv hp) h)

/-- C17: the in-circuit encoding of an allocated transaction is the native encoding (40 elements). -/
theorem C17_circuit_encoding_eq (cv : Curve p q G) (t : Tx Nat G) :
    txEncVar cv (t.alloc p) = txEnc cv t ∧ (txEnc cv t).length = 40 := by
  constructor
  · unfold txEncVar txEnc
    rw [Tx.ios_alloc, List.flatMap_map]
    congr 1; funext u; exact utxoEncVar_alloc cv u
  · unfold txEnc
    rw [List.length_flatMap]
    have : (t.ios.map fun u => (utxoEnc cv u).length) = List.replicate t.ios.length 5 := by
      rw [List.eq_replicate_iff]; simp [utxoEnc_length]
    rw [this, Tx.ios_length]; rfl

/-- C17: the signed message (encoding followed by the block's transaction root) determines both the
transaction and the root. -/
theorem C17_signed_message_injective (cv : Curve p q G) (hp : 1 < p) (t t' : Tx Nat G)
    (r r' : ZMod p) (ht : ∀ u ∈ t.ios, u.amount < p) (ht' : ∀ u ∈ t'.ios, u.amount < p)
    (h : txEnc cv t ++ [r] = txEnc cv t' ++ [r']) : t = t' ∧ r = r' := by
  obtain ⟨h1, h2⟩ := List.append_inj h
    (by rw [(C17_circuit_encoding_eq cv t).2, (C17_circuit_encoding_eq cv t').2])
  exact ⟨C17_tx_encoding_injective cv hp t t' ht ht' h1, by simpa using h2⟩

example : (1 : Nat) < 101 ∧ (∀ u ∈ toyTx.ios, u.amount < 101) ∧
    txEnc toyCurve toyTx ≠ txEnc toyCurve Tx.default := by decide

/-! ## C18 -/

/-- C18: equal digests of different objects are collisions of the sponge, for every hashed object.
(`BlockCRH` only determines its four committed fields.) -/
theorem C18_digests_bind (cv : Curve p q G) (hp : 1 < p) (H : List (ZMod p) → ZMod p) :
    (∀ u v : UTXO Nat G, u.amount < p → v.amount < p → utxoCRH cv H u = utxoCRH cv H v →
      u = v ∨ Collides H (utxoEnc cv u) (utxoEnc cv v)) ∧
    (∀ P Q : G, pkCRH cv H P = pkCRH cv H Q → P = Q ∨ Collides H (pkEnc cv P) (pkEnc cv Q)) ∧
    (∀ n m : Nat, n < p → m < p → nonceCRH H n = nonceCRH H m →
      n = m ∨ Collides H [(n : ZMod p)] [(m : ZMod p)]) ∧
    (∀ t t' : Tx Nat G, (∀ u ∈ t.ios, u.amount < p) → (∀ u ∈ t'.ios, u.amount < p) →
      txCRH cv H t = txCRH cv H t' → t = t' ∨ Collides H (txEnc cv t) (txEnc cv t')) ∧
    (∀ b b' : Block (ZMod p), b.height < p → b'.height < p → blockCRH H b = blockCRH H b' →
      (b.utxoRoot = b'.utxoRoot ∧ b.txRoot = b'.txRoot ∧ b.signerRoot = b'.signerRoot ∧
        b.height = b'.height) ∨ Collides H (blockEnc b) (blockEnc b')) := by
  refine ⟨?_, ?_, ?_, ?_, ?_⟩
  · intro u v hu hv h
    by_cases e : utxoEnc cv u = utxoEnc cv v
    · exact .inl (utxoEnc_inj cv hp hu hv e)
    · exact .inr ⟨e, h⟩
  · intro P Q h
    by_cases e : pkEnc cv P = pkEnc cv Q
    · exact .inl (pkEnc_inj cv hp e)
    · exact .inr ⟨e, h⟩
  · intro n m hn hm h
    by_cases e : [(n : ZMod p)] = [(m : ZMod p)]
    · exact .inl (natCast_inj_of_lt hn hm (by simpa using e))
    · exact .inr ⟨e, h⟩
  · intro t t' ht ht' h
    by_cases e : txEnc cv t = txEnc cv t'
    · exact .inl (C17_tx_encoding_injective cv hp t t' ht ht' e)
    · exact .inr ⟨e, h⟩
  · intro b b' hb hb' h
    by_cases e : blockEnc b = blockEnc b'
    · simp only [blockEnc, List.cons.injEq, and_true] at e
      exact .inl ⟨e.1, e.2.1, e.2.2.1, natCast_inj_of_lt hb hb' e.2.2.2⟩
    · exact .inr ⟨e, h⟩

/-- C18: each gadget computes the native digest of the allocated object. -/
theorem C18_gadgets_agree (cv : Curve p q G) (H : List (ZMod p) → ZMod p) :
    (∀ u : UTXO Nat G, utxoVarCRH cv H (u.alloc p) = utxoCRH cv H u) ∧
    (∀ P : G, pkVarCRH cv H P = pkCRH cv H P) ∧
    (∀ n : Nat, n < U64 → nonceVarCRH H (natBits 64 n) = nonceCRH H n) ∧
    (∀ t : Tx Nat G, txVarCRH cv H (t.alloc p) = txCRH cv H t) ∧
    (∀ b : Block (ZMod p), blockVarCRH H b.alloc = blockCRH H b) := by
  refine ⟨?_, ?_, ?_, ?_, ?_⟩
  · intro u; simp [utxoVarCRH, utxoCRH, utxoEncVar_alloc]
  · intro P; simp [pkVarCRH, pkCRH, pkEncVar_eq]
  · intro n hn
    simp only [nonceVarCRH, nonceCRH]
    rw [bitsVal_natBits, Nat.mod_eq_of_lt (by simpa [U64] using hn)]
  · intro t; simp [txVarCRH, txCRH, (C17_circuit_encoding_eq cv t).1]
  · intro b; rfl

/-- C18: hence each gadget tree configuration is the counterpart of the native one, so the Merkle
gadget theorems C12–C16 apply to the UTXO, transaction and signer trees. -/
theorem C18_tree_configs (cv : Curve p q G) (hs : Hashes p) :
    GadgetOf (utxoTreeCfgVar cv hs) (utxoTreeCfg cv hs) (UTXO.alloc p) ∧
    GadgetOf (txTreeCfgVar cv hs) (txTreeCfg cv hs) (Tx.alloc p) ∧
    GadgetOf (signerTreeCfgVar cv hs) (signerTreeCfg cv hs) id :=
  ⟨⟨rfl, rfl, (C18_gadgets_agree cv hs.crh).1⟩,
   ⟨rfl, rfl, (C18_gadgets_agree cv hs.crh).2.2.2.1⟩,
   ⟨rfl, rfl, (C18_gadgets_agree cv hs.crh).2.1⟩⟩

/-- C18: the default leaves of the counterparts agree too, for the nonce tree as well (in the code gadget
trees have no default leaf; the model's configurations carry one). -/
theorem C18_tree_defaults (cv : Curve p q G) (hs : Hashes p) :
    (utxoTreeCfgVar cv hs).dflt = (utxoTreeCfg cv hs).dflt.alloc p ∧
    (txTreeCfgVar cv hs).dflt = (txTreeCfg cv hs).dflt.alloc p ∧
    (signerTreeCfgVar cv hs).dflt = (signerTreeCfg cv hs).dflt ∧
    (nonceTreeCfgVar hs).dflt = natBits 64 (nonceTreeCfg hs).dflt ∧
    (nonceTreeCfgVar hs).height = (nonceTreeCfg hs).height ∧
    (nonceTreeCfgVar hs).h2 = (nonceTreeCfg hs).h2 := by
  refine ⟨?_, ?_, rfl, (by decide : List.replicate 64 false = natBits 64 0), rfl, rfl⟩
  · simp [utxoTreeCfgVar, utxoTreeCfg, UTXO.dummy, UTXO.alloc]
  · show (Tx.default : Tx (ZMod p) G) = (Tx.default : Tx Nat G).alloc p
    apply Tx.ext_ios
    rw [Tx.ios_alloc]
    simp [Tx.ios, Tx.default, UTXO.dummy, UTXO.alloc]

/-- `BlockCRH` does not commit to signers, deposits and withdrawals. -/
theorem C18_block_digest_ignores_lists (H : List (ZMod p) → ZMod p) (b : Block (ZMod p))
    (s : List (Option Nat)) (d w : List (Nat × Nat)) :
    blockCRH H { b with signers := s, deposits := d, withdrawals := w } = blockCRH H b := rfl

example : (UTXO.new (1 : ZMod 7) 5).amount < 101 ∧
    utxoEnc toyCurve (UTXO.new 1 5) = [5, 0, 1, 1, 0] ∧ pkEnc toyCurve 0 = [0, 0, 1] := by decide

/-! ## C19 -/

omit [AddCommGroup G] in
/-- C19: what the by-value encoding determines, exactly: two transactions have the same one iff their
amounts and dummy flags agree position by position (so never the keys, see `C19_witness`). -/
theorem C19_by_value_encoding (hp : 1 < p) (t t' : Tx Nat G)
    (ht : ∀ u ∈ t.ios, u.amount < p) (ht' : ∀ u ∈ t'.ios, u.amount < p) :
    txEncByValue p t = txEncByValue p t' ↔
    t.ios.map (fun u => (u.amount, u.isDummy)) = t'.ios.map (fun u => (u.amount, u.isDummy)) := by
  refine ⟨fun h => ?_, fun h => ?_⟩
  swap
  · have e : ∀ t : Tx Nat G, txEncByValue p t =
        (t.ios.map (fun u => (u.amount, u.isDummy))).flatMap
          (fun x => [(x.1 : ZMod p), boolF x.2]) := by
      intro t; simp [txEncByValue, List.flatMap_map]
    rw [e, e, h]
  have : ∀ (xs ys : List (UTXO Nat G)), xs.length = ys.length →
      (∀ u ∈ xs, u.amount < p) → (∀ u ∈ ys, u.amount < p) →
      (xs.flatMap fun u => [(u.amount : ZMod p), boolF u.isDummy]) =
        (ys.flatMap fun u => [(u.amount : ZMod p), boolF u.isDummy]) →
      xs.map (fun u => (u.amount, u.isDummy)) = ys.map (fun u => (u.amount, u.isDummy)) := by
    intro xs
    induction xs with
    | nil => intro ys h; cases ys <;> simp_all
    | cons x xs ih =>
      intro ys hl hx hy h
      cases ys with
      | nil => simp at hl
      | cons y ys =>
        simp only [List.flatMap_cons, List.cons_append, List.nil_append, List.cons.injEq] at h
        simp only [List.map_cons, List.cons.injEq, Prod.mk.injEq]
        exact ⟨⟨natCast_inj_of_lt (hx x (by simp)) (hy y (by simp)) h.1, boolF_inj hp h.2.1⟩,
          ih ys (by simpa using hl) (fun u hu => hx u (by simp [hu]))
            (fun u hu => hy u (by simp [hu])) h.2.2⟩
  exact this _ _ (by simp [Tx.ios_length]) ht ht' h

omit [Module (ZMod q) G] in
/-- C19, the keys are lost: for every non-zero key there are two different transactions (paying the
same amount to two different keys) with the same by-value encoding, in every field. -/
theorem C19_witness (P : G) (hP : P ≠ 0) :
    ∃ t t' : Tx Nat G, t ≠ t' ∧ txEncByValue p t = txEncByValue p t' := by
  refine ⟨⟨#v[UTXO.new P 5, UTXO.dummy, UTXO.dummy, UTXO.dummy],
      #v[UTXO.new P 5, UTXO.dummy, UTXO.dummy, UTXO.dummy]⟩,
    ⟨#v[UTXO.new P 5, UTXO.dummy, UTXO.dummy, UTXO.dummy],
      #v[UTXO.new 0 5, UTXO.dummy, UTXO.dummy, UTXO.dummy]⟩, ?_, rfl⟩
  intro h
  have := congrArg (fun t : Tx Nat G => t.outputs[0].pk) h
  exact hP this

example : (1 : ZMod 7) ≠ 0 ∧ (∀ u ∈ toyTx.ios, u.amount < 101) := by decide

end enc

/-! ## C20 -/

section valid
variable [DecidableEq G]

/-- C20: exact decision made by `is_valid`, in both builds, for every transaction and sender:
ownership first, then the comparison of the two sums (which panics in debug and wraps in release when
a sum does not fit in `u64`). -/
theorem C20_is_valid_decision (b : Build) (t : Tx Nat G) (s : G) :
    t.isValid b (some s) =
      if ¬ OwnedBy s t.inputs.toList then .err .invalidPublicKey
      else if totalOf t.inputs.toList < U64 ∧ totalOf t.outputs.toList < U64 then
        (if totalOf t.inputs.toList = totalOf t.outputs.toList then .ok () else .err .invalidAmounts)
      else match b with
        | .debug => .panic
        | .release => if totalOf t.inputs.toList % U64 = totalOf t.outputs.toList % U64 then .ok ()
            else .err .invalidAmounts := by
  have hany : ((nonDummy t.inputs.toList).any (fun u => decide (u.pk ≠ s)) = true) ↔
      ¬ OwnedBy s t.inputs.toList := by
    simp only [List.any_eq_true, nonDummy, List.mem_filter, OwnedBy, decide_eq_true_eq,
      Bool.not_eq_true']
    push Not
    constructor
    · rintro ⟨u, ⟨h1, h2⟩, h3⟩; exact ⟨u, h1, h2, h3⟩
    · rintro ⟨u, h1, h2, h3⟩; exact ⟨u, ⟨h1, h2⟩, h3⟩
  unfold Tx.isValid
  simp only [Option.getD_some]
  by_cases hown : OwnedBy s t.inputs.toList
  · rw [if_neg (by rw [hany]; simpa using hown), if_neg (by simpa using hown)]
    by_cases hi : totalOf t.inputs.toList < U64
    · rw [sumU64_ok b _ (by rw [sum_nonDummy]; exact hi), Outcome.bind_ok, sum_nonDummy]
      by_cases ho : totalOf t.outputs.toList < U64
      · rw [sumU64_ok b _ (by rw [sum_nonDummy]; exact ho), Outcome.bind_ok, sum_nonDummy]
        simp only [ne_eq, ite_not, hi, ho, and_self, if_true]
      · rw [if_neg (by tauto)]
        cases b
        · rw [sumU64_debug_panic _ (by rw [sum_nonDummy]; exact ho)]; rfl
        · rw [sumU64_release, Outcome.bind_ok, sum_nonDummy, Nat.mod_eq_of_lt hi]
          simp only [ne_eq, ite_not]
    · rw [if_neg (by tauto)]
      cases b
      · rw [sumU64_debug_panic _ (by rw [sum_nonDummy]; exact hi)]; rfl
      · rw [sumU64_release, Outcome.bind_ok, sumU64_release, Outcome.bind_ok, sum_nonDummy,
          sum_nonDummy]
        simp only [ne_eq, ite_not]
  · rw [if_pos (by rw [hany]; exact hown), if_pos hown]

/-- C20: dummy UTXOs (their amounts and keys) never influence the result for an explicit sender. -/
theorem C20_dummies_irrelevant (b : Build) (t t' : Tx Nat G) (s : G)
    (hi : t.inputs.toList.filter (!·.isDummy) = t'.inputs.toList.filter (!·.isDummy))
    (ho : t.outputs.toList.filter (!·.isDummy) = t'.outputs.toList.filter (!·.isDummy)) :
    t.isValid b (some s) = t'.isValid b (some s) := by
  unfold Tx.isValid nonDummy
  rw [hi, ho]
  simp only [Option.getD_some]

/-- C20: without an explicit sender the key of the first input is used, even if that input is a
dummy. -/
theorem C20_default_sender (b : Build) (t : Tx Nat G) :
    t.isValid b none = t.isValid b (some t.inputs[0].pk) := rfl

example : toyTx.isValid .debug (some 1) = .ok () ∧
    toyTx.isValid .debug (some 2) = .err .invalidPublicKey ∧
    ({ toyTx with outputs := #v[UTXO.new 2 6, UTXO.dummy, UTXO.dummy, UTXO.dummy] }
      : Tx Nat (ZMod 7)).isValid .debug (some 1) = .err .invalidAmounts ∧
    ({ toyTx with inputs := #v[UTXO.new 1 5, ⟨77, 3, true⟩, UTXO.new 1 3, UTXO.dummy] }
      : Tx Nat (ZMod 7)).isValid .debug (some 1) = .ok () := by decide

/-! ## C21 -/

/-- C21: a transaction accepted by `is_valid` has equal totals modulo 2^64, in every build, and equal
totals over the naturals in debug builds without condition and in release builds when the totals fit in
`u64`. The condition is needed: `C21_witness`. -/
theorem C21_conservation (b : Build) (t : Tx Nat G) (s : Option G) (h : t.isValid b s = .ok ()) :
    totalOf t.inputs.toList % 2 ^ 64 = totalOf t.outputs.toList % 2 ^ 64 ∧
    (b = .debug ∨ (totalOf t.inputs.toList < U64 ∧ totalOf t.outputs.toList < U64) →
      totalOf t.inputs.toList = totalOf t.outputs.toList) := by
  have h' : t.isValid b (some (s.getD t.inputs[0].pk)) = .ok () := by
    cases s <;> exact h
  rw [C20_is_valid_decision] at h'
  by_cases h1 : OwnedBy (s.getD t.inputs[0].pk) t.inputs.toList
  · rw [if_neg (by simpa using h1)] at h'
    by_cases h2 : totalOf t.inputs.toList < U64 ∧ totalOf t.outputs.toList < U64
    · rw [if_pos h2] at h'
      split_ifs at h' with h3
      exact ⟨by rw [h3], fun _ => h3⟩
    · rw [if_neg h2] at h'
      cases b with
      | debug => simp at h'
      | release =>
        simp only at h'
        split_ifs at h' with h3
        exact ⟨h3, fun hb => by rcases hb with hb | hb <;> [cases hb; exact absurd hb h2]⟩
  · rw [if_pos h1] at h'; cases h'

omit [DecidableEq G] in
/-- C21, release builds: for every owner key there is a transaction with `u64` amounts that
`is_valid` accepts although it pays out more than it consumes: it consumes nothing and pays 2^64. -/
theorem C21_witness [Zero G] [DecidableEq G] (s : G) :
    ∃ t : Tx Nat G, t.U64Amounts ∧ t.isValid .release (some s) = .ok () ∧
      totalOf t.inputs.toList = 0 ∧ totalOf t.outputs.toList = 2 ^ 64 := by
  refine ⟨⟨#v[UTXO.dummy, UTXO.dummy, UTXO.dummy, UTXO.dummy],
    #v[UTXO.new s (2 ^ 63), UTXO.new s (2 ^ 63), UTXO.dummy, UTXO.dummy]⟩, ?_, ?_, ?_, ?_⟩
  · intro u hu
    simp [Tx.ios] at hu
    rcases hu with rfl | rfl | rfl <;> simp [UTXO.dummy, UTXO.new, U64]
  · rw [C20_is_valid_decision]
    simp [OwnedBy, totalOf, UTXO.dummy, UTXO.new, U64]
  · simp [totalOf, UTXO.dummy]
  · simp [totalOf, UTXO.dummy, UTXO.new]

example : toyTx.isValid .debug (some 1) = .ok () ∧
    totalOf toyTx.inputs.toList = 8 ∧ totalOf toyTx.outputs.toList = 8 := by decide

/-! ## C23, C22 -/

omit [DecidableEq G] in
/-- C23: with 64-bit amounts and a field larger than 2^66, `enforce_valid` is exactly: every non-dummy
input belongs to the sender and the totals are equal over the naturals. -/
theorem C23_enforce_valid_iff (hp : 2 ^ 66 < p) (t : Tx (ZMod p) G) (s : G)
    (hi : ∀ u ∈ t.inputs.toList, u.isDummy = false → u.amount.val < 2 ^ 64)
    (ho : ∀ u ∈ t.outputs.toList, u.isDummy = false → u.amount.val < 2 ^ 64) :
    t.enforceValid s ↔ OwnedBy s t.inputs.toList ∧
      totalVal t.inputs.toList = totalVal t.outputs.toList := by
  have hNZ : NeZero p := ⟨by omega⟩
  rw [enforceValid_iff]
  have hb : ∀ v : Vector (UTXO (ZMod p) G) TX_IO_SIZE,
      (∀ u ∈ v.toList, u.isDummy = false → u.amount.val < 2 ^ 64) → totalVal v.toList < p := by
    intro v hv
    have := totalVal_lt v.toList (2 ^ 64) (by norm_num)
      (by intro h; have := congrArg List.length h; simp [TX_IO_SIZE] at this) hv
    simp [TX_IO_SIZE] at this
    omega
  constructor
  · rintro ⟨h1, h2⟩; exact ⟨h1, natCast_inj_of_lt (hb _ hi) (hb _ ho) h2⟩
  · rintro ⟨h1, h2⟩; exact ⟨h1, by rw [h2]⟩

omit [DecidableEq G] in
/-- C23: the range condition is needed. In every field, without it `enforce_valid` accepts a
transaction that consumes nothing and pays 1 together with a "negative" amount. -/
theorem C23_range_needed (hp : 1 < p) [Zero G] (s : G) :
    ∃ t : Tx (ZMod p) G, t.enforceValid s ∧
      totalVal t.inputs.toList = 0 ∧ totalVal t.outputs.toList = p := by
  have hNZ : NeZero p := ⟨by omega⟩
  have hF : Fact (1 < p) := ⟨hp⟩
  have hv : ((p - 1 : Nat) : ZMod p).val = p - 1 := ZMod.val_natCast_of_lt (by omega)
  refine ⟨⟨#v[UTXO.dummy, UTXO.dummy, UTXO.dummy, UTXO.dummy],
    #v[UTXO.new s 1, UTXO.new s ((p - 1 : Nat) : ZMod p), UTXO.dummy, UTXO.dummy]⟩, ?_, ?_, ?_⟩
  · rw [enforceValid_iff]
    refine ⟨by simp [UTXO.dummy], ?_⟩
    have : ((1 + (p - 1) : Nat) : ZMod p) = 0 := by
      rw [show 1 + (p - 1) = p by omega]; simp
    simp [totalVal, UTXO.dummy, UTXO.new, ZMod.val_one, hv]
    exact_mod_cast this.symm
  · simp [totalVal, UTXO.dummy]
  · simp [totalVal, UTXO.dummy, UTXO.new, ZMod.val_one, hv]; omega

/-- C22: on an allocated native transaction whose sums fit in `u64`, the circuit check is satisfiable
exactly when `is_valid` succeeds. -/
theorem C22_circuit_validity_iff_native (hp : 2 ^ 66 < p) (b : Build) (t : Tx Nat G) (s : G)
    (hi : totalOf t.inputs.toList < U64) (ho : totalOf t.outputs.toList < U64) :
    (t.alloc p).enforceValid s ↔ t.isValid b (some s) = .ok () := by
  have hU : U64 = 2 ^ 64 := rfl
  have hNZ : NeZero p := ⟨by omega⟩
  have hlt : ∀ (us : List (UTXO Nat G)), totalOf us < U64 →
      ∀ u ∈ us, u.isDummy = false → u.amount < p :=
    fun us h u hu hd => by have := amount_le_totalOf hu hd; omega
  rw [enforceValid_iff, C20_is_valid_decision]
  simp only [Tx.alloc, toList_vmap]
  rw [totalVal_alloc _ (hlt _ hi), totalVal_alloc _ (hlt _ ho), if_pos (⟨hi, ho⟩ : _ ∧ _)]
  have hown : (∀ i ∈ t.inputs.toList.map (UTXO.alloc p), i.isDummy = false → i.pk = s) ↔
      OwnedBy s t.inputs.toList := by
    simp [OwnedBy, UTXO.alloc]
  rw [hown]
  constructor
  · rintro ⟨h1, h2⟩
    rw [if_neg (by simpa using h1), if_pos (natCast_inj_of_lt (by omega) (by omega) h2)]
  · intro h
    split_ifs at h with h1 h2
    exact ⟨by simpa using h1, by rw [h2]⟩

/-- C22, without the condition on the sums: for 64-bit amounts the circuit accepts exactly the
transactions whose real inputs belong to the sender and whose totals agree over the naturals. A debug
build accepts only such transactions (it panics when a sum overflows), a release build accepts all of
them, and further ones only when a total overflows `u64`. -/
theorem C22_circuit_validity_exact (hp : 2 ^ 66 < p) (t : Tx Nat G) (s : G) (hu : t.U64Amounts) :
    ((t.alloc p).enforceValid s ↔ OwnedBy s t.inputs.toList ∧
      totalOf t.inputs.toList = totalOf t.outputs.toList) ∧
    (t.isValid .debug (some s) = .ok () → (t.alloc p).enforceValid s) ∧
    ((t.alloc p).enforceValid s → t.isValid .release (some s) = .ok ()) ∧
    (t.isValid .release (some s) = .ok () → ¬ (t.alloc p).enforceValid s →
      U64 ≤ totalOf t.inputs.toList ∨ U64 ≤ totalOf t.outputs.toList) := by
  have key : (t.alloc p).enforceValid s ↔ OwnedBy s t.inputs.toList ∧
      totalOf t.inputs.toList = totalOf t.outputs.toList := by
    have hU : U64 = 2 ^ 64 := rfl
    have hNZ : NeZero p := ⟨by omega⟩
    have hin : ∀ u ∈ t.inputs.toList, u.amount < U64 := fun u h => hu u (by simp [Tx.ios, h])
    have hou : ∀ u ∈ t.outputs.toList, u.amount < U64 := fun u h => hu u (by simp [Tx.ios, h])
    have hval : ∀ u : UTXO Nat G, u.amount < U64 → (u.alloc p).amount.val = u.amount := fun u h => by
      simp only [UTXO.alloc, ZMod.val_natCast]
      exact Nat.mod_eq_of_lt (by omega)
    rw [C23_enforce_valid_iff hp]
    · simp only [Tx.alloc, toList_vmap]
      rw [totalVal_alloc _ (fun u h _ => by have := hin u h; omega),
        totalVal_alloc _ (fun u h _ => by have := hou u h; omega)]
      have hown : OwnedBy s (t.inputs.toList.map (UTXO.alloc p)) ↔ OwnedBy s t.inputs.toList := by
        simp [OwnedBy, UTXO.alloc]
      rw [hown]
    · intro u h _
      simp only [Tx.alloc, toList_vmap, List.mem_map] at h
      obtain ⟨v, hv, rfl⟩ := h
      rw [hval v (hin v hv)]; exact hin v hv
    · intro u h _
      simp only [Tx.alloc, toList_vmap, List.mem_map] at h
      obtain ⟨v, hv, rfl⟩ := h
      rw [hval v (hou v hv)]; exact hou v hv
  have hd := C20_is_valid_decision .debug t s
  have hr := C20_is_valid_decision .release t s
  rw [key, hd, hr]
  refine ⟨Iff.rfl, ?_, ?_, ?_⟩
  · by_cases ho : OwnedBy s t.inputs.toList <;> simp only [ho, not_true, not_false_iff, if_true, if_false]
    · split
      · split <;> simp_all
      · simp
    · simp
  · rintro ⟨ho, he⟩
    simp only [ho, not_true, if_false, he]
    split <;> simp
  · by_cases ho : OwnedBy s t.inputs.toList <;> simp only [ho, not_true, not_false_iff, if_true, if_false]
    · split
      · split <;> simp_all
      · intro _ _; omega
    · simp

example : (2 : Nat) ^ 66 < 2 ^ 127 - 1 ∧ totalOf toyTx.inputs.toList < U64 ∧
    totalOf toyTx.outputs.toList < U64 ∧ toyTx.isValid .release (some 1) = .ok () ∧
    toyTx.isValid .release (some 2) ≠ .ok () := by decide

/-! ## C24 -/

omit [DecidableEq G] in
/-- C24: for every transaction accepted by `enforce_valid`, the extracted signer is the sender if some
input is not a dummy, and the default (identity) key if all are. -/
theorem C24_get_signer [Zero G] (t : Tx (ZMod p) G) (s : G) (h : t.enforceValid s) :
    ((∃ u ∈ t.inputs.toList, u.isDummy = false) → t.getSigner = s) ∧
    ((∀ u ∈ t.inputs.toList, u.isDummy = true) → t.getSigner = 0) := by
  have h1 : ∀ i ∈ t.inputs.toList, i.isDummy = false → i.pk = s := by
    intro i hi hd
    exact h.1 i hi (by simp [hd])
  unfold Tx.getSigner
  rw [getSigner_fold _ s _ h1]
  constructor
  · intro he; rw [if_pos he]
  · intro ha
    rw [if_neg]
    rintro ⟨u, hu, hd⟩
    rw [ha u hu] at hd; cases hd

omit [DecidableEq G] in
/-- C24 (without `enforce_valid`): the signer is the owner of the last non-dummy input. -/
theorem C24_last_non_dummy {A : Type} [Zero G] (t : Tx A G) :
    t.getSigner = ((t.inputs.toList.filter (!·.isDummy)).getLast?.map (·.pk)).getD 0 := by
  unfold Tx.getSigner
  generalize t.inputs.toList = us
  have : ∀ (us : List (UTXO A G)) (a : G),
      us.foldl (fun pk i => select i.isDummy pk i.pk) a =
        ((us.filter (!·.isDummy)).getLast?.map (·.pk)).getD a := by
    intro us
    induction us with
    | nil => intro a; rfl
    | cons u us ih =>
      intro a
      rw [List.foldl_cons, ih]
      cases hd : u.isDummy
      · simp only [select, hd, Bool.not_false, List.filter_cons_of_pos, Bool.false_eq_true,
          if_false]
        rw [List.getLast?_cons]
        cases (us.filter (!·.isDummy)).getLast? <;> simp
      · simp [select, hd]
  exact this us 0

example : (toyTx.alloc 101).getSigner = 1 ∧ (Tx.default : Tx (ZMod 101) (ZMod 7)).getSigner = 0 ∧
    (∃ u ∈ (toyTx.alloc 101).inputs.toList, u.isDummy = false) := by decide

example : (toyTx.alloc 101).enforceValid 1 := by
  unfold Tx.enforceValid condEq; decide

end valid

/-! ## C33 -/

section user
variable {S : Type} [DecidableEq G]

/-- Wallet operations. -/
inductive UserOp (G : Type) where
  | spend (t : Tx Nat G)
  | receive (t : Tx Nat G)

/-- A sequence of wallet operations; stops at a panic. -/
def runUser (b : Build) : User S G → List (UserOp G) → Outcome Unit (User S G)
  | u, [] => .ok u
  | u, .spend t :: ops => do let u' ← u.spend b t; runUser b u' ops
  | u, .receive t :: ops => do let u' ← u.receive b t; runUser b u' ops

/-- Amount of `pk` consumed by the operation. -/
def UserOp.out (pk : G) : UserOp G → Nat
  | .spend t => totalOwned pk t.inputs.toList
  | .receive _ => 0
/-- Amount of `pk` created by the operation. -/
def UserOp.inc (pk : G) : UserOp G → Nat
  | .spend _ => 0
  | .receive t => totalOwned pk t.outputs.toList
/-- 1 for a spend. -/
def UserOp.spends : UserOp G → Nat
  | .spend _ => 1
  | .receive _ => 0

theorem out_spend (pk : G) (t : Tx Nat G) :
    (UserOp.spend t).out pk = totalOwned pk t.inputs.toList := rfl
theorem inc_receive (pk : G) (t : Tx Nat G) :
    (UserOp.receive t).inc pk = totalOwned pk t.outputs.toList := rfl
theorem inc_spend (pk : G) (t : Tx Nat G) : (UserOp.spend t).inc pk = 0 := rfl
theorem out_receive (pk : G) (t : Tx Nat G) : (UserOp.receive t).out pk = 0 := rfl
omit [DecidableEq G] in
theorem spends_spend (t : Tx Nat G) : (UserOp.spend t).spends = 1 := rfl
omit [DecidableEq G] in
theorem spends_receive (t : Tx Nat G) : (UserOp.receive t).spends = 0 := rfl

/-- The caller's obligation: only spend own inputs and only `receive` transactions all of whose
outputs are for this user. -/
def UserOp.Proper (pk : G) : UserOp G → Prop
  | .spend t => OwnedBy pk t.inputs.toList
  | .receive t => OwnedBy pk t.outputs.toList

theorem totalOwned_of_owned (pk : G) (us : List (UTXO Nat G)) (h : OwnedBy pk us) :
    totalOwned pk us = totalOf us := by
  unfold totalOwned
  induction us with
  | nil => rfl
  | cons u us ih =>
    have ih := ih (fun v hv => h v (by simp [hv]))
    have hu := h u (by simp)
    rw [totalOf_cons, ← ih]
    by_cases hp : u.pk = pk
    · simp [hp, totalOf_cons]
    · cases hd : u.isDummy
      · exact absurd (hu hd) hp
      · simp [hp]

omit [DecidableEq G] in
theorem foldlM_sub_debug (us : List (UTXO Nat G)) (a r : Nat)
    (h : us.foldlM (fun bal x => (subU64 .debug bal x.amount : Outcome Unit Nat)) a = .ok r) :
    a = r + (us.map (·.amount)).sum := by
  induction us generalizing a with
  | nil => simp at h; subst h; simp
  | cons u us ih =>
    simp only [List.foldlM_cons] at h
    by_cases hx : u.amount ≤ a
    · rw [subU64_le _ hx, Outcome.bind_ok] at h
      have := ih _ h
      simp only [List.map_cons, List.sum_cons]; omega
    · rw [subU64_debug hx] at h; simp at h

omit [DecidableEq G] in
theorem foldlM_add_debug (us : List (UTXO Nat G)) (a r : Nat)
    (h : us.foldlM (fun bal x => (addU64 .debug bal x.amount : Outcome Unit Nat)) a = .ok r) :
    r = a + (us.map (·.amount)).sum := by
  induction us generalizing a with
  | nil => simp at h; subst h; simp
  | cons u us ih =>
    simp only [List.foldlM_cons] at h
    by_cases hx : a + u.amount < U64
    · rw [addU64_lt _ hx, Outcome.bind_ok] at h
      have := ih _ h
      simp only [List.map_cons, List.sum_cons]; omega
    · rw [addU64_debug hx] at h; simp at h

/-- C33: in debug builds, for histories in which every received transaction pays only this user (and
every spent one consumes only its own UTXOs), the balance is what the user owns: final balance +
consumed = initial balance + received; the nonce counts the spends; the identity is unchanged. For
arbitrary histories see `C33_exact_debug`, `C33_surplus`, `C33_exact_release` (Props/Wallet.lean). -/
theorem C33_bookkeeping (u u' : User S G) (ops : List (UserOp G))
    (hp : ∀ o ∈ ops, o.Proper u.pk) (h : runUser .debug u ops = .ok u') :
    u'.balance + (ops.map (·.out u.pk)).sum = u.balance + (ops.map (·.inc u.pk)).sum ∧
    u'.nonce = u.nonce + (ops.map (·.spends)).sum ∧ u'.pk = u.pk ∧ u'.sk = u.sk ∧ u'.id = u.id := by
  induction ops generalizing u with
  | nil => simp [runUser] at h; subst h; simp
  | cons o ops ih =>
    have hpo := hp o (by simp)
    cases o with
    | spend t =>
      simp only [runUser] at h
      rcases hs : u.spend .debug t with u1 | e | _
      · rw [hs, Outcome.bind_ok] at h
        unfold User.spend at hs
        rcases hb : (nonDummy t.inputs.toList).foldlM
            (fun bal x => (subU64 .debug bal x.amount : Outcome Unit Nat)) u.balance with bal | e | _
        · rw [hb, Outcome.bind_ok] at hs
          by_cases hn : u.nonce + 1 < U64
          · rw [addU64_lt _ hn, Outcome.bind_ok] at hs
            cases hs
            have hbal := foldlM_sub_debug _ _ _ hb
            rw [sum_nonDummy] at hbal
            have := ih { u with balance := bal, nonce := u.nonce + 1 }
              (fun o ho => hp o (by simp [ho])) h
            simp only [List.map_cons, List.sum_cons, out_spend, inc_spend, spends_spend]
            rw [totalOwned_of_owned _ _ hpo]
            simp only at this
            obtain ⟨h1, h2, h3⟩ := this
            refine ⟨by omega, by omega, h3⟩
          · rw [addU64_debug hn] at hs; simp at hs
        · rw [hb] at hs; simp at hs
        · rw [hb] at hs; simp at hs
      · rw [hs] at h; simp at h
      · rw [hs] at h; simp at h
    | receive t =>
      simp only [runUser] at h
      rcases hs : u.receive .debug t with u1 | e | _
      · rw [hs, Outcome.bind_ok] at h
        unfold User.receive at hs
        rcases hb : (nonDummy t.outputs.toList).foldlM
            (fun bal x => (addU64 .debug bal x.amount : Outcome Unit Nat)) u.balance with bal | e | _
        · rw [hb, Outcome.bind_ok] at hs
          cases hs
          have hbal := foldlM_add_debug _ _ _ hb
          rw [sum_nonDummy] at hbal
          have := ih { u with balance := bal } (fun o ho => hp o (by simp [ho])) h
          simp only [List.map_cons, List.sum_cons, out_receive, inc_receive, spends_receive]
          rw [totalOwned_of_owned _ _ hpo]
          simp only at this
          obtain ⟨h1, h2, h3⟩ := this
          refine ⟨by omega, by omega, h3⟩
        · rw [hb] at hs; simp at hs
        · rw [hb] at hs; simp at hs
      · rw [hs] at h; simp at h
      · rw [hs] at h; simp at h

/-- C33: the surplus occurs: a user that spends a valid transaction and receives its own change ends up
credited with the outputs paid to somebody else as well. -/
theorem C33_witness :
    ∃ u' : User Unit (ZMod 7), toyTx.isValid .debug (some 1) = .ok () ∧
      runUser .debug (⟨(), 1, 8, 0, 0⟩ : User Unit (ZMod 7)) [.spend toyTx, .receive toyTx] = .ok u' ∧
      u'.balance = 8 ∧ totalOwned 1 toyTx.outputs.toList = 2 :=
  ⟨⟨(), 1, 8, 1, 0⟩, by decide, rfl, rfl, by decide⟩

/-- Non-vacuity: a proper history. -/
example : ∃ u' : User Unit (ZMod 7),
    let rcv : Tx Nat (ZMod 7) := { Tx.default with
      outputs := #v[UTXO.new 1 9, UTXO.dummy, UTXO.dummy, UTXO.dummy] }
    (UserOp.receive rcv).Proper 1 ∧ (UserOp.spend toyTx).Proper 1 ∧
    runUser .debug (⟨(), 1, 0, 0, 0⟩ : User Unit (ZMod 7)) [.receive rcv, .spend toyTx] = .ok u' ∧
    u'.balance = 1 ∧ u'.nonce = 1 :=
  ⟨⟨(), 1, 1, 1, 0⟩, by unfold UserOp.Proper OwnedBy; decide, by unfold UserOp.Proper OwnedBy; decide,
    rfl, rfl, rfl⟩

end user

end PF.Props
