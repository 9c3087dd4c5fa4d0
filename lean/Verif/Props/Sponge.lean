import Verif.Proof.Sponge
import Verif.Props.Data
import Verif.Props.SparseMT

/-!
# C93: what the missing length padding of the sponge means for the hashes of the system

The Poseidon sponge absorbs its input without padding, a domain tag or a length. Inputs of different lengths may
therefore collide trivially; inputs of the same length collide only if the permutation is broken. All values
of one type are hashed as vectors of one length.
-/

set_option linter.unusedSectionVars false

namespace PF.Props
open PF PF.Spec PF.Sponge

section
variable {p q : Nat} {G : Type} [AddCommGroup G] [Module (ZMod q) G] {c r : Nat} [NeZero r]

/-- C93. What both Poseidon functions compute: blocks of `r` elements are added to the rate part with a permutation
after every block; the two-to-one function is the hash of the pair. -/
theorem C93_sponge (perm : St (ZMod p) c r → St (ZMod p) c r) (xs : List (ZMod p)) (a b : ZMod p) :
    (hashes perm).crh xs = (perm (spongeState perm xs (lastBlock r xs.length))).2 0 ∧
    (hashes perm).h2 a b = (hashes perm).crh [a, b] :=
  ⟨evaluate_eq perm xs, compress_eq perm a b⟩

/-- C93. Every value of one type is hashed as a vector of one length: keys 3, UTXOs 5, transactions 40, blocks 4. -/
theorem C93_lengths (cv : Curve p q G) (P : G) (u : UTXO Nat G) (t : Tx Nat G) (b : Block (ZMod p)) :
    (pkEnc cv P).length = 3 ∧ (utxoEnc cv u).length = 5 ∧ (txEnc cv t).length = 40 ∧ (blockEnc b).length = 4 := by
  refine ⟨?_, utxoEnc_length cv u, (C17_circuit_encoding_eq cv t).2, rfl⟩
  unfold pkEnc; split <;> rfl

/-- C93. Inputs of the same length with the same hash are equal, or the two computations break the permutation at
explicit points. -/
theorem C93_same_length_collision (perm : St (ZMod p) c r → St (ZMod p) c r) (xs ys : List (ZMod p))
    (hl : xs.length = ys.length) (h : (hashes perm).crh xs = (hashes perm).crh ys) :
    xs = ys ∨ SpongeBreak perm xs ys := collision_breaks perm xs ys hl h

/-- C93. Two transactions with the same hash are equal or break the permutation. -/
theorem C93_transactions (cv : Curve p q G) (hp : 1 < p) (perm : St (ZMod p) c r → St (ZMod p) c r)
    (t t' : Tx Nat G) (ht : ∀ u ∈ t.ios, u.amount < p) (ht' : ∀ u ∈ t'.ios, u.amount < p)
    (h : txCRH cv (hashes perm).crh t = txCRH cv (hashes perm).crh t') :
    t = t' ∨ SpongeBreak perm (txEnc cv t) (txEnc cv t') := by
  rcases C93_same_length_collision perm _ _ (by rw [(C93_lengths cv 0 UTXO.dummy t ⟨0, 0, 0, [], 0, [], []⟩).2.2.1,
    (C93_lengths cv 0 UTXO.dummy t' ⟨0, 0, 0, [], 0, [], []⟩).2.2.1]) h with h | h
  · exact .inl (C17_tx_encoding_injective cv hp t t' ht ht' h)
  · exact .inr h

/-- C93. Two UTXOs with the same leaf hash are equal or break the permutation. -/
theorem C93_utxos (cv : Curve p q G) (hp : 1 < p) (perm : St (ZMod p) c r → St (ZMod p) c r)
    (u u' : UTXO Nat G) (hu : u.amount < p) (hu' : u'.amount < p)
    (h : utxoCRH cv (hashes perm).crh u = utxoCRH cv (hashes perm).crh u') :
    u = u' ∨ SpongeBreak perm (utxoEnc cv u) (utxoEnc cv u') := by
  rcases C93_same_length_collision perm _ _ (by rw [utxoEnc_length, utxoEnc_length]) h with h | h
  · exact .inl (utxoEnc_inj cv hp hu hu' h)
  · exact .inr h

/-- C93, what is not protected: appending zeros within a block does not change the hash. -/
theorem C93_zeros_collide (perm : St (ZMod p) c r → St (ZMod p) c r) (xs : List (ZMod p)) (n : Nat)
    (h : lastBlock r (xs.length + n) = lastBlock r xs.length) :
    (hashes perm).crh (xs ++ List.replicate n 0) = (hashes perm).crh xs := by
  show evaluate perm _ = evaluate perm _
  rw [evaluate_eq, evaluate_eq, List.length_append, List.length_replicate, h]
  rw [spongeState_congr perm (xs ++ List.replicate n 0) xs _ fun i _ => ?_]
  simp only [List.getD_eq_getElem?_getD]
  by_cases hi : i < xs.length
  · rw [List.getElem?_append_left hi]
  · rw [List.getElem?_append_right (by omega), List.getElem?_eq_none (l := xs) (by omega)]
    by_cases hj : i - xs.length < n
    · rw [List.getElem?_replicate_of_lt hj]; rfl
    · rw [List.getElem?_eq_none (by simp; omega)]

/-- C93, what is not protected: with a rate of at least three the leaf hash of every key other than the identity is
the hash of the inner node with its coordinates as children, and the leaf hash of a nonce is that of the
node over the nonce and zero. Leaves and nodes are told apart only by their depth. -/
theorem C93_leaf_is_node (hr : 3 ≤ r) (cv : Curve p q G) (perm : St (ZMod p) c r → St (ZMod p) c r) (P : G)
    (x y : ZMod p) (h : cv.xy P = some (x, y)) (n : Nat) :
    pkCRH cv (hashes perm).crh P = (hashes perm).h2 x y ∧
    nonceCRH (hashes perm).crh n = (hashes perm).h2 (n : ZMod p) 0 := by
  have hb : ∀ k, k ≤ 3 → lastBlock r k = 0 := fun k hk => Nat.div_eq_of_lt (by omega)
  constructor
  · rw [(C93_sponge perm [] x y).2]
    unfold pkCRH pkEnc
    rw [h]
    exact C93_zeros_collide perm [x, y] 1 (by rw [hb _ (by simp), hb _ (by simp)])
  · rw [(C93_sponge perm [] (n : ZMod p) 0).2]
    exact (C93_zeros_collide perm [(n : ZMod p)] 1 (by rw [hb _ (by simp), hb _ (by simp)])).symm

end

/-- A permutation on states of three elements over `ZMod 7`. -/
def toyPerm (s : St (ZMod 7) 1 2) : St (ZMod 7) 1 2 :=
  (fun _ => s.1 0 + 2 * s.2 0 + 3 * s.2 1, fun j => if j = 0 then s.2 0 + s.2 1 + s.1 0 else s.2 0)

/-- Non-vacuity: different hashes, a pair whose second elements repair the collision of the first block, and
the collision that the break explains. -/
example : (hashes toyPerm).crh [1, 2, 3] ≠ (hashes toyPerm).crh [1, 2, 4] ∧
    (hashes toyPerm).crh [1, 2, 3] = (hashes toyPerm).crh [1, 2, 3, 0] ∧
    (hashes toyPerm).crh [1, 2, 3, 0] = (hashes toyPerm).crh [4, 0, 2, 4] ∧
    SpongeBreak toyPerm [1, 2, 3, 0] [4, 0, 2, 4] := by
  refine ⟨?_, ?_, ?_, .inl ⟨0, by decide, by decide, by decide⟩⟩
  · rw [(C93_sponge toyPerm _ 0 0).1, (C93_sponge toyPerm _ 0 0).1]; decide
  · exact (C93_zeros_collide toyPerm [1, 2, 3] 1 (by decide)).symm
  · rw [(C93_sponge toyPerm _ 0 0).1, (C93_sponge toyPerm _ 0 0).1]; decide

end PF.Props
