import Verif.Proof.CleanHash
import Verif.Props.AggregatorCircuitRuns
import Verif.Proof.AggregatorDemo
import Verif.Proof.AggregatorHonest

/-!
# A circuit run without collisions (for examples)

The contract (key `k0`) deposits 5 for `a`, `a` pays the 5 to `b` and `b` withdraws them. The leaf hash gives
different digests to the leaves of these trees and the challenge 1 to every signature; the compression hash
is that of `CleanHash`, so none of the three trees exhibits a collision.
-/
set_option linter.unusedSectionVars false

namespace PF.Clean
open PF PF.Spec PF.MT PF.AggC PF.Circuit PF.Contract PF.Agg
variable {p q : Nat} {G : Type} [AddCommGroup G] [Module (ZMod q) G] [DecidableEq G]

section
variable (cv : Curve p q G) (k0 a b : G)

def uA (p : Nat) (a : G) : UTXO (ZMod p) G := UTXO.new a 5
def tx0 (p : Nat) (k0 a : G) : Tx (ZMod p) G := ⟨#v[UTXO.new k0 5, UTXO.dummy, UTXO.dummy, UTXO.dummy],
  #v[UTXO.new a 5, UTXO.dummy, UTXO.dummy, UTXO.dummy]⟩

/-- The leaf hash. -/
def crh (l : List (ZMod p)) : ZMod p :=
  if l.length = 43 then 1
  else if l = utxoEncVar cv (uA p a) ∨ l = txEncVar cv (tx0 p k0 a) ∨ l = pkEncVar cv k0 then dig p 0 1
  else if l = utxoEncVar cv (uA p b) ∨ l = txEncVar cv (tx0 p a b) ∨ l = pkEncVar cv a then dig p 0 2
  else if l = txEncVar cv (tx0 p b k0) ∨ l = pkEncVar cv b then dig p 0 3
  else dig p 0 0

def hs : Hashes p := ⟨crh cv k0 a b, h2 p⟩

theorem txEncVar_len (t : Tx (ZMod p) G) : (txEncVar cv t).length = 40 := by
  unfold txEncVar
  simp [List.length_flatMap, utxoEncVar, pkEncVar, Tx.ios, TX_IO_SIZE]

theorem crh_utxo (hp : 1 < p) (u : UTXO (ZMod p) G) : crh cv k0 a b (utxoEncVar cv u) =
    if u = uA p a then dig p 0 1 else if u = uA p b then dig p 0 2 else dig p 0 0 := by
  have h1 : ∀ t : Tx (ZMod p) G, utxoEncVar cv u ≠ txEncVar cv t := fun t e => by
    have := congrArg List.length e
    rw [txEncVar_len, utxoEncVar_length] at this; omega
  have h2 : ∀ k, utxoEncVar cv u ≠ pkEncVar cv k := fun k e => by
    have := congrArg List.length e
    simp [utxoEncVar, pkEncVar] at this
  have h3 : ∀ v, utxoEncVar cv u = utxoEncVar cv v ↔ u = v :=
    fun v => ⟨fun e => utxoEncVar_inj cv hp e, fun e => by rw [e]⟩
  unfold crh
  rw [if_neg (by rw [utxoEncVar_length]; omega)]
  simp only [h1, h2, h3, or_false, or_self, if_false]

theorem crh_tx (hp : 1 < p) (t : Tx (ZMod p) G) : crh cv k0 a b (txEncVar cv t) =
    if t = tx0 p k0 a then dig p 0 1 else if t = tx0 p a b then dig p 0 2 else
      if t = tx0 p b k0 then dig p 0 3 else dig p 0 0 := by
  have h1 : ∀ u, txEncVar cv t ≠ utxoEncVar cv u := fun u e => by
    have := congrArg List.length e
    rw [txEncVar_len, utxoEncVar_length] at this; omega
  have h2 : ∀ k, txEncVar cv t ≠ pkEncVar cv k := fun k e => by
    have := congrArg List.length e
    rw [txEncVar_len] at this
    simp [pkEncVar] at this
  have h3 : ∀ v, txEncVar cv t = txEncVar cv v ↔ t = v :=
    fun v => ⟨fun e => txEncVar_inj cv hp e, fun e => by rw [e]⟩
  unfold crh
  rw [if_neg (by rw [txEncVar_len]; omega)]
  simp only [h1, h2, h3, or_false, false_or]

theorem crh_pk (hp : 1 < p) (k : G) : crh cv k0 a b (pkEncVar cv k) =
    if k = k0 then dig p 0 1 else if k = a then dig p 0 2 else if k = b then dig p 0 3 else dig p 0 0 := by
  have h1 : ∀ u, pkEncVar cv k ≠ utxoEncVar cv u := fun u e => by
    have := congrArg List.length e
    simp [utxoEncVar, pkEncVar] at this
  have h2 : ∀ t, pkEncVar cv k ≠ txEncVar cv t := fun t e => by
    have := congrArg List.length e
    rw [txEncVar_len] at this
    simp [pkEncVar] at this
  have h3 : ∀ v, pkEncVar cv k = pkEncVar cv v ↔ k = v :=
    fun v => ⟨fun e => pkEncVar_inj cv hp e, fun e => by rw [e]⟩
  unfold crh
  rw [if_neg (by simp [pkEncVar])]
  simp only [h1, h2, h3, false_or]

theorem verify_one (hp : 1 < p) (hq : 1 < q) (k : G) (t : Tx (ZMod p) G) (r : ZMod p) (s : ZMod q) :
    Schnorr.verify cv (hs cv k0 a b).crh k (txEncVar cv t ++ [r]) (s, 1) = true ∧
    Schnorr.verify cv (hs cv k0 a b).crh k (txEncVar cv t ++ [r]) (s, 0) = false := by
  have h1 : (1 : ZMod p).val = 1 := by
    have : Fact (1 < p) := ⟨hp⟩
    exact ZMod.val_one p
  have h2 : 1 % 2 ^ Circuit.modBits q = 1 := by
    apply Nat.mod_eq_of_lt
    have : 1 < Circuit.modBits q := Nat.lt_size.2 hq
    calc 1 < 2 ^ 1 := by decide
      _ ≤ _ := Nat.pow_le_pow_right (by decide) (by omega)
  have h3 : (1 : ZMod q) ≠ 0 := by
    have : Fact (1 < q) := ⟨hq⟩
    exact one_ne_zero
  have hc : ∀ x y : ZMod p, (hs cv k0 a b).crh ([x, y] ++ (txEncVar cv t ++ [r])) = 1 := by
    intro x y
    show crh cv k0 a b _ = 1
    unfold crh
    rw [if_pos (by simp [txEncVar_len])]
  constructor
  · simp only [Schnorr.verify, hc, h1, h2, Schnorr.fromBigint, hq]
    simp
  · simp only [Schnorr.verify, hc, h1, h2, Schnorr.fromBigint, hq]
    simp [h3]

end

/-! ## The run -/

section
variable (cv : Curve p q G) (k0 a b : G)

abbrev lhU (l : UTXO (ZMod p) G) : ZMod p := (hs cv k0 a b).crh (utxoEncVar cv l)
abbrev lhT (l : Tx (ZMod p) G) : ZMod p := (hs cv k0 a b).crh (txEncVar cv l)
abbrev lhK (l : G) : ZMod p := (hs cv k0 a b).crh (pkEncVar cv l)

/-- Empty contents, and contents after the first updates. -/
def c0 : Nat → UTXO (ZMod p) G := fun _ => UTXO.dummy
def c1 (a : G) : Nat → UTXO (ZMod p) G := write c0 0 (uA p a)
def c2 (a : G) : Nat → UTXO (ZMod p) G := write (c1 a) 0 UTXO.dummy
def c3 (a b : G) : Nat → UTXO (ZMod p) G := write (c2 a) 1 (uA p b)
def ct0 : Nat → Tx (ZMod p) G := fun _ => Tx.default
def ct1 (k0 a : G) : Nat → Tx (ZMod p) G := write ct0 0 (tx0 p k0 a)
def ct2 (k0 a b : G) : Nat → Tx (ZMod p) G := write (ct1 k0 a) 1 (tx0 p a b)
def ct3 (k0 a b : G) : Nat → Tx (ZMod p) G := write (ct2 k0 a b) 2 (tx0 p b k0)
def cs0 : Nat → G := fun _ => 0
def cs1 (k0 : G) : Nat → G := write cs0 0 k0
def cs2 (k0 a : G) : Nat → G := write (cs1 k0) 1 a

def noP (p : Nat) : ZMod p × List (ZMod p) := (0, List.replicate 31 0)
def noSig (q : Nat) : List Bool := List.replicate (modBits q) false

/-- The deposit: one insertion at position 0. -/
def i0 : CInputs p G :=
  { tx := tx0 p k0 a, txProof := trueSibs (lhT cv k0 a b) (h2 p) 13 ct0 0
    dels := [noP p, noP p, noP p, noP p]
    adds := [((0 : Nat), trueSibs (lhU cv k0 a b) (h2 p) 32 c0 0), noP p, noP p, noP p]
    signerProof := trueSibs (lhK cv k0 a b) (h2 p) 13 cs0 0
    senderPk := k0, sigS := noSig q, sigE := noSig q }

/-- The payment: position 0 is erased, position 1 filled. -/
def i1 : CInputs p G :=
  { tx := tx0 p a b, txProof := trueSibs (lhT cv k0 a b) (h2 p) 13 (ct1 k0 a) 1
    dels := [((0 : Nat), trueSibs (lhU cv k0 a b) (h2 p) 32 (c1 a) 0), noP p, noP p, noP p]
    adds := [((1 : Nat), trueSibs (lhU cv k0 a b) (h2 p) 32 (c2 a) 1), noP p, noP p, noP p]
    signerProof := trueSibs (lhK cv k0 a b) (h2 p) 13 (cs1 k0) 1
    senderPk := a, sigS := noSig q, sigE := natBits (modBits q) 1 }

/-- The withdrawal: position 1 is erased. -/
def i2 : CInputs p G :=
  { tx := tx0 p b k0, txProof := trueSibs (lhT cv k0 a b) (h2 p) 13 (ct2 k0 a b) 2
    dels := [((1 : Nat), trueSibs (lhU cv k0 a b) (h2 p) 32 (c3 a b) 1), noP p, noP p, noP p]
    adds := [noP p, noP p, noP p, noP p]
    signerProof := trueSibs (lhK cv k0 a b) (h2 p) 13 (cs2 k0 a) 2
    senderPk := b, sigS := noSig q, sigE := natBits (modBits q) 1 }

def is : List (CInputs p G) := [i0 cv k0 a b, i1 cv k0 a b, i2 cv k0 a b]

def P (sha : Sha) (mode : Bool) : Params p G := ⟨hs cv k0 a b, sha, k0, mode⟩

/-- Announced transaction root. -/
def final : ZMod p := merkleRoot (lhT cv k0 a b) (h2 p) 13 (ct3 k0 a b)

def z : CState p := initState (merkleRoot (lhU cv k0 a b) (h2 p) 32 c0) (merkleRoot (lhT cv k0 a b) (h2 p) 13 ct0)
  (final cv k0 a b) (merkleRoot (lhK cv k0 a b) (h2 p) 13 cs0)

variable {cv k0 a b}

theorem bitsVal_one (hq : 1 < q) : bitsVal (natBits (modBits q) 1) = 1 := by
  rw [bitsVal_natBits]
  apply Nat.mod_eq_of_lt
  have : 1 < Circuit.modBits q := Nat.lt_size.2 hq
  calc 1 < 2 ^ 1 := by decide
    _ ≤ _ := Nat.pow_le_pow_right (by decide) (by omega)

theorem signed0 (hp : 1 < p) (hq : 1 < q) (r : ZMod p) : (i0 cv k0 a b).signed cv (hs cv k0 a b) r = false := by
  unfold CInputs.signed
  have := (verify_one cv k0 a b hp hq k0 (tx0 p k0 a) r 0).2
  simp only [i0, noSig, bitsVal_replicate_false, Nat.cast_zero]
  rw [this]; simp

theorem signed1 (hp : 1 < p) (hq : 1 < q) (r : ZMod p) : (i1 cv k0 a b).signed cv (hs cv k0 a b) r = true := by
  unfold CInputs.signed
  have := (verify_one cv k0 a b hp hq a (tx0 p a b) r 0).1
  simp only [i1, noSig, bitsVal_replicate_false, bitsVal_one hq, Nat.cast_zero, Nat.cast_one]
  rw [this]; simp [hq]

theorem signed2 (hp : 1 < p) (hq : 1 < q) (r : ZMod p) : (i2 cv k0 a b).signed cv (hs cv k0 a b) r = true := by
  unfold CInputs.signed
  have := (verify_one cv k0 a b hp hq b (tx0 p b k0) r 0).1
  simp only [i2, noSig, bitsVal_replicate_false, bitsVal_one hq, Nat.cast_zero, Nat.cast_one]
  rw [this]; simp [hq]

theorem idx0 : ((((0 : Nat) : ZMod p)).val) % UTXO_CAP = 0 := by
  rw [Nat.cast_zero, ZMod.val_zero]
  exact Nat.zero_mod _

theorem idx1 (hp : 1 < p) : ((((1 : Nat) : ZMod p)).val) % UTXO_CAP = 1 := by
  have : Fact (1 < p) := ⟨hp⟩
  rw [Nat.cast_one, ZMod.val_one]
  exact Nat.mod_eq_of_lt (by show 1 < 2147483648; omega)

/-- The four updates of the ledger. -/
theorem ledgerUpds_eq (hp : 1 < p) (hq : 1 < q) (ha : a ≠ k0) (hb : b ≠ k0) (sha : Sha) (mode : Bool)
    (r : ZMod p) : ledgerUpds (P cv k0 a b sha mode) cv r (is cv k0 a b) =
      [⟨0, UTXO.dummy, uA p a, trueSibs (lhU cv k0 a b) (h2 p) 32 c0 0⟩,
       ⟨0, uA p a, UTXO.dummy, trueSibs (lhU cv k0 a b) (h2 p) 32 (c1 a) 0⟩,
       ⟨1, UTXO.dummy, uA p b, trueSibs (lhU cv k0 a b) (h2 p) 32 (c2 a) 1⟩,
       ⟨1, uA p b, UTXO.dummy, trueSibs (lhU cv k0 a b) (h2 p) 32 (c3 a b) 1⟩] := by
  have s0 := signed0 (cv := cv) (k0 := k0) (a := a) (b := b) hp hq r
  have s1 := signed1 (cv := cv) (k0 := k0) (a := a) (b := b) hp hq r
  have s2 := signed2 (cv := cv) (k0 := k0) (a := a) (b := b) hp hq r
  have a0 : (i0 cv k0 a b).authorised (P cv k0 a b sha mode) cv r = true := by
    unfold CInputs.authorised
    show (CInputs.signed cv (hs cv k0 a b) r (i0 cv k0 a b) || _) = true
    rw [s0]; simp [i0, P]
  have a1 : (i1 cv k0 a b).authorised (P cv k0 a b sha mode) cv r = true := by
    unfold CInputs.authorised
    show (CInputs.signed cv (hs cv k0 a b) r (i1 cv k0 a b) || _) = true
    rw [s1]; rfl
  have a2 : (i2 cv k0 a b).authorised (P cv k0 a b sha mode) cv r = true := by
    unfold CInputs.authorised
    show (CInputs.signed cv (hs cv k0 a b) r (i2 cv k0 a b) || _) = true
    rw [s2]; rfl
  have e0 : (i0 cv k0 a b).erases cv (hs cv k0 a b) r = [] := by
    unfold CInputs.erases; rw [s0]; simp
  have n0 : (i0 cv k0 a b).inserts (P cv k0 a b sha mode) cv r =
      [⟨0, UTXO.dummy, uA p a, trueSibs (lhU cv k0 a b) (h2 p) 32 c0 0⟩] := by
    unfold CInputs.inserts; rw [a0]
    simp [i0, tx0, UTXO.onLedger, UTXO.dummy, UTXO.new, P, ha, uA]
  have e1 : (i1 cv k0 a b).erases cv (hs cv k0 a b) r =
      [⟨0, uA p a, UTXO.dummy, trueSibs (lhU cv k0 a b) (h2 p) 32 (c1 a) 0⟩] := by
    unfold CInputs.erases; rw [s1]
    simp [i1, tx0, UTXO.dummy, UTXO.new, uA]
  have n1 : (i1 cv k0 a b).inserts (P cv k0 a b sha mode) cv r =
      [⟨1, UTXO.dummy, uA p b, trueSibs (lhU cv k0 a b) (h2 p) 32 (c2 a) 1⟩] := by
    unfold CInputs.inserts; rw [a1]
    have := idx1 hp
    rw [Nat.cast_one] at this
    simp [i1, tx0, UTXO.onLedger, UTXO.dummy, UTXO.new, P, hb, uA, this]
  have e2 : (i2 cv k0 a b).erases cv (hs cv k0 a b) r =
      [⟨1, uA p b, UTXO.dummy, trueSibs (lhU cv k0 a b) (h2 p) 32 (c3 a b) 1⟩] := by
    unfold CInputs.erases; rw [s2]
    have := idx1 hp
    rw [Nat.cast_one] at this
    simp [i2, tx0, UTXO.dummy, UTXO.new, uA, this]
  have n2 : (i2 cv k0 a b).inserts (P cv k0 a b sha mode) cv r = [] := by
    unfold CInputs.inserts; rw [a2]
    simp [i2, tx0, UTXO.onLedger, UTXO.dummy, UTXO.new, P]
  unfold ledgerUpds is
  simp only [List.flatMap_cons, List.flatMap_nil]
  show (CInputs.erases cv (hs cv k0 a b) r (i0 cv k0 a b) ++ _) ++ ((CInputs.erases cv (hs cv k0 a b) r (i1 cv k0 a b) ++ _) ++
    ((CInputs.erases cv (hs cv k0 a b) r (i2 cv k0 a b) ++ _) ++ [])) = _
  rw [e0, n0, e1, n1, e2, n2]
  rfl

theorem authorised_all (hp : 1 < p) (hq : 1 < q) (sha : Sha) (mode : Bool) (r : ZMod p) :
    ∀ i ∈ is cv k0 a b, i.authorised (P cv k0 a b sha mode) cv r = true := by
  intro i hi
  simp only [is, List.mem_cons, List.not_mem_nil, or_false] at hi
  unfold CInputs.authorised
  rcases hi with rfl | rfl | rfl
  · simp [i0, P]
  · show (CInputs.signed cv (hs cv k0 a b) r (i1 cv k0 a b) || _) = true
    rw [signed1 hp hq]; rfl
  · show (CInputs.signed cv (hs cv k0 a b) r (i2 cv k0 a b) || _) = true
    rw [signed2 hp hq]; rfl

theorem two_val (hp : 1000 < p) : ((0 : ZMod p) + 1 + 1).val = 2 := by
  have : ((0 : ZMod p) + 1 + 1) = ((2 : Nat) : ZMod p) := by norm_num
  rw [this, ZMod.val_natCast, Nat.mod_eq_of_lt (by omega)]

theorem txUpds_eq (hp : 1000 < p) : txUpds 0 (is cv k0 a b) =
      [⟨0, Tx.default, tx0 p k0 a, trueSibs (lhT cv k0 a b) (h2 p) 13 ct0 0⟩,
       ⟨1, Tx.default, tx0 p a b, trueSibs (lhT cv k0 a b) (h2 p) 13 (ct1 k0 a) 1⟩,
       ⟨2, Tx.default, tx0 p b k0, trueSibs (lhT cv k0 a b) (h2 p) 13 (ct2 k0 a b) 2⟩] := by
  have : Fact (1 < p) := ⟨by omega⟩
  simp only [is, txUpds, ZMod.val_zero, two_val hp, zero_add, ZMod.val_one]
  rw [show ((1 : ZMod p) + 1).val = 2 from by have := two_val hp; rwa [zero_add] at this]
  rfl

theorem signerUpds_eq (hp : 1000 < p) (hq : 1 < q) (sha : Sha) (mode : Bool) (r : ZMod p) :
    signerUpds (P cv k0 a b sha mode) cv r 0 (is cv k0 a b) =
      [⟨0, 0, k0, trueSibs (lhK cv k0 a b) (h2 p) 13 cs0 0⟩,
       ⟨1, 0, a, trueSibs (lhK cv k0 a b) (h2 p) 13 (cs1 k0) 1⟩,
       ⟨2, 0, b, trueSibs (lhK cv k0 a b) (h2 p) 13 (cs2 k0 a) 2⟩] := by
  have : Fact (1 < p) := ⟨by omega⟩
  have hau := authorised_all (cv := cv) (k0 := k0) (a := a) (b := b) (by omega) hq sha mode r
  simp only [is, signerUpds]
  rw [hau _ (by simp [is]), hau _ (by simp [is]), hau _ (by simp [is])]
  simp only [if_true, ZMod.val_zero, zero_add, ZMod.val_one]
  rw [show ((1 : ZMod p) + 1).val = 2 from by have := two_val hp; rwa [zero_add] at this]
  rfl

/-! ### The trees stay within the table -/

theorem five_ne (hp : 1000 < p) : uA p a ≠ (UTXO.dummy : UTXO (ZMod p) G) := by
  intro h
  have := congrArg UTXO.isDummy h
  simp [uA, UTXO.new, UTXO.dummy] at this

theorem uA_ne {a b : G} (hab : a ≠ b) : uA p a ≠ uA p b := fun h => hab (congrArg UTXO.pk h)

theorem lhU_dummy (hp : 1000 < p) : lhU cv k0 a b UTXO.dummy = dig p 0 0 := by
  refine (crh_utxo cv k0 a b (by omega) _).trans ?_
  rw [if_neg (five_ne hp).symm, if_neg (five_ne hp).symm]

theorem lhU_a (hp : 1000 < p) : lhU cv k0 a b (uA p a) = dig p 0 1 := by
  refine (crh_utxo cv k0 a b (by omega) _).trans ?_
  rw [if_pos rfl]

theorem lhU_b (hp : 1000 < p) (hab : a ≠ b) : lhU cv k0 a b (uA p b) = dig p 0 2 := by
  refine (crh_utxo cv k0 a b (by omega) _).trans ?_
  rw [if_neg (uA_ne hab.symm), if_pos rfl]

theorem tx0_ne {a b c d : G} (h : a ≠ c) : tx0 p a b ≠ tx0 p c d := by
  intro e
  have := congrArg (fun t : Tx (ZMod p) G => t.inputs[0].pk) e
  exact h (by simpa [tx0, UTXO.new] using this)

theorem tx0_ne_default (a b : G) : tx0 p a b ≠ (Tx.default : Tx (ZMod p) G) := by
  intro e
  have := congrArg (fun t : Tx (ZMod p) G => t.inputs[0].isDummy) e
  simp [tx0, UTXO.new, Tx.default, UTXO.dummy] at this

theorem lhT_default (hp : 1000 < p) : lhT cv k0 a b Tx.default = dig p 0 0 := by
  refine (crh_tx cv k0 a b (by omega) Tx.default).trans ?_
  rw [if_neg (tx0_ne_default _ _).symm, if_neg (tx0_ne_default _ _).symm,
    if_neg (tx0_ne_default _ _).symm]

theorem lhT_0 (hp : 1000 < p) : lhT cv k0 a b (tx0 p k0 a) = dig p 0 1 := by
  refine (crh_tx cv k0 a b (by omega) (tx0 p k0 a)).trans ?_
  rw [if_pos rfl]

theorem lhT_1 (hp : 1000 < p) (ha : a ≠ k0) : lhT cv k0 a b (tx0 p a b) = dig p 0 2 := by
  refine (crh_tx cv k0 a b (by omega) (tx0 p a b)).trans ?_
  rw [if_neg (tx0_ne ha), if_pos rfl]

theorem lhT_2 (hp : 1000 < p) (hb : b ≠ k0) (hab : a ≠ b) : lhT cv k0 a b (tx0 p b k0) = dig p 0 3 := by
  refine (crh_tx cv k0 a b (by omega) (tx0 p b k0)).trans ?_
  rw [if_neg (tx0_ne hb), if_neg (tx0_ne hab.symm), if_pos rfl]

theorem lhK_0 (hp : 1000 < p) (h0 : k0 ≠ 0) (ha0 : a ≠ 0) (hb0 : b ≠ 0) : lhK cv k0 a b 0 = dig p 0 0 := by
  refine (crh_pk cv k0 a b (by omega) _).trans ?_
  rw [if_neg h0.symm, if_neg ha0.symm, if_neg hb0.symm]

theorem lhK_k (hp : 1000 < p) : lhK cv k0 a b k0 = dig p 0 1 := by
  refine (crh_pk cv k0 a b (by omega) _).trans ?_
  rw [if_pos rfl]

theorem lhK_a (hp : 1000 < p) (ha : a ≠ k0) : lhK cv k0 a b a = dig p 0 2 := by
  refine (crh_pk cv k0 a b (by omega) _).trans ?_
  rw [if_neg ha, if_pos rfl]

theorem lhK_b (hp : 1000 < p) (hb : b ≠ k0) (hab : a ≠ b) : lhK cv k0 a b b = dig p 0 3 := by
  refine (crh_pk cv k0 a b (by omega) _).trans ?_
  rw [if_neg hb, if_neg hab.symm, if_pos rfl]

/-- A content function that is `d` from position 3 on. -/
theorem good_of {L : Type} {lh : L → ZMod p} {c : Nat → L} (t : Nat × Nat × Nat) (ht : t ∈ profiles)
    (h0 : lh (c 0) = dig p 0 t.1) (h1 : lh (c 1) = dig p 0 t.2.1) (h2 : lh (c 2) = dig p 0 t.2.2)
    (hr : ∀ j, 3 ≤ j → lh (c j) = dig p 0 0) : Good p (fun j => lh (c j)) := ⟨t, ht, h0, h1, h2, hr⟩

theorem dig_ne (hp : 1000 < p) {k k' : Nat} (hk : k < 8) (hk' : k' < 8) (h : k ≠ k') : dig p 0 k ≠ dig p 0 k' :=
  fun e => h (dig_inj hp (by omega) hk (by omega) hk' e).2

theorem ledger_ready (hp : 1000 < p) (hq : 1 < q) (ha : a ≠ k0) (hb : b ≠ k0) (hab : a ≠ b) (sha : Sha)
    (mode : Bool) (r : ZMod p) :
    Legal c0 (ledgerUpds (P cv k0 a b sha mode) cv r (is cv k0 a b)) ∧
    Honest (lhU cv k0 a b) (h2 p) 32 c0 (ledgerUpds (P cv k0 a b sha mode) cv r (is cv k0 a b)) ∧
    ¬ Collision (hs cv k0 a b) (utxoEncVar cv) 32 c0 (ledgerUpds (P cv k0 a b sha mode) cv r (is cv k0 a b)) := by
  rw [ledgerUpds_eq (by omega) hq ha hb]
  have hl : Legal (c0 : Nat → UTXO (ZMod p) G)
      [⟨0, UTXO.dummy, uA p a, trueSibs (lhU cv k0 a b) (h2 p) 32 c0 0⟩,
       ⟨0, uA p a, UTXO.dummy, trueSibs (lhU cv k0 a b) (h2 p) 32 (c1 a) 0⟩,
       ⟨1, UTXO.dummy, uA p b, trueSibs (lhU cv k0 a b) (h2 p) 32 (c2 a) 1⟩,
       ⟨1, uA p b, UTXO.dummy, trueSibs (lhU cv k0 a b) (h2 p) 32 (c3 a b) 1⟩] := by
    simp only [legal_cons]
    exact ⟨rfl, by simp [write], by simp [write, c0], by simp [write], legal_nil _⟩
  have ho : Honest (lhU cv k0 a b) (h2 p) 32 (c0 : Nat → UTXO (ZMod p) G)
      [⟨0, UTXO.dummy, uA p a, trueSibs (lhU cv k0 a b) (h2 p) 32 c0 0⟩,
       ⟨0, uA p a, UTXO.dummy, trueSibs (lhU cv k0 a b) (h2 p) 32 (c1 a) 0⟩,
       ⟨1, UTXO.dummy, uA p b, trueSibs (lhU cv k0 a b) (h2 p) 32 (c2 a) 1⟩,
       ⟨1, uA p b, UTXO.dummy, trueSibs (lhU cv k0 a b) (h2 p) 32 (c3 a b) 1⟩] :=
    ⟨rfl, rfl, rfl, rfl, trivial⟩
  refine ⟨hl, ho, no_collision hp (hs cv k0 a b) rfl (utxoEncVar cv) (by omega) _ c0
    [UTXO.dummy, uA p a, uA p b] ?_ hl ho ?_ ?_ ?_⟩
  · intro x hx y hy h
    simp only [List.mem_cons, List.not_mem_nil, or_false] at hx hy
    rcases hx with rfl | rfl | rfl <;> rcases hy with rfl | rfl | rfl <;> first
      | rfl
      | (exfalso; revert h
         show lhU cv k0 a b _ = lhU cv k0 a b _ → False
         simp only [lhU_dummy hp, lhU_a hp, lhU_b hp hab]
         exact dig_ne hp (by omega) (by omega) (by omega))
  · intro u hu
    simp only [List.mem_cons, List.not_mem_nil, or_false] at hu
    rcases hu with rfl | rfl | rfl | rfl <;> simp
  · intro u hu
    simp only [List.mem_cons, List.not_mem_nil, or_false] at hu
    rcases hu with rfl | rfl | rfl | rfl <;> simp
  · intro k hk
    simp only [List.length_cons, List.length_nil] at hk
    have : k = 0 ∨ k = 1 ∨ k = 2 ∨ k = 3 := by omega
    rcases this with rfl | rfl | rfl | rfl
    · refine good_of (lh := lhU cv k0 a b) (0, 0, 0) (by decide) ?_ ?_ ?_ ?_ <;>
        first | exact lhU_dummy hp | exact fun _ _ => lhU_dummy hp
    · refine good_of (lh := lhU cv k0 a b) (1, 0, 0) (by decide) ?_ ?_ ?_ ?_
      · exact lhU_a hp
      · exact lhU_dummy hp
      · exact lhU_dummy hp
      · intro j hj
        simp only [List.take, applied_cons, applied, List.foldl, write]
        rw [if_neg (by omega)]; exact lhU_dummy hp
    · refine good_of (lh := lhU cv k0 a b) (0, 0, 0) (by decide) ?_ ?_ ?_ ?_
      · exact lhU_dummy hp
      · exact lhU_dummy hp
      · exact lhU_dummy hp
      · intro j hj
        simp only [List.take, applied_cons, applied, List.foldl, write]
        rw [if_neg (by omega), if_neg (by omega)]; exact lhU_dummy hp
    · refine good_of (lh := lhU cv k0 a b) (0, 2, 0) (by decide) ?_ ?_ ?_ ?_
      · exact lhU_dummy hp
      · exact lhU_b hp hab
      · exact lhU_dummy hp
      · intro j hj
        simp only [List.take, applied_cons, applied, List.foldl, write]
        rw [if_neg (by omega), if_neg (by omega), if_neg (by omega)]; exact lhU_dummy hp

theorem tx_ready (hp : 1000 < p) (ha : a ≠ k0) :
    Legal (ct0 : Nat → Tx (ZMod p) G) (txUpds 0 (is cv k0 a b)) ∧
    Honest (lhT cv k0 a b) (h2 p) 13 ct0 (txUpds 0 (is cv k0 a b)) ∧
    ¬ Collision (hs cv k0 a b) (txEncVar cv) 13 ct0 (txUpds 0 (is cv k0 a b)) := by
  rw [txUpds_eq hp]
  have hl : Legal (ct0 : Nat → Tx (ZMod p) G)
      [⟨0, Tx.default, tx0 p k0 a, trueSibs (lhT cv k0 a b) (h2 p) 13 ct0 0⟩,
       ⟨1, Tx.default, tx0 p a b, trueSibs (lhT cv k0 a b) (h2 p) 13 (ct1 k0 a) 1⟩,
       ⟨2, Tx.default, tx0 p b k0, trueSibs (lhT cv k0 a b) (h2 p) 13 (ct2 k0 a b) 2⟩] := by
    simp only [legal_cons]
    exact ⟨rfl, by simp [write, ct0], by simp [write, ct0], legal_nil _⟩
  have ho : Honest (lhT cv k0 a b) (h2 p) 13 (ct0 : Nat → Tx (ZMod p) G)
      [⟨0, Tx.default, tx0 p k0 a, trueSibs (lhT cv k0 a b) (h2 p) 13 ct0 0⟩,
       ⟨1, Tx.default, tx0 p a b, trueSibs (lhT cv k0 a b) (h2 p) 13 (ct1 k0 a) 1⟩,
       ⟨2, Tx.default, tx0 p b k0, trueSibs (lhT cv k0 a b) (h2 p) 13 (ct2 k0 a b) 2⟩] :=
    ⟨rfl, rfl, rfl, trivial⟩
  refine ⟨hl, ho, no_collision hp (hs cv k0 a b) rfl (txEncVar cv) (by omega) _ ct0 [Tx.default] ?_ hl ho ?_ ?_ ?_⟩
  · intro x hx y hy _
    simp only [List.mem_cons, List.not_mem_nil, or_false] at hx hy
    rw [hx, hy]
  · intro u hu
    simp only [List.mem_cons, List.not_mem_nil, or_false] at hu
    rcases hu with rfl | rfl | rfl <;> simp
  · intro u hu
    simp only [List.mem_cons, List.not_mem_nil, or_false] at hu
    rcases hu with rfl | rfl | rfl <;> simp
  · intro k hk
    simp only [List.length_cons, List.length_nil] at hk
    have : k = 0 ∨ k = 1 ∨ k = 2 := by omega
    rcases this with rfl | rfl | rfl
    · refine good_of (lh := lhT cv k0 a b) (0, 0, 0) (by decide) ?_ ?_ ?_ ?_
      · exact lhT_default hp
      · exact lhT_default hp
      · exact lhT_default hp
      · intro j hj
        simp only [List.take, applied_cons, applied, List.foldl, write]
        exact lhT_default hp
    · refine good_of (lh := lhT cv k0 a b) (1, 0, 0) (by decide) ?_ ?_ ?_ ?_
      · exact lhT_0 hp
      · exact lhT_default hp
      · exact lhT_default hp
      · intro j hj
        simp only [List.take, applied_cons, applied, List.foldl, write]
        rw [if_neg (by omega)]; exact lhT_default hp
    · refine good_of (lh := lhT cv k0 a b) (1, 2, 0) (by decide) ?_ ?_ ?_ ?_
      · exact lhT_0 hp
      · exact lhT_1 hp ha
      · exact lhT_default hp
      · intro j hj
        simp only [List.take, applied_cons, applied, List.foldl, write]
        rw [if_neg (by omega), if_neg (by omega)]; exact lhT_default hp

theorem signer_ready (hp : 1000 < p) (hq : 1 < q) (ha : a ≠ k0) (h0 : k0 ≠ 0) (ha0 : a ≠ 0) (hb0 : b ≠ 0)
    (sha : Sha) (mode : Bool) (r : ZMod p) :
    Legal (cs0 : Nat → G) (signerUpds (P cv k0 a b sha mode) cv r 0 (is cv k0 a b)) ∧
    Honest (lhK cv k0 a b) (h2 p) 13 cs0 (signerUpds (P cv k0 a b sha mode) cv r 0 (is cv k0 a b)) ∧
    ¬ Collision (hs cv k0 a b) (pkEncVar cv) 13 cs0 (signerUpds (P cv k0 a b sha mode) cv r 0 (is cv k0 a b)) := by
  rw [signerUpds_eq hp hq]
  have hl : Legal (cs0 : Nat → G)
      [⟨0, 0, k0, trueSibs (lhK cv k0 a b) (h2 p) 13 cs0 0⟩,
       ⟨1, 0, a, trueSibs (lhK cv k0 a b) (h2 p) 13 (cs1 k0) 1⟩,
       ⟨2, 0, b, trueSibs (lhK cv k0 a b) (h2 p) 13 (cs2 k0 a) 2⟩] := by
    simp only [legal_cons]
    exact ⟨rfl, by simp [write, cs0], by simp [write, cs0], legal_nil _⟩
  have ho : Honest (lhK cv k0 a b) (h2 p) 13 (cs0 : Nat → G)
      [⟨0, 0, k0, trueSibs (lhK cv k0 a b) (h2 p) 13 cs0 0⟩,
       ⟨1, 0, a, trueSibs (lhK cv k0 a b) (h2 p) 13 (cs1 k0) 1⟩,
       ⟨2, 0, b, trueSibs (lhK cv k0 a b) (h2 p) 13 (cs2 k0 a) 2⟩] :=
    ⟨rfl, rfl, rfl, trivial⟩
  refine ⟨hl, ho, no_collision hp (hs cv k0 a b) rfl (pkEncVar cv) (by omega) _ cs0 [0] ?_ hl ho ?_ ?_ ?_⟩
  · intro x hx y hy _
    simp only [List.mem_cons, List.not_mem_nil, or_false] at hx hy
    rw [hx, hy]
  · intro u hu
    simp only [List.mem_cons, List.not_mem_nil, or_false] at hu
    rcases hu with rfl | rfl | rfl <;> simp
  · intro u hu
    simp only [List.mem_cons, List.not_mem_nil, or_false] at hu
    rcases hu with rfl | rfl | rfl <;> simp
  · intro k hk
    simp only [List.length_cons, List.length_nil] at hk
    have : k = 0 ∨ k = 1 ∨ k = 2 := by omega
    rcases this with rfl | rfl | rfl
    · refine good_of (lh := lhK cv k0 a b) (0, 0, 0) (by decide) ?_ ?_ ?_ ?_
      · exact lhK_0 hp h0 ha0 hb0
      · exact lhK_0 hp h0 ha0 hb0
      · exact lhK_0 hp h0 ha0 hb0
      · intro j hj
        simp only [List.take, applied_cons, applied, List.foldl, write]
        exact lhK_0 hp h0 ha0 hb0
    · refine good_of (lh := lhK cv k0 a b) (1, 0, 0) (by decide) ?_ ?_ ?_ ?_
      · exact lhK_k hp
      · exact lhK_0 hp h0 ha0 hb0
      · exact lhK_0 hp h0 ha0 hb0
      · intro j hj
        simp only [List.take, applied_cons, applied, List.foldl, write]
        rw [if_neg (by omega)]; exact lhK_0 hp h0 ha0 hb0
    · refine good_of (lh := lhK cv k0 a b) (1, 2, 0) (by decide) ?_ ?_ ?_ ?_
      · exact lhK_k hp
      · exact lhK_a hp ha
      · exact lhK_0 hp h0 ha0 hb0
      · intro j hj
        simp only [List.take, applied_cons, applied, List.foldl, write]
        rw [if_neg (by omega), if_neg (by omega)]; exact lhK_0 hp h0 ha0 hb0

end
end PF.Clean
