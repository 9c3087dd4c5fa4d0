import Verif.Proof.Grumpkin
import Verif.Props.Schnorr
import Verif.Props.ClientExamples
import Verif.Props.AggregatorExact

/-!
# C92: the curve of the repository

Everything else is proved for an abstract `Curve p q G`: a group of exponent `q` with a generator and coordinates
in a field of `p` elements.  Here the curve with which the repository instantiates its type parameters,
Grumpkin, is built and shown to be such a `Curve`, and the statements that need `q` prime or `p ≤ q` are applied
to it.
-/

set_option linter.unusedSectionVars false

namespace PF.Props
open PF.Grumpkin PF.AggC PF.Agg
open PF.Contract (derivePublicInputs)
open PF.Client (UserAuxVar UState)

/-- C92. The two moduli are prime. -/
theorem C92_moduli_prime : bn254r.Prime ∧ grumpkinQ.Prime :=
  ⟨Primes.bn254r_prime, Primes.grumpkinQ_prime⟩

instance bn254r_fact : Fact bn254r.Prime := ⟨C92_moduli_prime.1⟩
instance grumpkinQ_fact : Fact grumpkinQ.Prime := ⟨C92_moduli_prime.2⟩

/-- crate ark-grumpkin (external): `GrumpkinConfig::COEFF_B`. -/
def coeffB (p : Nat) : ZMod p := -((17 : Nat) : ZMod p)

/-- crate ark-grumpkin (external): coordinates of `GrumpkinConfig::GENERATOR`. -/
def genCoords : Nat × Nat := (1, 17631683881184975370165255887551781615748388533673675138860)

/-- Points of Grumpkin, `y² = x³ - 17` over the scalar field of BN254, with the point at infinity. -/
abbrev GPoint : Type := (short (coeffB bn254r)).Point

theorem gen_on (p : Nat) [Fact p.Prime] (gc : Nat × Nat) (h : (gc.2 ^ 2 + 17) % p = gc.1 ^ 3 % p) :
    (gc.2 : ZMod p) ^ 2 = (gc.1 : ZMod p) ^ 3 + coeffB p := by
  have := (ZMod.natCast_eq_natCast_iff' _ _ p).2 h
  rw [Nat.cast_add, Nat.cast_pow, Nat.cast_pow] at this
  rw [coeffB, ← this]; ring

theorem cast_ne {p : Nat} {i j : Nat} (h : i % p ≠ j % p) : (i : ZMod p) ≠ (j : ZMod p) := by
  rw [Ne, ZMod.natCast_eq_natCast_iff']; exact h

theorem grumpkin_cert : ∃ g : GPoint, At g genCoords ∧ g ≠ 0 ∧ Nat.card GPoint = grumpkinQ ∧
    ∀ P : GPoint, grumpkinQ • P = 0 := by
  have hy : (genCoords.2 : ZMod bn254r) ≠ ((0 : Nat) : ZMod bn254r) := cast_ne (by decide +kernel)
  rw [Nat.cast_zero] at hy
  exact order_of_cert grumpkinQ_fact.out (by decide +kernel) (by decide +kernel) (coeffB bn254r) genCoords slopes
    (gen_on _ _ (by decide +kernel)) hy (by decide +kernel) (by decide +kernel)

/-- The scalar field acts on the points. -/
noncomputable instance : Module (ZMod grumpkinQ) GPoint :=
  AddCommGroup.zmodModule (Classical.choose_spec grumpkin_cert).2.2.2

/-- The curve that the repository passes for `C` (`ark_grumpkin::Projective`): aggregator/src/circuit.rs:445,
client/tests/mod.rs:17, client/tests/web.rs:17, plasma-fold/src/primitives/schnorr.rs:209. -/
noncomputable def grumpkin : Curve bn254r grumpkinQ GPoint where
  gen := Classical.choose grumpkin_cert
  gen_ne := (Classical.choose_spec grumpkin_cert).2.1
  xy := coords
  xy_none := coords_none
  xy_inj := coords_inj

/-- C92. The coordinates of a point satisfy the curve equation, every solution is a point, and only the identity
has no coordinates. -/
theorem C92_coordinates (x y : ZMod bn254r) :
    ((∃ P : GPoint, grumpkin.xy P = some (x, y)) ↔ y ^ 2 = x ^ 3 - ((17 : Nat) : ZMod bn254r)) ∧
    (∀ P : GPoint, grumpkin.xy P = none ↔ P = 0) ∧
    grumpkin.xy grumpkin.gen = some ((genCoords.1 : ZMod bn254r), (genCoords.2 : ZMod bn254r)) := by
  refine ⟨?_, coords_none, ?_⟩
  · rw [sub_eq_add_neg]
    refine coords_iff (cast_ne (by decide +kernel)) (cast_ne (by decide +kernel)) ?_ x y
    intro h
    have h' : ((17 : Nat) : ZMod bn254r) = ((0 : Nat) : ZMod bn254r) := by
      rw [coeffB, neg_eq_zero] at h; rw [h, Nat.cast_zero]
    exact cast_ne (p := bn254r) (i := 17) (j := 0) (by decide +kernel) h'
  · obtain ⟨h, he⟩ := (Classical.choose_spec grumpkin_cert).1
    show coords (Classical.choose grumpkin_cert) = _
    rw [he]; rfl

/-- C92. The group has exactly `grumpkinQ` points. -/
theorem C92_group_order : Nat.card GPoint = grumpkinQ := by
  obtain ⟨_, _, _, h, _⟩ := grumpkin_cert
  exact h

/-- C92. Key generation is a bijection: every point of the curve, the identity included, is the public key of
exactly one secret key. -/
theorem C92_one_secret_per_key (P : GPoint) : ∃! sk : ZMod grumpkinQ, (Schnorr.keyGen grumpkin sk).2 = P := by
  have hinj : Function.Injective fun sk : ZMod grumpkinQ => sk • grumpkin.gen := by
    intro a b h
    have : (a - b) • grumpkin.gen = 0 := by rw [sub_smul, sub_eq_zero]; exact h
    rcases smul_eq_zero.1 this with h0 | h0
    · exact sub_eq_zero.1 h0
    · exact absurd h0 grumpkin.gen_ne
  have hfin : Finite GPoint := Nat.finite_of_card_ne_zero (by
    rw [C92_group_order]; exact grumpkinQ_fact.out.ne_zero)
  have hcard : Nat.card (ZMod grumpkinQ) = Nat.card GPoint := by
    rw [C92_group_order, Nat.card_zmod]
  have hbij := (Nat.bijective_iff_injective_and_card (f := fun sk : ZMod grumpkinQ => sk • grumpkin.gen)).2
    ⟨hinj, hcard⟩
  obtain ⟨sk, hsk, hu⟩ := hbij.existsUnique P
  exact ⟨sk, hsk, hu⟩

/-- C92. Signing on Grumpkin: with any non-zero nonce `sign` returns a signature, and it verifies under the public
key; `sign` panics exactly on the zero nonce. -/
theorem C92_sign (H : List (ZMod bn254r) → ZMod bn254r) (sk : ZMod grumpkinQ) (m : List (ZMod bn254r))
    (k : ZMod grumpkinQ) (ks : List (ZMod grumpkinQ)) :
    (k = 0 ↔ Schnorr.sign grumpkin H sk m (k :: ks) = .panic) ∧
    (k ≠ 0 → ∃ sig, Schnorr.sign grumpkin H sk m (k :: ks) = .ok (some sig) ∧
      Schnorr.verify grumpkin H (Schnorr.keyGen grumpkin sk).2 m sig = true) := by
  have hp := C25_sign_progress grumpkin bn254r_fact.out.pos bn254_le H sk m k ks
  have h2 : k ≠ 0 → ∃ sig, Schnorr.sign grumpkin H sk m (k :: ks) = .ok (some sig) ∧
      Schnorr.verify grumpkin H (Schnorr.keyGen grumpkin sk).2 m sig = true := by
    intro hk
    obtain ⟨sig, hs⟩ := hp.2 hk
    exact ⟨sig, hs, C25_sign_verifies grumpkin H sk m _ sig hs⟩
  refine ⟨⟨hp.1, fun h => ?_⟩, h2⟩
  by_contra hk
  obtain ⟨sig, hs, _⟩ := h2 hk
  rw [hs] at h
  cases h

theorem gmul_ne {i j : Nat} (h : i % grumpkinQ ≠ j % grumpkinQ) :
    ((i : ZMod grumpkinQ)) • grumpkin.gen ≠ ((j : ZMod grumpkinQ)) • grumpkin.gen := by
  intro he
  refine cast_ne h ?_
  obtain ⟨sk, _, hu⟩ := C92_one_secret_per_key (((i : ZMod grumpkinQ)) • grumpkin.gen)
  exact (hu _ rfl).trans (hu _ he.symm).symm

/-- An epoch processed, proved and accepted by the contract, with the curve and the fields of the repository. -/
example : ∃ (z z' : CState bn254r) (is : List (CInputs bn254r GPoint)) (st : Contract.State GPoint)
    (block : Block (ZMod bn254r)),
    runSteps ⟨oneHs bn254r, toySha, ((1 : Nat) : ZMod grumpkinQ) • grumpkin.gen, false⟩ grumpkin z [is] z' ∧
    (∃ u t f g, z = initState u t f g) ∧
    derivePublicInputs grumpkin toySha st block = .ok z'.toList ∧
    block.deposits = [(1, 5)] ∧ block.withdrawals = [(2, 5)] ∧ block.signers = [some 0, some 1, some 2] :=
  example_run sizes_bn254 bn254_le grumpkin
    ⟨oneHs bn254r, toySha, ((1 : Nat) : ZMod grumpkinQ) • grumpkin.gen, false⟩ rfl rfl
    (a := ((2 : Nat) : ZMod grumpkinQ) • grumpkin.gen) (b := ((3 : Nat) : ZMod grumpkinQ) • grumpkin.gen)
    (gmul_ne (by decide +kernel)) (gmul_ne (by decide +kernel)) (gmul_ne (by decide +kernel))

/-- A balance proof of two steps, with the curve and the fields of the repository. -/
example : ∃ (a b : UserAuxVar bn254r GPoint) (z' : UState bn254r),
    Client.runSteps (demoParams bn254r) grumpkin 2
      (demoUser grumpkin (((2 : Nat) : ZMod grumpkinQ) • grumpkin.gen)) [a, b] z' ∧ z'.balance = 7 := by
  obtain ⟨a, b, z', h1, h2, -⟩ := demo_run fieldOk_bn254 grumpkin (((1 : Nat) : ZMod grumpkinQ) • grumpkin.gen)
    (((2 : Nat) : ZMod grumpkinQ) • grumpkin.gen) (gmul_ne (by decide +kernel))
    (fun h => gmul_ne (i := 2) (j := 0) (by decide +kernel)
      (h.trans (by rw [Nat.cast_zero]; exact (zero_smul (ZMod grumpkinQ) grumpkin.gen).symm)))
  exact ⟨a, b, z', h1, h2⟩

end PF.Props
