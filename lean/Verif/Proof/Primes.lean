import Mathlib.NumberTheory.LucasPrimality
import Mathlib.Tactic.NormNum.Prime
import Mathlib.Data.ZMod.Basic

/-!
# The moduli of the two fields are prime (Pratt certificates)
-/

namespace PF.Primes

/-- `a ^ e % n` by repeated squaring; `k` bounds the number of bits of `e`. -/
def powMod (n : Nat) : Nat → Nat → Nat → Nat
  | 0, _, _ => 1 % n
  | k + 1, a, e =>
    let h := powMod n k (a * a % n) (e / 2)
    if e % 2 = 1 then a * h % n else h

theorem powMod_eq (n : Nat) : ∀ (k a e : Nat), e < 2 ^ k → powMod n k a e = a ^ e % n
  | 0, a, e, h => by
    have : e = 0 := by simpa using h
    subst this; simp [powMod]
  | k + 1, a, e, h => by
    have ih := powMod_eq n k (a * a % n) (e / 2) (by rw [pow_succ] at h; omega)
    have hs : a ^ (e / 2 * 2) = (a * a) ^ (e / 2) := by rw [Nat.mul_comm, pow_mul, pow_two]
    unfold powMod
    have ih' : powMod n k (a * a % n) (e / 2) = a ^ (e / 2 * 2) % n := by
      rw [ih, hs]; exact (Nat.pow_mod _ _ _).symm
    simp only [ih']
    split
    · rename_i ho
      have he : e = e / 2 * 2 + 1 := by omega
      conv_rhs => rw [he, pow_succ, Nat.mul_comm]
      rw [Nat.mul_mod, Nat.mod_mod, ← Nat.mul_mod]
    · have he : e = e / 2 * 2 := by omega
      conv_rhs => rw [he]

/-- Pratt certificate: the factorisation of `n - 1` and a primitive root. -/
theorem pratt (n a : Nat) (fs : List (Nat × Nat)) (hn : 1 < n ∧ n < 2 ^ 256)
    (hprod : (fs.map fun f => f.1 ^ f.2).prod = n - 1)
    (hp : ∀ f ∈ fs, f.1.Prime) (h1 : powMod n 256 a (n - 1) = 1)
    (h2 : ∀ f ∈ fs, powMod n 256 a ((n - 1) / f.1) ≠ 1) : n.Prime := by
  have cast : ∀ e, e < 2 ^ 256 → ((a : ZMod n) ^ e = 1 ↔ powMod n 256 a e = 1) := by
    intro e he
    rw [powMod_eq n 256 a e he, ← Nat.cast_pow, ← Nat.cast_one, ZMod.natCast_eq_natCast_iff', Nat.mod_eq_of_lt hn.1]
  refine lucas_primality n (a : ZMod n) ((cast _ (by omega)).2 h1) ?_
  intro q hq hd
  rw [← hprod, hq.prime.dvd_prod_iff] at hd
  obtain ⟨x, hx, hd⟩ := hd
  obtain ⟨f, hf, rfl⟩ := List.mem_map.1 hx
  have := (Nat.prime_dvd_prime_iff_eq hq (hp f hf)).1 (hq.dvd_of_dvd_pow hd)
  subst this
  rw [Ne, cast _ (lt_of_le_of_lt (Nat.div_le_self _ _) (by omega))]
  exact h2 f hf

theorem p237073 : Nat.Prime 237073 := by
  refine pratt 237073 15 [(2, 4), (3, 1), (11, 1), (449, 1)] (by decide +kernel) (by decide +kernel) ?_ (by decide +kernel) (by decide +kernel)
  simp only [List.mem_cons, List.not_mem_nil, or_false, forall_eq_or_imp, forall_eq]
  exact ⟨(by norm_num), (by norm_num), (by norm_num), (by norm_num)⟩

theorem p405928799 : Nat.Prime 405928799 := by
  refine pratt 405928799 22 [(2, 1), (11, 1), (3691, 1), (4999, 1)] (by decide +kernel) (by decide +kernel) ?_ (by decide +kernel) (by decide +kernel)
  simp only [List.mem_cons, List.not_mem_nil, or_false, forall_eq_or_imp, forall_eq]
  exact ⟨(by norm_num), (by norm_num), (by norm_num), (by norm_num)⟩

theorem p12048837557 : Nat.Prime 12048837557 := by
  refine pratt 12048837557 2 [(2, 2), (7, 2), (661, 1), (93001, 1)] (by decide +kernel) (by decide +kernel) ?_ (by decide +kernel) (by decide +kernel)
  simp only [List.mem_cons, List.not_mem_nil, or_false, forall_eq_or_imp, forall_eq]
  exact ⟨(by norm_num), (by norm_num), (by norm_num), (by norm_num)⟩

theorem p5156902474397 : Nat.Prime 5156902474397 := by
  refine pratt 5156902474397 2 [(2, 2), (107, 1), (12048837557, 1)] (by decide +kernel) (by decide +kernel) ?_ (by decide +kernel) (by decide +kernel)
  simp only [List.mem_cons, List.not_mem_nil, or_false, forall_eq_or_imp, forall_eq]
  exact ⟨(by norm_num), (by norm_num), p12048837557⟩

theorem p1670836401704629 : Nat.Prime 1670836401704629 := by
  refine pratt 1670836401704629 2 [(2, 2), (3, 4), (5156902474397, 1)] (by decide +kernel) (by decide +kernel) ?_ (by decide +kernel) (by decide +kernel)
  simp only [List.mem_cons, List.not_mem_nil, or_false, forall_eq_or_imp, forall_eq]
  exact ⟨(by norm_num), (by norm_num), p5156902474397⟩

theorem p1593227 : Nat.Prime 1593227 := by
  refine pratt 1593227 2 [(2, 1), (19, 1), (41927, 1)] (by decide +kernel) (by decide +kernel) ?_ (by decide +kernel) (by decide +kernel)
  simp only [List.mem_cons, List.not_mem_nil, or_false, forall_eq_or_imp, forall_eq]
  exact ⟨(by norm_num), (by norm_num), (by norm_num)⟩

theorem p639533339 : Nat.Prime 639533339 := by
  refine pratt 639533339 2 [(2, 1), (229, 1), (853, 1), (1637, 1)] (by decide +kernel) (by decide +kernel) ?_ (by decide +kernel) (by decide +kernel)
  simp only [List.mem_cons, List.not_mem_nil, or_false, forall_eq_or_imp, forall_eq]
  exact ⟨(by norm_num), (by norm_num), (by norm_num), (by norm_num)⟩

theorem p65865678001877903 : Nat.Prime 65865678001877903 := by
  refine pratt 65865678001877903 5 [(2, 1), (83, 1), (379, 1), (1637, 1), (639533339, 1)] (by decide +kernel) (by decide +kernel) ?_ (by decide +kernel) (by decide +kernel)
  simp only [List.mem_cons, List.not_mem_nil, or_false, forall_eq_or_imp, forall_eq]
  exact ⟨(by norm_num), (by norm_num), (by norm_num), (by norm_num), p639533339⟩

theorem p13818364434197438864469338081 : Nat.Prime 13818364434197438864469338081 := by
  refine pratt 13818364434197438864469338081 3 [(2, 5), (5, 1), (823, 1), (1593227, 1), (65865678001877903, 1)] (by decide +kernel) (by decide +kernel) ?_ (by decide +kernel) (by decide +kernel)
  simp only [List.mem_cons, List.not_mem_nil, or_false, forall_eq_or_imp, forall_eq]
  exact ⟨(by norm_num), (by norm_num), (by norm_num), p1593227, p65865678001877903⟩

theorem bn254r_prime : Nat.Prime 21888242871839275222246405745257275088548364400416034343698204186575808495617 := by
  refine pratt 21888242871839275222246405745257275088548364400416034343698204186575808495617 5 [(2, 28), (3, 2), (13, 1), (29, 1), (983, 1), (11003, 1), (237073, 1), (405928799, 1), (1670836401704629, 1), (13818364434197438864469338081, 1)] (by decide +kernel) (by decide +kernel) ?_ (by decide +kernel) (by decide +kernel)
  simp only [List.mem_cons, List.not_mem_nil, or_false, forall_eq_or_imp, forall_eq]
  exact ⟨(by norm_num), (by norm_num), (by norm_num), (by norm_num), (by norm_num), (by norm_num), p237073, p405928799, p1670836401704629, p13818364434197438864469338081⟩

theorem p327599 : Nat.Prime 327599 := by
  refine pratt 327599 19 [(2, 1), (19, 1), (37, 1), (233, 1)] (by decide +kernel) (by decide +kernel) ?_ (by decide +kernel) (by decide +kernel)
  simp only [List.mem_cons, List.not_mem_nil, or_false, forall_eq_or_imp, forall_eq]
  exact ⟨(by norm_num), (by norm_num), (by norm_num), (by norm_num)⟩

theorem p11465965001 : Nat.Prime 11465965001 := by
  refine pratt 11465965001 3 [(2, 3), (5, 4), (7, 1), (327599, 1)] (by decide +kernel) (by decide +kernel) ?_ (by decide +kernel) (by decide +kernel)
  simp only [List.mem_cons, List.not_mem_nil, or_false, forall_eq_or_imp, forall_eq]
  exact ⟨(by norm_num), (by norm_num), (by norm_num), p327599⟩

theorem p1853641 : Nat.Prime 1853641 := by
  refine pratt 1853641 17 [(2, 3), (3, 2), (5, 1), (19, 1), (271, 1)] (by decide +kernel) (by decide +kernel) ?_ (by decide +kernel) (by decide +kernel)
  simp only [List.mem_cons, List.not_mem_nil, or_false, forall_eq_or_imp, forall_eq]
  exact ⟨(by norm_num), (by norm_num), (by norm_num), (by norm_num), (by norm_num)⟩

theorem p4562087 : Nat.Prime 4562087 := by
  refine pratt 4562087 5 [(2, 1), (17, 1), (109, 1), (1231, 1)] (by decide +kernel) (by decide +kernel) ?_ (by decide +kernel) (by decide +kernel)
  simp only [List.mem_cons, List.not_mem_nil, or_false, forall_eq_or_imp, forall_eq]
  exact ⟨(by norm_num), (by norm_num), (by norm_num), (by norm_num)⟩

theorem p173171039 : Nat.Prime 173171039 := by
  refine pratt 173171039 13 [(2, 1), (73, 1), (89, 1), (13327, 1)] (by decide +kernel) (by decide +kernel) ?_ (by decide +kernel) (by decide +kernel)
  simp only [List.mem_cons, List.not_mem_nil, or_false, forall_eq_or_imp, forall_eq]
  exact ⟨(by norm_num), (by norm_num), (by norm_num), (by norm_num)⟩

theorem p1263766531 : Nat.Prime 1263766531 := by
  refine pratt 1263766531 10 [(2, 1), (3, 1), (5, 1), (13, 1), (911, 1), (3557, 1)] (by decide +kernel) (by decide +kernel) ?_ (by decide +kernel) (by decide +kernel)
  simp only [List.mem_cons, List.not_mem_nil, or_false, forall_eq_or_imp, forall_eq]
  exact ⟨(by norm_num), (by norm_num), (by norm_num), (by norm_num), (by norm_num), (by norm_num)⟩

theorem p35385462869 : Nat.Prime 35385462869 := by
  refine pratt 35385462869 2 [(2, 2), (7, 1), (1263766531, 1)] (by decide +kernel) (by decide +kernel) ?_ (by decide +kernel) (by decide +kernel)
  simp only [List.mem_cons, List.not_mem_nil, or_false, forall_eq_or_imp, forall_eq]
  exact ⟨(by norm_num), (by norm_num), p1263766531⟩

theorem p2480874801745591 : Nat.Prime 2480874801745591 := by
  refine pratt 2480874801745591 6 [(2, 1), (3, 2), (5, 1), (19, 1), (41, 1), (35385462869, 1)] (by decide +kernel) (by decide +kernel) ?_ (by decide +kernel) (by decide +kernel)
  simp only [List.mem_cons, List.not_mem_nil, or_false, forall_eq_or_imp, forall_eq]
  exact ⟨(by norm_num), (by norm_num), (by norm_num), (by norm_num), (by norm_num), p35385462869⟩

theorem p13427688667394608761327070753331941386769 : Nat.Prime 13427688667394608761327070753331941386769 := by
  refine pratt 13427688667394608761327070753331941386769 17 [(2, 4), (3, 1), (7, 1), (11, 1), (1853641, 1), (4562087, 1), (173171039, 1), (2480874801745591, 1)] (by decide +kernel) (by decide +kernel) ?_ (by decide +kernel) (by decide +kernel)
  simp only [List.mem_cons, List.not_mem_nil, or_false, forall_eq_or_imp, forall_eq]
  exact ⟨(by norm_num), (by norm_num), (by norm_num), (by norm_num), p1853641, p4562087, p173171039, p2480874801745591⟩

theorem grumpkinQ_prime : Nat.Prime 21888242871839275222246405745257275088696311157297823662689037894645226208583 := by
  refine pratt 21888242871839275222246405745257275088696311157297823662689037894645226208583 3 [(2, 1), (3, 2), (13, 1), (29, 1), (67, 1), (229, 1), (311, 1), (983, 1), (11003, 1), (405928799, 1), (11465965001, 1), (13427688667394608761327070753331941386769, 1)] (by decide +kernel) (by decide +kernel) ?_ (by decide +kernel) (by decide +kernel)
  simp only [List.mem_cons, List.not_mem_nil, or_false, forall_eq_or_imp, forall_eq]
  exact ⟨(by norm_num), (by norm_num), (by norm_num), (by norm_num), (by norm_num), (by norm_num), (by norm_num), (by norm_num), (by norm_num), p405928799, p11465965001, p13427688667394608761327070753331941386769⟩

end PF.Primes
