import Verif.Proof.Contract
import Verif.Props.Schnorr

/-!
# Properties C31, C32, C34–C37: accumulators and the mock L1 contract
-/

namespace PF.Props
open PF PF.Circuit PF.Contract PF.Spec
variable {G : Type} {p q : Nat}

/-! ## C31 -/

/-- C31 (Poseidon accumulator): equally long histories with equal final accumulator are the same
history from the same start, or the transcripts exhibit a collision of the two-to-one hash. -/
theorem C31_poseidon_accumulator (h2 : ZMod p → ZMod p → ZMod p) (a a' : ZMod p)
    (vs vs' : List (ZMod p)) (hl : vs.length = vs'.length)
    (h : vs.foldl (poseidonAccVar h2) a = vs'.foldl (poseidonAccVar h2) a') :
    (a = a' ∧ vs = vs') ∨
      TranscriptCollision (fun x : ZMod p × ZMod p => h2 x.1 x.2)
        (chainInputs (fun x => h2 x.1 x.2) Prod.mk a vs)
        (chainInputs (fun x => h2 x.1 x.2) Prod.mk a' vs') :=
  chain_bind (fun x : ZMod p × ZMod p => h2 x.1 x.2) (fun x => h2 x.1 x.2) Prod.mk
    (fun _ _ _ _ h => Prod.mk.inj h) (fun _ _ h => h) vs vs' a a' hl h

theorem shaAccVar_eq (hp : 0 < p) (sha : Sha) (a v : ZMod p) :
    shaAccVar sha a v = shaField p sha (fBytes a ++ fBytes v) := by
  unfold shaAccVar shaField
  rw [fBytesVar_eq hp, fBytesVar_eq hp, packVar_eq, List.dropLast_eq_take, sha.len]

/-- C31 (SHA-256 accumulator gadget): the same, the collision being one of the truncated digest. -/
theorem C31_sha_accumulator (hp : 1 < p) (sha : Sha) (a a' : ZMod p)
    (vs vs' : List (ZMod p)) (hl : vs.length = vs'.length)
    (h : vs.foldl (shaAccVar sha) a = vs'.foldl (shaAccVar sha) a') :
    (a = a' ∧ vs = vs') ∨
      TranscriptCollision (truncated p sha)
        (chainInputs (shaField p sha) (fun a v => fBytes a ++ fBytes v) a vs)
        (chainInputs (shaField p sha) (fun a v => fBytes a ++ fBytes v) a' vs') := by
  have e : (shaAccVar sha : ZMod p → ZMod p → ZMod p)
      = fun a v => shaField p sha (fBytes a ++ fBytes v) := by
    funext a v; exact shaAccVar_eq (by omega) sha a v
  rw [e] at h
  exact chain_bind (shaField p sha) (truncated p sha) (fun a v => fBytes a ++ fBytes v)
    (fun a v a' v' h => by
      have := List.append_inj h (by simp [fBytes_length])
      exact ⟨fBytes_inj (by omega) this.1, fBytes_inj (by omega) this.2⟩)
    (fun _ _ h => shaField_eq hp sha h) vs vs' a a' hl h

/-- Non-vacuity: with a colliding "hash" two different histories do meet. -/
example : [1, 2].foldl (poseidonAccVar (p := 101) (fun a b => a + b)) 0
    = [2, 1].foldl (poseidonAccVar (fun a b => a + b)) 0 := by decide

/-! ## C32 -/

/-- C32: the in-circuit bytes of field elements, points and 64-bit amounts are the native bytes; the
truncated digest computed in the circuit is the contract's; and for fields of at least 249 bits
(BN254: 254) the accumulator gadget equals the native accumulator formula. -/
theorem C32_gadgets_compute_native_bytes (hp : 0 < p) (sha : Sha) :
    (∀ x : ZMod p, fBytesVar x = fBytes x) ∧
    (∀ bits : List Bool, bits.length = 64 → bytesOfBits bits = bytesLe 8 (bitsVal bits)) ∧
    (∀ bs, shaFieldVar p sha bs = shaField p sha bs) ∧
    (249 ≤ modBits p → ∀ a v : ZMod p, shaAccVar sha a v = shaAccNative sha a v) := by
  refine ⟨fBytesVar_eq hp, fun bits h => bytesOfBits_eq 8 bits (by omega), shaFieldVar_eq sha, ?_⟩
  intro hm a v
  rw [shaAccVar_eq hp]
  unfold shaField shaAccNative
  rw [List.dropLast_eq_take, sha.len, List.take_take]
  have : min (capBytes p) 31 = 31 := by unfold capBytes; omega
  rw [this]

theorem C32_points [AddCommGroup G] [Module (ZMod q) G] (hp : 0 < p) (cv : Curve p q G) (P Q : G) :
    pkBytesVar cv P = pkBytes cv P ∧ (pkBytes cv P = pkBytes cv Q ↔ P = Q) :=
  ⟨pkBytesVar_eq hp cv P, pkBytes_inj hp cv, fun h => by rw [h]⟩

/-- The order of the BN254 scalar field (base field of Grumpkin, field of all circuits). -/
def bn254r : Nat :=
  21888242871839275222246405745257275088548364400416034343698204186575808495617

/-- For the field used in the repository: 254 bits, 32 bytes per element, 31 digest bytes kept. -/
theorem C32_bn254 : modBits bn254r = 254 ∧ fieldBytes bn254r = 32 ∧ capBytes bn254r = 31 := by
  have h : modBits bn254r = 254 := by
    unfold modBits
    apply le_antisymm
    · exact Nat.size_le.2 (by decide)
    · exact Nat.lt_size.2 (by decide)
  refine ⟨h, ?_, ?_⟩
  · unfold fieldBytes; rw [h]
  · unfold capBytes; rw [h]

/-- C32: the encoding of a field element has the least number of whole 64-bit limbs that holds every element:
any other multiple of 8 bytes that holds `modBits p` bits is at least as long. -/
theorem C32_field_bytes (p : Nat) (x : ZMod p) :
    (fBytes x).length = fieldBytes p ∧ 8 ∣ fieldBytes p ∧ modBits p ≤ 8 * fieldBytes p ∧
    ∀ n, 8 ∣ n → modBits p ≤ 8 * n → fieldBytes p ≤ n := by
  refine ⟨fBytes_length x, Dvd.intro _ rfl, by unfold fieldBytes; omega, ?_⟩
  rintro n ⟨m, rfl⟩ h
  unfold fieldBytes
  omega

example : fieldBytes (2 ^ 64 - 59) = 8 ∧ fieldBytes 257 = 8 := by
  have h1 : modBits (2 ^ 64 - 59) = 64 :=
    le_antisymm (Nat.size_le.2 (by decide)) (Nat.lt_size.2 (by decide))
  have h2 : modBits 257 = 9 := le_antisymm (Nat.size_le.2 (by decide)) (Nat.lt_size.2 (by decide))
  unfold fieldBytes
  rw [h1, h2]
  decide

/-! ## C34 -/
section
variable [DecidableEq G]

/-- C34: from a fresh contract, any sequence of joins and deposits that does not panic keeps the sum
of all L1 balances equal to the sum of the balances the accounts joined with (overflow checks on, or
total funds below 2^64). -/
theorem C34_l1_conserved (b : Build) (contractPk : G) (cs : List (Call G)) (s : State G)
    (hb : b = .debug ∨ (joinedBalances cs).sum < 2 ^ 64)
    (h : run b (new contractPk) cs = .ok s) :
    s.accounts.sum = (joinedBalances cs).sum :=
  (books_run [] cs (books_new contractPk) hb h).total

theorem addU64_mod {b : Build} {x y z : Nat} (h : addU64 (ε := Unit) b x y = .ok z) :
    z ≡ x + y [MOD 2 ^ 64] := by
  unfold addU64 at h
  split at h
  · simp at h; subst h; rfl
  · cases b
    · simp at h
    · simp at h; subst h; exact Nat.mod_modEq _ _

/-- C34 in every build, whatever the amounts: conservation modulo 2^64. -/
theorem C34_l1_conserved_mod (b : Build) (contractPk : G) (cs : List (Call G)) (s : State G)
    (h : run b (new contractPk) cs = .ok s) :
    s.accounts.sum ≡ (joinedBalances cs).sum [MOD 2 ^ 64] := by
  suffices H : ∀ (cs : List (Call G)) (s s' : State G), run b s cs = .ok s' →
      s'.accounts.sum ≡ s.accounts.sum + (joinedBalances cs).sum [MOD 2 ^ 64] by
    have := H cs _ _ h
    simpa [new, join] using this
  intro cs
  induction cs with
  | nil => intro s s' h; simp [run] at h; subst h; simp [joinedBalances]; rfl
  | cons c cs ih =>
    intro s s' h
    simp only [run] at h
    rcases hc : step b s c with s1 | e | _ <;> rw [hc] at h <;> simp at h
    have h1 := ih s1 s' h
    cases c with
    | join bal pk =>
      simp [step] at hc; subst hc
      simp only [join, List.sum_append, List.sum_cons, List.sum_nil, Nat.add_zero] at h1
      have hj : joinedBalances (.join bal pk :: cs) = bal :: joinedBalances cs := rfl
      rw [hj, List.sum_cons, ← Nat.add_assoc]; exact h1
    | deposit i a =>
      obtain ⟨r0, l0, pk, l0', d, hi, hr, hl, hpk, har, hadd, hd, rfl⟩ := deposit_ok hc
      have hset : (s.accounts.set i (r0 - a))[0]? = some l0 := by
        rw [List.getElem?_set_ne (by omega)]; exact hl
      have hs1 := sum_set s.accounts i (r0 - a) r0 hr
      have hs2 := sum_set (s.accounts.set i (r0 - a)) 0 l0' l0 hset
      have hm := addU64_mod hadd
      have : ((s.accounts.set i (r0 - a)).set 0 l0').sum ≡ s.accounts.sum [MOD 2 ^ 64] := by
        have e : ((s.accounts.set i (r0 - a)).set 0 l0').sum + (l0 + a) = s.accounts.sum + l0' := by
          omega
        apply Nat.ModEq.add_right_cancel' (l0 + a)
        rw [e]
        exact Nat.ModEq.add_left _ hm
      have hj : joinedBalances (.deposit i a :: cs) = joinedBalances cs := rfl
      rw [hj]
      exact h1.trans (Nat.ModEq.add_right _ this)

/-- Two depositors, the contract ends with all deposits. -/
def toyCalls : List (Call Nat) :=
  [.join 100 11, .join 50 12, .deposit 1 30, .deposit 2 50, .deposit 1 70]

example : ∃ s, run .release (new 10) toyCalls = .ok s ∧
    (joinedBalances toyCalls).sum < 2 ^ 64 ∧ s.accounts = [150, 0, 0] ∧ s.pks = [10, 11, 12] :=
  ⟨_, rfl, by decide, by decide, by decide⟩

/-- Without the bound a release build destroys funds: two deposits of `2^64 - 1` leave the contract
with `2^64 - 2`. -/
theorem C34_release_wraps :
    ∃ s, run .release (new 10) [.join (2 ^ 64 - 1) 11, .join (2 ^ 64 - 1) 12,
        .deposit 1 (2 ^ 64 - 1), .deposit 2 (2 ^ 64 - 1)] = .ok s ∧
      s.accounts = [2 ^ 64 - 2, 0, 0] :=
  ⟨_, rfl, by decide⟩

/-! ## C35 -/

/-- C35: after any successful sequence of calls, the contract holds exactly the sum of all deposits,
each account exactly its initial balance minus its own deposits, and the pending amount of a key is
exactly the sum of the deposits of the accounts registered under it (absent if there is none). -/
theorem C35_deposits_exact (b : Build) (contractPk : G) (cs : List (Call G)) (s : State G)
    (hb : b = .debug ∨ (joinedBalances cs).sum < 2 ^ 64)
    (h : run b (new contractPk) cs = .ok s) :
    s.accounts[0]? = some (totalDeposited cs) ∧
    (∀ i bal, 0 < i → s.accounts[i]? = some bal →
      (0 :: joinedBalances cs)[i]? = some (bal + depositedBy cs i)) ∧
    (∀ pk, (s.deposits.get pk).getD 0 = depositedUnder s.pks cs pk) ∧
    (∀ pk, (s.deposits.get pk).isSome ↔ ∃ d ∈ depositCalls cs, s.pks[d.1]? = some pk) := by
  have B := books_run [] cs (books_new contractPk) hb h
  simp only [List.nil_append] at B
  refine ⟨B.bal0, fun i bal hi hv => B.bal i hi bal hv, ?_, ?_⟩
  · intro pk
    rw [B.dep pk]
    split
    · rfl
    · next hne =>
      simp only [Option.getD_none]
      unfold depositedUnder
      rw [List.filter_eq_nil_iff.2]
      · rfl
      · intro x hx hc; exact hne ⟨x, hx, by simpa using hc⟩
  · intro pk
    rw [B.dep pk]
    split
    · next h => simp [h]
    · next h => simp [h]

/-- C35, refusals: with total funds below 2^64, a deposit panics exactly for the contract's own account
0, for an unregistered index, and for an overdraft; otherwise it succeeds. -/
theorem C35_deposit_panics_iff (b : Build) (contractPk : G) (cs : List (Call G)) (s : State G)
    (hb : (joinedBalances cs).sum < 2 ^ 64) (h : run b (new contractPk) cs = .ok s) (i a : Nat) :
    (deposit b s i a = .panic ↔ i = 0 ∨ s.pks.length ≤ i ∨ ∃ v, s.accounts[i]? = some v ∧ v < a) ∧
    (deposit b s i a ≠ .panic → ∃ s', deposit b s i a = .ok s') := by
  have B := books_run [] cs (books_new contractPk) (Or.inr hb) h
  simp only [List.nil_append] at B
  have key : (0 < i ∧ ∃ v, s.accounts[i]? = some v ∧ a ≤ v) → ∃ s', deposit b s i a = .ok s' := by
    rintro ⟨hi, v, hv, hav⟩
    have hlt := (List.getElem?_eq_some_iff.1 hv).1
    have hpk : ∃ pk, s.pks[i]? = some pk := by
      rw [B.len] at hlt; exact ⟨s.pks[i], List.getElem?_eq_getElem hlt⟩
    obtain ⟨pk, hpk⟩ := hpk
    unfold deposit
    rw [if_neg (by omega), hv, Outcome.unwrap_some, Outcome.bind_ok, List.getElem?_take,
      if_pos hi, B.bal0, Outcome.unwrap_some, Outcome.bind_ok]
    unfold transfer
    have hset : (s.accounts.set i (v - a))[0]? = some (totalDeposited cs) := by
      rw [List.getElem?_set_ne (by omega)]; exact B.bal0
    have hs1 := sum_set s.accounts i (v - a) v hv
    have hle := getElem?_le_sum hset
    have htot := B.total
    have h64 : totalDeposited cs + a < U64 := by unfold U64; omega
    rw [if_pos hav, addU64_lt b h64, Outcome.bind_ok, Outcome.bind_ok, hpk, Outcome.unwrap_some]
    simp only [Outcome.bind_ok]
    have hd : ∃ d, entryAdd b (s.deposits.get pk) a = .ok d := by
      rw [B.dep pk]
      split
      · have : depositedUnder s.pks cs pk ≤ totalDeposited cs := sum_filter_le _ _
        exact ⟨_, addU64_lt b (by omega)⟩
      · exact ⟨_, rfl⟩
    obtain ⟨d, hd⟩ := hd
    rw [hd]
    exact ⟨_, rfl⟩
  by_cases hgood : 0 < i ∧ ∃ v, s.accounts[i]? = some v ∧ a ≤ v
  · obtain ⟨s', hs'⟩ := key hgood
    refine ⟨?_, fun _ => ⟨s', hs'⟩⟩
    rw [hs']
    refine ⟨fun h => by simp at h, ?_⟩
    obtain ⟨hi, v, hv, hav⟩ := hgood
    rintro (h | h | ⟨v', h1, h2⟩)
    · omega
    · have := (List.getElem?_eq_some_iff.1 hv).1; rw [B.len] at this; omega
    · rw [hv] at h1; simp at h1; omega
  · have hp : deposit b s i a = .panic := by
      unfold deposit
      split
      · rfl
      · rcases hv : s.accounts[i]? with _ | v
        · rfl
        · rw [Outcome.unwrap_some, Outcome.bind_ok, List.getElem?_take]
          split
          · next hi =>
            rw [B.bal0, Outcome.unwrap_some, Outcome.bind_ok]
            unfold transfer
            rw [if_neg (fun hav => hgood ⟨hi, v, hv, hav⟩)]; rfl
          · rfl
    refine ⟨⟨fun _ => ?_, fun _ => hp⟩, fun h => absurd hp h⟩
    by_cases hi : i = 0
    · exact Or.inl hi
    · right
      rcases hv : s.accounts[i]? with _ | v
      · left; rw [← B.len]; exact List.getElem?_eq_none_iff.1 hv
      · right; refine ⟨v, rfl, ?_⟩
        by_contra hc
        exact hgood ⟨by omega, v, hv, by omega⟩

example : ∃ s, run .debug (new 10) toyCalls = .ok s ∧ totalDeposited toyCalls = 150 ∧
    depositedUnder s.pks toyCalls 11 = 100 ∧ deposit .debug s 1 1 = .panic ∧
    deposit .debug s 0 0 = .panic ∧ deposit .debug s 3 0 = .panic :=
  ⟨_, rfl, by decide, by decide, by decide, by decide, by decide⟩

/-! ## C36 -/

/-- C36: after any successful history the registered keys are the contract's followed by the joined
keys in order; `join` returns the next index, which then holds the key, and changes no earlier entry;
accounts and nonces stay aligned; the key index of a registered key is its latest registration, and
only registered keys have one. -/
theorem C36_registry (b : Build) (contractPk : G) (cs : List (Call G)) (s : State G)
    (h : run b (new contractPk) cs = .ok s) :
    s.pks = contractPk :: joinedKeys cs ∧
    s.accounts.length = s.pks.length ∧ s.nonces = List.replicate s.pks.length 0 ∧
    (∀ bal pk, (join s bal pk).2 = s.pks.length ∧
      (join s bal pk).1.pks[(join s bal pk).2]? = some pk ∧
      (join s bal pk).1.accounts[(join s bal pk).2]? = some bal ∧
      (∀ i < s.pks.length, (join s bal pk).1.pks[i]? = s.pks[i]? ∧
        (join s bal pk).1.accounts[i]? = s.accounts[i]?)) ∧
    (∀ pk, s.pkIndices.get pk = none ↔ pk ∉ s.pks) ∧
    (∀ pk i, s.pkIndices.get pk = some i →
      s.pks[i]? = some pk ∧ ∀ j, i < j → s.pks[j]? ≠ some pk) := by
  have R := registry_run [] cs (registry_new contractPk) h
  simp only [List.nil_append] at R
  refine ⟨R.pks, R.len, R.nonces, ?_, ?_, ?_⟩
  · intro bal pk
    refine ⟨rfl, by simp [join], by simp [join, ← R.len], ?_⟩
    intro i hi
    refine ⟨by simp [join, List.getElem?_append_left hi], ?_⟩
    simp only [join]
    rw [List.getElem?_append_left (by rw [R.len]; exact hi)]
  · intro pk
    rcases R.idx pk with ⟨h1, h2⟩ | ⟨i, h1, h2, _⟩
    · simp [h1, h2]
    · simp [h1, List.mem_of_getElem? h2]
  · intro pk i hi
    rcases R.idx pk with ⟨h1, _⟩ | ⟨i', h1, h2, h3⟩
    · rw [h1] at hi; simp at hi
    · rw [h1] at hi; simp at hi; subst hi; exact ⟨h2, h3⟩

/-- A key that joins twice is found at its second index only. -/
example : ∃ s, run .debug (new 10) [.join 1 11, .join 2 12, .join 3 11] = .ok s ∧
    s.pkIndices.get 11 = some 3 ∧ s.pks = [10, 11, 12, 11] := ⟨_, rfl, by decide, by decide⟩

end

/-! ## C37 -/
section
variable [AddCommGroup G] [Module (ZMod q) G]

theorem signerAcc_ok (cv : Curve p q G) (sha : Sha) (pks : List G) (ss : List (Option Nat))
    (a r : ZMod p) :
    signerAcc cv sha pks ss a = .ok r ↔
      ∃ ks, ss.map (signerOf pks) = ks.map some ∧ r = chain (shaField p sha) (signerInput cv) a ks := by
  induction ss generalizing a with
  | nil =>
    simp only [signerAcc, List.map_nil, Outcome.ok.injEq]
    constructor
    · rintro rfl; exact ⟨[], rfl, rfl⟩
    · rintro ⟨ks, h, rfl⟩
      cases ks with
      | nil => rfl
      | cons => simp at h
  | cons i ss ih =>
    have hk : ∀ i, signerKey pks i = (Outcome.unwrap (signerOf pks i) : Outcome Unit G) := by
      intro i; cases i <;> rfl
    simp only [signerAcc, hk]
    rcases ho : signerOf pks i with _ | k
    · constructor
      · intro h; simp at h
      · rintro ⟨ks, h, _⟩
        cases ks with
        | nil => simp at h
        | cons k ks => simp [ho] at h
    · simp only [Outcome.unwrap_some, Outcome.bind_ok, ih]
      constructor
      · rintro ⟨ks, h, rfl⟩; exact ⟨k :: ks, by simp [ho, h], rfl⟩
      · rintro ⟨ks, h, rfl⟩
        cases ks with
        | nil => simp at h
        | cons k' ks =>
          simp only [List.map_cons, ho, List.cons.injEq, Option.some.injEq] at h
          obtain ⟨rfl, h⟩ := h
          exact ⟨ks, h, rfl⟩

theorem amountAcc_ok (cv : Curve p q G) (sha : Sha) (pks : List G) (ds : List (Nat × Nat))
    (a r : ZMod p) :
    amountAcc cv sha pks ds a = .ok r ↔
      ∃ es, ds.map (entryOf pks) = es.map some ∧ r = chain (shaField p sha) (amountInput cv) a es := by
  induction ds generalizing a with
  | nil =>
    simp only [amountAcc, List.map_nil, Outcome.ok.injEq]
    constructor
    · rintro rfl; exact ⟨[], rfl, rfl⟩
    · rintro ⟨ks, h, rfl⟩
      cases ks with
      | nil => rfl
      | cons => simp at h
  | cons d ds ih =>
    obtain ⟨i, m⟩ := d
    simp only [amountAcc]
    rcases ho : pks[i]? with _ | k
    · constructor
      · intro h; simp at h
      · rintro ⟨ks, h, _⟩
        cases ks with
        | nil => simp at h
        | cons k ks => simp [entryOf, ho] at h
    · simp only [Outcome.unwrap_some, Outcome.bind_ok, ih]
      constructor
      · rintro ⟨ks, h, rfl⟩; exact ⟨(k, m) :: ks, by simp [entryOf, ho, h], rfl⟩
      · rintro ⟨ks, h, rfl⟩
        cases ks with
        | nil => simp at h
        | cons k' ks =>
          simp only [List.map_cons, entryOf, ho, Option.map_some, List.cons.injEq,
            Option.some.injEq] at h
          obtain ⟨rfl, h⟩ := h
          exact ⟨ks, h, rfl⟩

theorem signerInput_inj (hp : 0 < p) (cv : Curve p q G) (a : ZMod p) (P : G) (a' : ZMod p) (P' : G)
    (h : signerInput cv a P = signerInput cv a' P') : a = a' ∧ P = P' := by
  have := List.append_inj h (by simp [fBytes_length])
  exact ⟨fBytes_inj hp this.1, pkBytes_inj hp cv this.2⟩

theorem amountInput_inj (hp : 0 < p) (cv : Curve p q G) (a : ZMod p) (e : G × Nat) (a' : ZMod p)
    (e' : G × Nat) (he : e.2 < 2 ^ 64) (he' : e'.2 < 2 ^ 64)
    (h : amountInput cv a e = amountInput cv a' e') : a = a' ∧ e = e' := by
  have h1 := List.append_inj h (by simp [fBytes_length, pkBytes_length])
  have h2 := List.append_inj h1.1 (by simp [fBytes_length])
  refine ⟨fBytes_inj hp h2.1, Prod.ext (pkBytes_inj hp cv h2.2) ?_⟩
  exact bytesLe_inj (by norm_num; norm_num at he; omega) (by norm_num; norm_num at he'; omega) h1.2

/-- Chains of bounded amounts bind (the byte encoding is injective on `u64` amounts). -/
theorem amount_chain_bind (hp : 1 < p) (cv : Curve p q G) (sha : Sha) (es es' : List (G × Nat))
    (a : ZMod p) (hb : ∀ e ∈ es, e.2 < 2 ^ 64) (hb' : ∀ e ∈ es', e.2 < 2 ^ 64)
    (h : chain (shaField p sha) (amountInput cv) a es = chain (shaField p sha) (amountInput cv) a es') :
    es = es' ∨ ChainBreak (shaField p sha) (truncated p sha) (amountInput cv) a es es' :=
  chain_bind_any _ _ _ (fun e => e.2 < 2 ^ 64)
    (fun _ _ _ _ h1 h2 e => amountInput_inj (by omega) cv _ _ _ _ h1 h2 e)
    (fun _ _ h => shaField_eq hp sha h) a es es' hb hb' h

/-- Chains of keys bind. -/
theorem signer_chain_bind (hp : 1 < p) (cv : Curve p q G) (sha : Sha) (ks ks' : List G) (a : ZMod p)
    (h : chain (shaField p sha) (signerInput cv) a ks = chain (shaField p sha) (signerInput cv) a ks') :
    ks = ks' ∨ ChainBreak (shaField p sha) (truncated p sha) (signerInput cv) a ks ks' :=
  chain_bind_any _ _ _ (fun _ => True)
    (fun _ _ _ _ _ _ e => signerInput_inj (by omega) cv _ _ _ _ e)
    (fun _ _ h => shaField_eq hp sha h) a ks ks' (fun _ _ => trivial) (fun _ _ => trivial) h

theorem entries_amounts {pks : List G} {ds : List (Nat × Nat)} {es : List (G × Nat)}
    (h : ds.map (entryOf pks) = es.map some) (hb : ∀ d ∈ ds, d.2 < 2 ^ 64) :
    ∀ e ∈ es, e.2 < 2 ^ 64 := by
  intro e he
  have : some e ∈ ds.map (entryOf pks) := by rw [h]; exact List.mem_map_of_mem he
  obtain ⟨d, hd, hde⟩ := List.mem_map.1 this
  unfold entryOf at hde
  rcases hk : pks[d.1]? with _ | k <;> rw [hk] at hde <;> simp at hde
  rw [← hde]; exact hb d hd

/-- C37: if two blocks derive the same public inputs, then they have the same roots and mean the same
signer keys, deposits and withdrawals; otherwise the SHA transcripts of the two derivations break truncated
SHA: two different inputs met in them have the same truncated digest, or one of them hashes to zero. -/
theorem C37_public_inputs_bind (hp : 1 < p) (cv : Curve p q G) (sha : Sha) (s : State G)
    (b b' : Block (ZMod p)) (z : List (ZMod p))
    (h : derivePublicInputs cv sha s b = .ok z) (h' : derivePublicInputs cv sha s b' = .ok z)
    (hb : BlockAmounts b) (hb' : BlockAmounts b') :
    (b.utxoRoot = b'.utxoRoot ∧ b.txRoot = b'.txRoot ∧ b.signerRoot = b'.signerRoot ∧
      b.signers.map (signerOf s.pks) = b'.signers.map (signerOf s.pks) ∧
      b.deposits.map (entryOf s.pks) = b'.deposits.map (entryOf s.pks) ∧
      b.withdrawals.map (entryOf s.pks) = b'.withdrawals.map (entryOf s.pks)) ∨
    (∃ ks ks', b.signers.map (signerOf s.pks) = ks.map some ∧
      b'.signers.map (signerOf s.pks) = ks'.map some ∧
      ChainBreak (shaField p sha) (truncated p sha) (signerInput cv) 0 ks ks') ∨
    (∃ es es', (b.deposits.map (entryOf s.pks) = es.map some ∧
        b'.deposits.map (entryOf s.pks) = es'.map some ∨
        b.withdrawals.map (entryOf s.pks) = es.map some ∧
        b'.withdrawals.map (entryOf s.pks) = es'.map some) ∧
      ChainBreak (shaField p sha) (truncated p sha) (amountInput cv) 0 es es') := by
  unfold derivePublicInputs at h h'
  rcases h1 : signerAcc cv sha s.pks b.signers 0 with sa | e | _ <;> rw [h1] at h <;> simp at h
  rcases h2 : amountAcc cv sha s.pks b.deposits 0 with da | e | _ <;> rw [h2] at h <;> simp at h
  rcases h3 : amountAcc cv sha s.pks b.withdrawals 0 with wa | e | _ <;> rw [h3] at h <;> simp at h
  rcases h1' : signerAcc cv sha s.pks b'.signers 0 with sa' | e | _ <;> rw [h1'] at h' <;> simp at h'
  rcases h2' : amountAcc cv sha s.pks b'.deposits 0 with da' | e | _ <;> rw [h2'] at h' <;> simp at h'
  rcases h3' : amountAcc cv sha s.pks b'.withdrawals 0 with wa' | e | _ <;> rw [h3'] at h' <;>
    simp at h'
  rw [← h'] at h
  simp only [List.cons.injEq, and_true] at h
  obtain ⟨-, hu, ht, -, hsr, hsa, hda, hwa⟩ := h
  obtain ⟨ks, hk, rfl⟩ := (signerAcc_ok cv sha s.pks _ _ _).1 h1
  obtain ⟨ks', hk', rfl⟩ := (signerAcc_ok cv sha s.pks _ _ _).1 h1'
  obtain ⟨ds, hds, rfl⟩ := (amountAcc_ok cv sha s.pks _ _ _).1 h2
  obtain ⟨ds', hds', rfl⟩ := (amountAcc_ok cv sha s.pks _ _ _).1 h2'
  obtain ⟨ws, hws, rfl⟩ := (amountAcc_ok cv sha s.pks _ _ _).1 h3
  obtain ⟨ws', hws', rfl⟩ := (amountAcc_ok cv sha s.pks _ _ _).1 h3'
  rcases signer_chain_bind hp cv sha ks ks' 0 hsa with ek | hc
  · rcases amount_chain_bind hp cv sha ds ds' 0 (entries_amounts hds hb.1)
      (entries_amounts hds' hb'.1) hda with ed | hc
    · rcases amount_chain_bind hp cv sha ws ws' 0 (entries_amounts hws hb.2)
        (entries_amounts hws' hb'.2) hwa with ew | hc
      · left
        exact ⟨hu, ht, hsr, by rw [hk, hk', ek], by rw [hds, hds', ed], by rw [hws, hws', ew]⟩
      · exact Or.inr (Or.inr ⟨ws, ws', Or.inr ⟨hws, hws'⟩, hc⟩)
    · exact Or.inr (Or.inr ⟨ds, ds', Or.inl ⟨hds, hds'⟩, hc⟩)
  · exact Or.inr (Or.inl ⟨ks, ks', hk, hk', hc⟩)

/-- C37: with a duplicate-free registry that does not contain the zero point, the keyed lists
determine the block's index lists. -/
theorem C37_indices (pks : List G) (hnd : pks.Nodup) (h0 : (0 : G) ∉ pks)
    (ss ss' : List (Option Nat)) (ds ds' : List (Nat × Nat))
    (hss : ∀ i, some i ∈ ss → i < pks.length) (hds : ∀ d ∈ ds, d.1 < pks.length) :
    (ss.map (signerOf pks) = ss'.map (signerOf pks) → ss = ss') ∧
    (ds.map (entryOf pks) = ds'.map (entryOf pks) → ds = ds') := by
  constructor
  · intro h
    induction ss generalizing ss' with
    | nil => cases ss' with
      | nil => rfl
      | cons => simp at h
    | cons a ss ih =>
      cases ss' with
      | nil => simp at h
      | cons a' ss' =>
        simp only [List.map_cons, List.cons.injEq] at h
        rw [ih ss' (fun i hi => hss i (by simp [hi])) h.2]
        congr 1
        have h1 := h.1
        cases a with
        | none =>
          cases a' with
          | none => rfl
          | some j =>
            exact absurd (List.mem_of_getElem? (by simpa [signerOf] using h1.symm)) h0
        | some i =>
          have hi := hss i (by simp)
          cases a' with
          | none => exact absurd (List.mem_of_getElem? (by simpa [signerOf] using h1)) h0
          | some j => exact congrArg some ((List.getElem?_inj hi hnd).1 h1)
  · intro h
    induction ds generalizing ds' with
    | nil => cases ds' with
      | nil => rfl
      | cons => simp at h
    | cons a ds ih =>
      cases ds' with
      | nil => simp at h
      | cons a' ds' =>
        simp only [List.map_cons, List.cons.injEq] at h
        rw [ih ds' (fun d hd => hds d (by simp [hd])) h.2]
        congr 1
        have hi := hds a (by simp)
        have h1 := h.1
        unfold entryOf at h1
        rw [List.getElem?_eq_getElem hi] at h1
        rcases hj : pks[a'.1]? with _ | k
        · rw [hj] at h1; simp at h1
        · rw [hj] at h1; simp at h1
          have : a.1 = a'.1 := (List.getElem?_inj hi hnd).1 (by rw [hj, List.getElem?_eq_getElem hi, h1.1])
          exact Prod.ext this h1.2

/-- C37: the derivation succeeds exactly when every index of the block is registered (it panics
otherwise). -/
theorem C37_derivation_total (cv : Curve p q G) (sha : Sha) (s : State G) (b : Block (ZMod p)) :
    (∃ z, derivePublicInputs cv sha s b = .ok z) ↔
      (∀ i, some i ∈ b.signers → i < s.pks.length) ∧ (∀ d ∈ b.deposits, d.1 < s.pks.length) ∧
      (∀ w ∈ b.withdrawals, w.1 < s.pks.length) := by
  have A : ∀ ss a, (∃ r, signerAcc (p := p) cv sha s.pks ss a = .ok r) ↔
      ∀ i, some i ∈ ss → i < s.pks.length := by
    intro ss
    induction ss with
    | nil => intro a; simp [signerAcc]
    | cons x ss ih =>
      intro a
      simp only [signerAcc]
      cases x with
      | none => simp only [signerKey, Outcome.bind_ok, ih]; simp
      | some i =>
        rcases hk : s.pks[i]? with _ | k
        · simp only [signerKey, hk, Outcome.unwrap_none, Outcome.bind_panic]
          refine ⟨by rintro ⟨r, h⟩; simp at h, fun h => ?_⟩
          have := h i (by simp); rw [List.getElem?_eq_none_iff] at hk; omega
        · have := (List.getElem?_eq_some_iff.1 hk).1
          simp only [signerKey, hk, Outcome.unwrap_some, Outcome.bind_ok, ih, List.mem_cons,
            Option.some.injEq]
          exact ⟨fun h j hj => by rcases hj with rfl | hj; exact this; exact h j hj,
            fun h j hj => h j (Or.inr hj)⟩
  have B : ∀ ds a, (∃ r, amountAcc (p := p) cv sha s.pks ds a = .ok r) ↔
      ∀ d ∈ ds, d.1 < s.pks.length := by
    intro ds
    induction ds with
    | nil => intro a; simp [amountAcc]
    | cons x ds ih =>
      intro a
      obtain ⟨i, m⟩ := x
      simp only [amountAcc]
      rcases hk : s.pks[i]? with _ | k
      · simp only [Outcome.unwrap_none, Outcome.bind_panic]
        refine ⟨by rintro ⟨r, h⟩; simp at h, fun h => ?_⟩
        have := h (i, m) (by simp); rw [List.getElem?_eq_none_iff] at hk; simp at this; omega
      · have := (List.getElem?_eq_some_iff.1 hk).1
        simp only [Outcome.unwrap_some, Outcome.bind_ok, ih, List.mem_cons, forall_eq_or_imp]
        exact ⟨fun h => ⟨this, h⟩, fun h => h.2⟩
  unfold derivePublicInputs
  rw [← A b.signers 0, ← B b.deposits 0, ← B b.withdrawals 0]
  rcases h1 : signerAcc cv sha s.pks b.signers 0 with sa | e | _ <;> simp
  rcases h2 : amountAcc cv sha s.pks b.deposits 0 with da | e | _ <;> simp
  rcases h3 : amountAcc cv sha s.pks b.withdrawals 0 with wa | e | _ <;> simp

/-- The block height is not part of the public inputs: blocks that differ only in height derive
the same public inputs. -/
theorem C37_height_not_bound (cv : Curve p q G) (sha : Sha) (s : State G) (b : Block (ZMod p))
    (height : Nat) :
    derivePublicInputs cv sha s { b with height := height } = derivePublicInputs cv sha s b := rfl

/-- Toy digest. -/
def toySha : Sha :=
  ⟨fun l => List.replicate 30 (l.foldl (fun a b => 3 * a + b + 7) 0) ++ [1, 2], fun _ => rfl⟩

def toyContract : State (ZMod 7) :=
  { pks := [3, 5], pkIndices := [(5, 1), (3, 0)], accounts := [0, 9], nonces := [0, 0], deposits := [] }

def toyBlock : Block (ZMod 101) :=
  { utxoRoot := 1, txRoot := 2, signerRoot := 3, signers := [some 0, none, some 1], height := 0,
    deposits := [(1, 100)], withdrawals := [] }

/-- Non-vacuity: a block whose inputs are derived and meet all hypotheses of `C37`. -/
example : ∃ z, derivePublicInputs toyCurve toySha toyContract toyBlock = .ok z ∧
    BlockAmounts toyBlock ∧ toyContract.pks.Nodup ∧
    (0 : ZMod 7) ∉ toyContract.pks :=
  ⟨_, rfl, ⟨by decide, by decide⟩, by decide, by decide⟩

end
end PF.Props
