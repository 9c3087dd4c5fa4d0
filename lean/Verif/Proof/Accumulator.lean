import Verif.Model.Accumulator
import Verif.Spec.Accumulator
import Verif.Proof.Schnorr
import Verif.Proof.Data

/-!
# Lemmas about bytes and hash chains
-/

namespace PF
open PF.Circuit

theorem bytesLe_length (n x : Nat) : (bytesLe n x).length = n := by
  induction n generalizing x with
  | zero => rfl
  | succ n ih => simp [bytesLe, ih]

theorem bytesVal_bytesLe (n x : Nat) : bytesVal (bytesLe n x) = x % 256 ^ n := by
  induction n generalizing x with
  | zero => simp [bytesLe, bytesVal, Nat.mod_one]
  | succ n ih =>
    simp only [bytesLe, bytesVal, ih]
    rw [pow_succ, mul_comm (256 ^ n) 256, Nat.mod_mul]

theorem bytesVal_lt (l : List Byte) : bytesVal l < 256 ^ l.length := by
  induction l with
  | nil => simp [bytesVal]
  | cons b t ih =>
    simp only [bytesVal, List.length_cons, pow_succ]
    have := b.isLt
    omega

theorem bytesLe_bytesVal (l : List Byte) : bytesLe l.length (bytesVal l) = l := by
  induction l with
  | nil => rfl
  | cons b t ih =>
    simp only [bytesVal, List.length_cons, bytesLe]
    have h1 : (b.val + 256 * bytesVal t) % 256 = b.val := by have := b.isLt; omega
    have h2 : (b.val + 256 * bytesVal t) / 256 = bytesVal t := by have := b.isLt; omega
    simp only [h1, h2, ih]

theorem bytesVal_inj {l l' : List Byte} (hl : l.length = l'.length) (h : bytesVal l = bytesVal l') :
    l = l' := by
  rw [← bytesLe_bytesVal l, ← bytesLe_bytesVal l', hl, h]

theorem bytesLe_inj {n x y : Nat} (hx : x < 256 ^ n) (hy : y < 256 ^ n)
    (h : bytesLe n x = bytesLe n y) : x = y := by
  have := congrArg bytesVal h
  rwa [bytesVal_bytesLe, bytesVal_bytesLe, Nat.mod_eq_of_lt hx, Nat.mod_eq_of_lt hy] at this

variable {p : Nat}

theorem two_pow_le_fieldBytes : 2 ^ modBits p ≤ 256 ^ fieldBytes p := by
  have h : (256 : Nat) = 2 ^ 8 := by norm_num
  rw [h, ← pow_mul]
  apply Nat.pow_le_pow_right (by norm_num)
  unfold fieldBytes; omega

theorem fBytes_length (x : ZMod p) : (fBytes x).length = fieldBytes p := bytesLe_length _ _

theorem fBytes_inj (hp : 0 < p) {x y : ZMod p} (h : fBytes x = fBytes y) : x = y := by
  have : NeZero p := ⟨by omega⟩
  apply ZMod.val_injective p
  exact bytesLe_inj (lt_of_lt_of_le (lt_two_pow_modBits hp x) two_pow_le_fieldBytes)
    (lt_of_lt_of_le (lt_two_pow_modBits hp y) two_pow_le_fieldBytes) h

theorem bytesOfBits_eq (k : Nat) (bits : List Bool) (h : bits.length = 8 * k) :
    bytesOfBits bits = bytesLe k (bitsVal bits) := by
  induction k generalizing bits with
  | zero =>
    have : bits = [] := List.length_eq_zero_iff.1 (by omega)
    subst this; simp [bytesOfBits, Schnorr.chunks, bytesLe]
  | succ k ih =>
    cases bits with
    | nil => simp at h
    | cons b t =>
      have ht : t.length = 8 * k + 7 := by simp at h; omega
      unfold bytesOfBits
      rw [Schnorr.chunks]
      have hb : bitsVal (b :: t) = bitsVal (b :: t.take 7) + 256 * bitsVal (t.drop 7) := by
        conv_lhs => rw [← List.take_append_drop 7 t, ← List.cons_append, Schnorr.bitsVal_append]
        have : (b :: t.take 7).length = 8 := by simp [ht]
        rw [this]; norm_num
      have h8 : bitsVal (b :: t.take 7) < 256 := by
        have := bitsVal_lt (b :: t.take 7)
        have hl : (b :: t.take 7).length = 8 := by simp [ht]
        rw [hl] at this; exact this
      simp only [List.map_cons, bytesLe]
      have ih' := ih (t.drop 7) (by simp [ht])
      unfold bytesOfBits at ih'
      rw [ih', hb]
      have e1 : (bitsVal (b :: t.take 7) + 256 * bitsVal (t.drop 7)) % 256
          = bitsVal (b :: t.take 7) := by omega
      have e2 : (bitsVal (b :: t.take 7) + 256 * bitsVal (t.drop 7)) / 256
          = bitsVal (t.drop 7) := by omega
      simp only [e1, e2, byteOfBits, Nat.mod_eq_of_lt h8]

theorem bitsVal_replicate_false (n : Nat) : bitsVal (List.replicate n false) = 0 := by
  induction n with
  | zero => rfl
  | succ n ih => simp [List.replicate_succ, bitsVal, ih]

theorem fBytesVar_eq (hp : 0 < p) (x : ZMod p) : fBytesVar x = fBytes x := by
  unfold fBytesVar fBytes
  have hm : modBits p ≤ 8 * fieldBytes p := by unfold fieldBytes; omega
  rw [bytesOfBits_eq (fieldBytes p)]
  · rw [Schnorr.bitsVal_append, bitsVal_replicate_false, bitsVal_toBitsLe hp]; simp
  · simp [toBitsLe_length]; omega

theorem bitsVal_flatMap_bytes (bs : List Byte) : bitsVal (bs.flatMap bitsOfByte) = bytesVal bs := by
  induction bs with
  | nil => rfl
  | cons b t ih =>
    simp only [List.flatMap_cons, bytesVal, Schnorr.bitsVal_append, ih]
    unfold bitsOfByte
    rw [bitsVal_natBits, natBits_length]
    have := b.isLt
    rw [Nat.mod_eq_of_lt (by simp)]
    norm_num

theorem packVar_eq (bs : List Byte) : packVar p bs = (bytesVal (bs.take (capBytes p)) : ZMod p) := by
  unfold packVar; rw [bitsVal_flatMap_bytes]

theorem shaFieldVar_eq (sha : Sha) (bs : List Byte) : shaFieldVar p sha bs = shaField p sha bs := by
  unfold shaFieldVar shaField; rw [packVar_eq]

theorem capBytes_lt (hp : 0 < p) (bs : List Byte) (h : bs.length ≤ capBytes p) :
    bytesVal bs < p := by
  have h2 := Schnorr.pow_modBits_pred_le hp
  have hb := bytesVal_lt bs
  have h3 : (256 : Nat) ^ bs.length ≤ 2 ^ (modBits p - 1) := by
    have h : (256 : Nat) = 2 ^ 8 := by norm_num
    rw [h, ← pow_mul]
    apply Nat.pow_le_pow_right (by norm_num)
    unfold capBytes at *; omega
  omega

/-- Equal truncated-SHA field elements mean equal truncated digests. -/
theorem shaField_eq (hp : 1 < p) (sha : Sha) {x y : List Byte}
    (h : shaField p sha x = shaField p sha y) :
    ((sha.digest x).take 31).take (capBytes p) = ((sha.digest y).take 31).take (capBytes p) := by
  unfold shaField at h
  have hl : ∀ z, (((sha.digest z).take 31).take (capBytes p)).length = min (capBytes p) 31 := by
    intro z; simp [sha.len]
  have hb : ∀ z, bytesVal (((sha.digest z).take 31).take (capBytes p)) < p := by
    intro z; exact capBytes_lt (by omega) _ (by rw [hl]; omega)
  exact bytesVal_inj (by rw [hl, hl]) (natCast_inj_of_lt (hb x) (hb y) h)

section
variable {q : Nat} {G : Type} [AddCommGroup G] [Module (ZMod q) G]

theorem pkBytesVar_eq (hp : 0 < p) (cv : Curve p q G) (P : G) : pkBytesVar cv P = pkBytes cv P := by
  unfold pkBytesVar pkBytes
  rw [fBytesVar_eq hp, fBytesVar_eq hp]
  cases (cv.xy P).isNone <;> rfl

theorem pkBytes_length (cv : Curve p q G) (P : G) :
    (pkBytes cv P).length = 2 * fieldBytes p + 1 := by
  simp [pkBytes, fBytes_length]; omega

theorem pkBytes_inj (hp : 0 < p) (cv : Curve p q G) {P Q : G} (h : pkBytes cv P = pkBytes cv Q) :
    P = Q := by
  unfold pkBytes at h
  have h1 := List.append_inj h (by simp [fBytes_length])
  have h2 := List.append_inj h1.1 (by simp [fBytes_length])
  have hx := fBytes_inj hp h2.1
  have hy := fBytes_inj hp h2.2
  have hf := h1.2
  apply cv.xy_inj
  rcases hP : cv.xy P with _ | ⟨x, y⟩ <;> rcases hQ : cv.xy Q with _ | ⟨x', y'⟩ <;>
    simp_all

end

namespace Spec

theorem chain_cons {D V Q : Type} (h : Q → D) (inp : D → V → Q) (a : D) (v : V) (vs : List V) :
    chain h inp a (v :: vs) = chain h inp (h (inp a v)) vs := rfl

theorem TranscriptCollision.cons {D Q : Type} {t : Q → D} {xs ys : List Q} (x y : Q)
    (h : TranscriptCollision t xs ys) : TranscriptCollision t (x :: xs) (y :: ys) := by
  obtain ⟨i, a, b, h1, h2, h3⟩ := h
  exact ⟨i + 1, a, b, by simpa using h1, by simpa using h2, h3⟩

theorem chain_snoc {D V Q : Type} (h : Q → D) (inp : D → V → Q) (a : D) (vs : List V) (v : V) :
    chain h inp a (vs ++ [v]) = h (inp (chain h inp a vs) v) := by simp [chain]

theorem chainInputs_snoc {D V Q : Type} (h : Q → D) (inp : D → V → Q) (a : D) (vs : List V) (v : V) :
    chainInputs h inp a (vs ++ [v]) = chainInputs h inp a vs ++ [inp (chain h inp a vs) v] := by
  induction vs generalizing a with
  | nil => rfl
  | cons w vs ih => simp only [List.cons_append, chainInputs, ih]; rfl

theorem ChainBreak.snoc {D E V Q : Type} {h : Q → D} {t : Q → E} {inp : D → V → Q} {a : D}
    {vs vs' : List V} (v v' : V) (hb : ChainBreak h t inp a vs vs') :
    ChainBreak h t inp a (vs ++ [v]) (vs' ++ [v']) := by
  unfold ChainBreak
  rw [chainInputs_snoc, chainInputs_snoc]
  rcases hb with ⟨x, hx, y, hy, hb⟩ | ⟨x, hx, hb⟩
  · exact Or.inl ⟨x, by simp [hx], y, by simp [hy], hb⟩
  · refine Or.inr ⟨x, ?_, hb⟩
    rcases List.mem_append.1 hx with hx | hx <;> simp [hx]

/-- Two chains of any lengths with the same start and the same end are the same, or break the hash. -/
theorem chain_bind_any {D E V Q : Type} (h : Q → D) (t : Q → E) (inp : D → V → Q) (ok : V → Prop)
    (hinj : ∀ a v a' v', ok v → ok v' → inp a v = inp a' v' → a = a' ∧ v = v')
    (ht : ∀ x y, h x = h y → t x = t y) (a : D)
    (vs vs' : List V) (hv : ∀ v ∈ vs, ok v) (hv' : ∀ v ∈ vs', ok v)
    (heq : chain h inp a vs = chain h inp a vs') : vs = vs' ∨ ChainBreak h t inp a vs vs' := by
  classical
  induction vs using List.reverseRecOn generalizing vs' with
  | nil =>
    rcases List.eq_nil_or_concat vs' with rfl | ⟨ws, w, rfl⟩
    · exact Or.inl rfl
    · rw [List.concat_eq_append, chain_snoc] at heq
      refine Or.inr (Or.inr ⟨inp (chain h inp a ws) w, ?_, heq.symm⟩)
      rw [List.concat_eq_append, chainInputs_snoc]; simp
  | append_singleton vs v ih =>
    rcases List.eq_nil_or_concat vs' with rfl | ⟨ws, w, rfl⟩
    · rw [chain_snoc] at heq
      refine Or.inr (Or.inr ⟨inp (chain h inp a vs) v, ?_, heq⟩)
      rw [chainInputs_snoc]; simp
    · rw [List.concat_eq_append] at hv' heq ⊢
      rw [chain_snoc, chain_snoc] at heq
      by_cases hx : inp (chain h inp a vs) v = inp (chain h inp a ws) w
      · obtain ⟨e1, e2⟩ := hinj _ _ _ _ (hv v (by simp)) (hv' w (by simp)) hx
        rcases ih ws (fun x hx => hv x (by simp [hx])) (fun x hx => hv' x (by simp [hx])) e1 with e | e
        · exact Or.inl (by rw [e, e2])
        · exact Or.inr (e.snoc v w)
      · refine Or.inr (Or.inl ⟨_, ?_, _, ?_, hx, ht _ _ heq⟩) <;> rw [chainInputs_snoc] <;> simp


/-- Chains bind: equally long histories with the same final value are equal, or the two transcripts
exhibit a collision. `t` is what equality of hash values gives (e.g. equal truncated digests). -/
theorem chain_bind {D E V Q : Type} (h : Q → D) (t : Q → E) (inp : D → V → Q)
    (hinj : ∀ a v a' v', inp a v = inp a' v' → a = a' ∧ v = v')
    (ht : ∀ x y, h x = h y → t x = t y)
    (vs vs' : List V) (a a' : D) (hl : vs.length = vs'.length)
    (heq : chain h inp a vs = chain h inp a' vs') :
    (a = a' ∧ vs = vs') ∨
      TranscriptCollision t (chainInputs h inp a vs) (chainInputs h inp a' vs') := by
  classical
  induction vs generalizing vs' a a' with
  | nil =>
    cases vs' with
    | nil => exact Or.inl ⟨heq, rfl⟩
    | cons => simp at hl
  | cons v vs ih =>
    cases vs' with
    | nil => simp at hl
    | cons v' vs' =>
      rw [chain_cons, chain_cons] at heq
      rcases ih vs' _ _ (by simpa using hl) heq with ⟨h1, h2⟩ | hc
      · by_cases hx : inp a v = inp a' v'
        · obtain ⟨ha, hv⟩ := hinj _ _ _ _ hx
          exact Or.inl ⟨ha, by rw [hv, h2]⟩
        · exact Or.inr ⟨0, inp a v, inp a' v', rfl, rfl, hx, ht _ _ h1⟩
      · exact Or.inr (TranscriptCollision.cons _ _ hc)

end Spec
end PF
