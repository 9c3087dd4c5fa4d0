import Verif.Model.SparseMT
import Verif.Proof.Merkle

/-! Invariant of the native sparse Merkle tree and refinement to `Spec.nodeAt`. -/

namespace PF.MT
open PF.Spec
variable {L D : Type}

/-- Heap index of node `j` at depth `d`. -/
def hidx (d j : Nat) : Nat := 2 ^ d - 1 + j

theorem convertIndex_eq (i h : Nat) : convertIndex i h = hidx (h - 1) i := by
  have := Nat.two_pow_pos (h - 1)
  simp only [convertIndex, hidx]; omega

theorem hidx_zero : hidx 0 0 = 0 := rfl

theorem hidx_succ_pos (d j : Nat) : 0 < hidx (d + 1) j := by
  have := Nat.two_pow_pos d
  simp only [hidx, pow_succ]; omega

theorem parent_hidx (d j : Nat) : parent (hidx (d + 1) j) = some (hidx d (j / 2)) := by
  have := Nat.two_pow_pos d
  have h := hidx_succ_pos d j
  simp only [parent, h, if_true, Option.some.injEq]
  simp only [hidx, pow_succ]; omega

theorem isLeftChild_hidx (d j : Nat) : isLeftChild (hidx (d + 1) j) = decide (j % 2 = 0) := by
  have := Nat.two_pow_pos d
  have e : hidx (d + 1) j % 2 = 1 ↔ j % 2 = 0 := by simp only [hidx, pow_succ]; omega
  simp only [isLeftChild]
  by_cases h : j % 2 = 0
  · simp [h, e.2 h]
  · have : hidx (d + 1) j % 2 ≠ 1 := fun hh => h (e.1 hh)
    simp [h, this]

/-- Sibling position. -/
def sibPos (j : Nat) : Nat := if j % 2 = 0 then j + 1 else j - 1

theorem sibling_hidx (d j : Nat) : sibling (hidx (d + 1) j) = some (hidx (d + 1) (sibPos j)) := by
  have := hidx_succ_pos d j
  have := Nat.two_pow_pos d
  have h0 : hidx (d + 1) j ≠ 0 := by omega
  simp only [sibling, h0, if_false, isLeftChild_hidx, decide_eq_true_eq, sibPos]
  split
  · simp only [hidx, Option.some.injEq]; omega
  · simp only [hidx, Option.some.injEq]; omega

theorem leftChild_hidx (d j : Nat) : leftChild (hidx d j) = hidx (d + 1) (2 * j) := by
  have := Nat.two_pow_pos d
  simp only [leftChild, hidx, pow_succ]; omega

theorem rightChild_hidx (d j : Nat) : rightChild (hidx d j) = hidx (d + 1) (2 * j + 1) := by
  have := Nat.two_pow_pos d
  simp only [rightChild, hidx, pow_succ]; omega

theorem hidx_lt (d j : Nat) (h : j < 2 ^ d) : hidx d j < 2 ^ (d + 1) - 1 := by
  simp only [hidx, pow_succ]; omega

theorem hidx_inj {d d' j j' : Nat} (h : j < 2 ^ d) (h' : j' < 2 ^ d')
    (e : hidx d j = hidx d' j') : d = d' ∧ j = j' := by
  have key : ∀ {d d' j j' : Nat}, j < 2 ^ d → d < d' → hidx d j ≠ hidx d' j' := by
    intro d d' j j' h hd e
    have h1 := hidx_lt d j h
    have h2 : 2 ^ (d + 1) ≤ 2 ^ d' := Nat.pow_le_pow_right (by omega) hd
    have h3 : 2 ^ d' - 1 ≤ hidx d' j' := by simp only [hidx]; omega
    omega
  rcases Nat.lt_trichotomy d d' with hd | hd | hd
  · exact absurd e (key h hd)
  · subst hd
    refine ⟨rfl, ?_⟩
    simp only [hidx] at e; omega
  · exact absurd e.symm (key h' hd)

theorem sibPos_lt {d j : Nat} (h : j < 2 ^ (d + 1)) : sibPos j < 2 ^ (d + 1) := by
  have := Nat.two_pow_pos d
  simp only [sibPos, pow_succ] at *
  split <;> omega

/-- Digest of an empty subtree of height `ℓ`. -/
def emp (cfg : Config L D) (ℓ : Nat) : D := nodeAt cfg.h2 (fun _ => cfg.leafHash cfg.dflt) ℓ 0

theorem emp_succ (cfg : Config L D) (ℓ : Nat) : emp cfg (ℓ + 1) = cfg.h2 (emp cfg ℓ) (emp cfg ℓ) := by
  simp only [emp, nodeAt]; rw [nodeAt_const cfg.h2 _ ℓ (2 * 0 + 1) 0]

theorem genEmptyHashes_go (cfg : Config L D) (n k ℓ : Nat) (h : k ≤ n) :
    (genEmptyHashes.go cfg (emp cfg ℓ) n)[k]? = some (emp cfg (ℓ + k)) := by
  induction n generalizing k ℓ with
  | zero =>
    have : k = 0 := by omega
    subst this; rfl
  | succ n ih =>
    cases k with
    | zero => rfl
    | succ k =>
      simp only [genEmptyHashes.go, List.getElem?_cons_succ]
      rw [← emp_succ, ih k (ℓ + 1) (by omega)]
      congr 2; omega

theorem genEmptyHashes_get (cfg : Config L D) (n k : Nat) (h : k ≤ n) :
    (genEmptyHashes cfg n)[k]? = some (emp cfg k) := by
  have := genEmptyHashes_go cfg n k 0 h
  simp only [Nat.zero_add] at this
  exact this

theorem genEmptyHashes_drop (cfg : Config L D) (n k : Nat) (h : k ≤ n) :
    (genEmptyHashes cfg n).drop k = emp cfg k :: (genEmptyHashes cfg n).drop (k + 1) := by
  have h1 := genEmptyHashes_get cfg n k h
  obtain ⟨hlt, he⟩ := List.getElem?_eq_some_iff.1 h1
  rw [List.drop_eq_getElem_cons hlt, he]

/-- Leaf digests of contents `c`. -/
abbrev lf (cfg : Config L D) (c : Nat → L) : Nat → D := fun i => cfg.leafHash (c i)

/-- The stored map represents contents `c`. -/
structure Rep (cfg : Config L D) (t : STree D) (c : Nat → L) : Prop where
  es : t.emptyHashes = genEmptyHashes cfg cfg.height
  root : t.root = some (nodeAt cfg.h2 (lf cfg c) (cfg.height - 1) 0)
  node : ∀ d ℓ j, d + ℓ = cfg.height - 1 → j < 2 ^ d →
    (t.tree.get (hidx d j)).getD (emp cfg ℓ) = nodeAt cfg.h2 (lf cfg c) ℓ j
  range : ∀ k ∈ t.tree.keys, k < 2 ^ (cfg.height - 1 + 1) - 1
  closed : ∀ d ℓ i, d + ℓ = cfg.height - 1 → i < 2 ^ (cfg.height - 1) →
    (t.tree.get (hidx (cfg.height - 1) i)).isSome → (t.tree.get (hidx d (i / 2 ^ ℓ))).isSome

theorem Rep.congr {cfg : Config L D} {t : STree D} {c c' : Nat → L} (h : Rep cfg t c)
    (e : ∀ i, i < 2 ^ (cfg.height - 1) → c i = c' i) : Rep cfg t c' := by
  have key : ∀ d ℓ j, d + ℓ = cfg.height - 1 → j < 2 ^ d →
      nodeAt cfg.h2 (lf cfg c) ℓ j = nodeAt cfg.h2 (lf cfg c') ℓ j := by
    intro d ℓ j h1 h2
    apply nodeAt_congr
    intro i _ h4
    simp only [lf]
    rw [e]
    calc i < (j + 1) * 2 ^ ℓ := h4
      _ ≤ 2 ^ d * 2 ^ ℓ := Nat.mul_le_mul_right _ h2
      _ = 2 ^ (cfg.height - 1) := by rw [← pow_add, h1]
  refine ⟨h.es, ?_, ?_, h.range, h.closed⟩
  · rw [h.root, key 0 _ 0 (by omega) (by simp)]
  · intro d ℓ j h1 h2; rw [h.node d ℓ j h1 h2, key d ℓ j h1 h2]

theorem blank_rep (cfg : Config L D) :
    ∃ t, blank cfg = .ok t ∧ Rep cfg t (fun _ => cfg.dflt) := by
  refine ⟨{ tree := [], root := some (emp cfg (cfg.height - 1)),
            emptyHashes := genEmptyHashes cfg cfg.height }, ?_, rfl, rfl, ?_, ?_, ?_⟩
  · simp only [blank, genEmptyHashes_get cfg cfg.height (cfg.height - 1) (by omega),
      Outcome.unwrap_some, Outcome.bind_ok]
  · intro d ℓ j _ _
    simp only [BMap.get, Option.getD_none, emp]
    exact nodeAt_const _ _ _ _ _
  · intro k hk; simp [BMap.keys] at hk
  · intro d ℓ i _ _ h; simp [BMap.get] at h

/-- Sibling digests met when climbing `n` levels from node `j` of level `ℓ`. -/
def sibsFrom (h2 : D → D → D) (f : Nat → D) (ℓ : Nat) : Nat → Nat → List D
  | 0, _ => []
  | n + 1, j => nodeAt h2 f ℓ (sibPos j) :: sibsFrom h2 f (ℓ + 1) n (j / 2)

theorem sibsFrom_length (h2 : D → D → D) (f : Nat → D) (ℓ n j : Nat) :
    (sibsFrom h2 f ℓ n j).length = n := by
  induction n generalizing ℓ j with
  | zero => rfl
  | succ n ih => simp [sibsFrom, ih]

theorem node_pair (h2 : D → D → D) (f : Nat → D) (ℓ j : Nat) :
    (if j % 2 = 0 then h2 (nodeAt h2 f ℓ j) (nodeAt h2 f ℓ (sibPos j))
      else h2 (nodeAt h2 f ℓ (sibPos j)) (nodeAt h2 f ℓ j)) = nodeAt h2 f (ℓ + 1) (j / 2) := by
  rw [nodeAt_succ_half]
  unfold sibPos
  split
  · congr 2 <;> omega
  · congr 2 <;> omega

theorem half_lt {d j : Nat} (h : j < 2 ^ (d + 1)) : j / 2 < 2 ^ d := by
  rw [pow_succ] at h; omega

theorem div_pow_lt {N d ℓ i : Nat} (h : d + ℓ = N) (hi : i < 2 ^ N) : i / 2 ^ ℓ < 2 ^ d := by
  rw [Nat.div_lt_iff_lt_mul (by positivity), ← pow_add, h]; exact hi

theorem siblingsLoop_eq {cfg : Config L D} {t : STree D} {c : Nat → L} (h : Rep cfg t c)
    {ε : Type} (n ℓ j : Nat) (hn : n + ℓ = cfg.height - 1) (hj : j < 2 ^ n) :
    (siblingsLoop t n ℓ (hidx n j) : Outcome ε _) = .ok (sibsFrom cfg.h2 (lf cfg c) ℓ n j) := by
  induction n generalizing ℓ j with
  | zero => rfl
  | succ n ih =>
    simp only [siblingsLoop, sibling_hidx, parent_hidx, Outcome.unwrap_some, Outcome.bind_ok, h.es,
      genEmptyHashes_get cfg cfg.height ℓ (by omega)]
    rw [ih (ℓ + 1) (j / 2) (by omega) (half_lt hj)]
    simp only [Outcome.bind_ok, sibsFrom]
    rw [h.node (n + 1) ℓ _ hn (sibPos_lt hj)]

/-- Digest and map after the insertion loop. -/
theorem insertLoop_eq {cfg : Config L D} {c : Nat → L} {i : Nat} {v : L} {ε : Type}
    (n ℓ j : Nat) (m : BMap D) (hj : j < 2 ^ n) (hij : i / 2 ^ ℓ = j) :
    ∃ m', (insertLoop cfg.h2 (sibsFrom cfg.h2 (lf cfg c) ℓ n j) m
        (nodeAt cfg.h2 (lf cfg (write c i v)) ℓ j) (hidx n j) : Outcome ε _) =
        .ok (m', nodeAt cfg.h2 (lf cfg (write c i v)) (ℓ + n) (j / 2 ^ n)) ∧
      (∀ d' ℓ' j', d' + ℓ' = n + ℓ → j' < 2 ^ d' → 0 < d' →
        m'.get (hidx d' j') = if d' ≤ n ∧ j' = i / 2 ^ ℓ' then
          some (nodeAt cfg.h2 (lf cfg (write c i v)) ℓ' j') else m.get (hidx d' j')) ∧
      (∀ k, k ∈ m'.keys → k ∈ m.keys ∨ k < 2 ^ (n + 1) - 1) := by
  induction n generalizing ℓ j m with
  | zero =>
    refine ⟨m, ?_, ?_, ?_⟩
    · simp [insertLoop, sibsFrom]
    · intro d' ℓ' j' _ _ h0
      rw [if_neg (by omega)]
    · intro k hk; exact Or.inl hk
  | succ n ih =>
    have hij' : i / 2 ^ (ℓ + 1) = j / 2 := by rw [pow_succ, ← Nat.div_div_eq_div_mul, hij]
    obtain ⟨m', h1, h2, h3⟩ := ih (ℓ + 1) (j / 2)
      (m.insert (hidx (n + 1) j) (nodeAt cfg.h2 (lf cfg (write c i v)) ℓ j)) (half_lt hj) hij'
    refine ⟨m', ?_, ?_, ?_⟩
    · simp only [insertLoop, sibsFrom, isLeftChild_hidx, parent_hidx, Outcome.unwrap_some,
        Outcome.bind_ok, decide_eq_true_eq]
      have hs : nodeAt cfg.h2 (lf cfg c) ℓ (sibPos j) =
          nodeAt cfg.h2 (lf cfg (write c i v)) ℓ (sibPos j) := by
        symm; apply nodeAt_write_other
        rw [hij]; unfold sibPos; split <;> omega
      rw [hs, node_pair, h1, Nat.div_div_eq_div_mul, ← pow_succ']
      congr 3; omega
    · intro d' ℓ' j' e hlt h0
      rw [h2 d' ℓ' j' (by omega) hlt h0, BMap.get_insert]
      by_cases hd : d' ≤ n
      · have : hidx d' j' ≠ hidx (n + 1) j := by
          intro e; have := hidx_inj hlt hj e; omega
        simp [hd, this, show d' ≤ n + 1 by omega]
      · by_cases hd' : d' = n + 1
        · have : ℓ' = ℓ := by omega
          subst this; subst hd'
          simp only [show ¬ (n + 1 ≤ n) by omega, false_and, if_false, le_refl, true_and]
          by_cases hjj : j' = i / 2 ^ ℓ'
          · rw [hjj, hij]; simp
          · have : hidx (n + 1) j' ≠ hidx (n + 1) j := by
              intro e; have := hidx_inj hlt hj e; omega
            simp [this, hjj]
        · have : hidx d' j' ≠ hidx (n + 1) j := by
            intro e; have := hidx_inj hlt hj e; omega
          simp [hd, this, show ¬ d' ≤ n + 1 by omega]
    · intro k hk
      rcases h3 k hk with h | h
      · rw [BMap.mem_keys_insert] at h
        rcases h with h | h
        · right; rw [h]; exact hidx_lt _ _ hj
        · exact Or.inl h
      · right
        calc k < 2 ^ (n + 1) - 1 := h
          _ ≤ 2 ^ (n + 1 + 1) - 1 := Nat.sub_le_sub_right (Nat.pow_le_pow_right (by omega) (by omega)) 1

/-- `update_and_prove` at an in-range index realises the abstract write. -/
theorem updateAndProve_rep {cfg : Config L D} {t : STree D} {c : Nat → L} (h : Rep cfg t c)
    {ε : Type} (i : Nat) (v : L) (hi : i < 2 ^ (cfg.height - 1)) :
    ∃ t', (updateAndProve cfg t i v : Outcome ε _) =
        .ok (t', sibsFrom cfg.h2 (lf cfg c) 0 (cfg.height - 1) i) ∧ Rep cfg t' (write c i v) := by
  obtain ⟨m', h1, h2, h3⟩ := insertLoop_eq (cfg := cfg) (c := c) (i := i) (v := v) (ε := ε)
    (cfg.height - 1) 0 i t.tree hi (by simp)
  have hs := siblingsLoop_eq h (ε := ε) (cfg.height - 1) 0 i (by simp) hi
  have hn0 : nodeAt cfg.h2 (lf cfg (write c i v)) 0 i = cfg.leafHash v := by simp [nodeAt, lf, write]
  have hz : i / 2 ^ (cfg.height - 1) = 0 := Nat.div_eq_of_lt hi
  rw [hn0, hz, Nat.zero_add] at h1
  refine ⟨{ t with tree := m'.insert 0 (nodeAt cfg.h2 (lf cfg (write c i v)) (cfg.height - 1) 0),
                   root := some (nodeAt cfg.h2 (lf cfg (write c i v)) (cfg.height - 1) 0) }, ?_,
    h.es, rfl, ?_, ?_, ?_⟩
  · simp only [updateAndProve, siblings, convertIndex_eq, hs, Outcome.bind_ok, h1]
  · intro d ℓ j hd hj
    rw [BMap.get_insert]
    cases d with
    | zero =>
      have : j = 0 := by simpa using hj
      subst this
      have : ℓ = cfg.height - 1 := by omega
      subst this
      simp [hidx_zero]
    | succ d =>
      have := hidx_succ_pos d j
      rw [if_neg (by omega), h2 (d + 1) ℓ j (by omega) hj (by omega)]
      split
      · simp
      · rename_i hne
        rw [h.node (d + 1) ℓ j hd hj, nodeAt_write_other]
        intro e; exact hne ⟨by omega, e⟩
  · intro k hk
    rw [BMap.mem_keys_insert] at hk
    rcases hk with rfl | hk
    · have := Nat.two_pow_pos (cfg.height - 1); rw [pow_succ]; omega
    · rcases h3 k hk with h4 | h4
      · exact h.range k h4
      · exact h4
  · intro d ℓ i' hd hi' hsome
    rw [BMap.get_insert] at hsome ⊢
    cases d with
    | zero =>
      have : i' / 2 ^ ℓ = 0 := by
        apply Nat.div_eq_of_lt
        rw [show ℓ = cfg.height - 1 by omega]; exact hi'
      rw [this]; simp [hidx_zero]
    | succ d =>
      have := hidx_succ_pos d (i' / 2 ^ ℓ)
      rw [if_neg (by omega), h2 (d + 1) ℓ _ (by omega) (div_pow_lt hd hi') (by omega)]
      split
      · simp
      · rename_i hne
        apply h.closed (d + 1) ℓ i' hd hi'
        have hN : cfg.height - 1 = (cfg.height - 2) + 1 := by omega
        have hp := hidx_succ_pos (cfg.height - 2) i'
        rw [← hN] at hp
        rw [if_neg (by omega), h2 (cfg.height - 1) 0 i' (by omega) hi' (by omega)] at hsome
        rw [if_neg] at hsome
        · exact hsome
        · rintro ⟨-, e⟩
          apply hne
          refine ⟨by omega, ?_⟩
          simp at e; rw [e]

end PF.MT
