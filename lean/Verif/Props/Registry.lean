import Verif.Props.AggregatorProvable

/-!
# Property C124: what the growth of the registry changes for blocks
-/
set_option linter.unusedSectionVars false

namespace PF.Props
open PF PF.MT PF.Agg PF.Spec PF.AggC PF.Contract
variable {p q : Nat} {G : Type} [AddCommGroup G] [Module (ZMod q) G] [DecidableEq G]

/-- Calls only append to the list of registered keys. -/
theorem run_pks_prefix (b : Build) (c : Contract.State G) (cs : List (Call G)) (c' : Contract.State G)
    (h : Contract.run b c cs = .ok c') : c'.pks = c.pks ++ joinedKeys cs := by
  induction cs generalizing c with
  | nil => simp [Contract.run] at h; subst h; simp [joinedKeys]
  | cons a cs ih =>
    simp only [Contract.run] at h
    rcases hc : step b c a with s1 | e | _ <;> rw [hc] at h <;> simp at h
    have := ih s1 h
    cases a with
    | join bal pk =>
      simp [step] at hc; subst hc
      rw [this]; simp [join, joinedKeys]
    | deposit i v =>
      obtain ⟨_, _, _, _, _, _, _, _, _, _, _, _, rfl⟩ := deposit_ok hc
      rw [this]; simp [joinedKeys]

/-- Calls never forget a registered key. -/
theorem run_registered (b : Build) (c : Contract.State G) (cs : List (Call G)) (c' : Contract.State G)
    (h : Contract.run b c cs = .ok c') (pk : G) (hr : Registered c pk) : Registered c' pk := by
  induction cs generalizing c with
  | nil => simp [Contract.run] at h; subst h; exact hr
  | cons a cs ih =>
    simp only [Contract.run] at h
    rcases hc : step b c a with s1 | e | _ <;> rw [hc] at h <;> simp at h
    refine ih s1 h ?_
    cases a with
    | join bal k =>
      simp [step] at hc; subst hc
      unfold Registered at hr ⊢
      simp only [join, HMap.get_insert]
      split_ifs <;> simp [hr]
    | deposit i v =>
      obtain ⟨_, _, _, _, _, _, _, _, _, _, _, _, rfl⟩ := deposit_ok hc
      exact hr

theorem signerAcc_prefix (cv : Curve p q G) (sha : Sha) (pks more : List G) (ss : List (Option Nat)) (a r : ZMod p)
    (h : signerAcc cv sha pks ss a = .ok r) : signerAcc cv sha (pks ++ more) ss a = .ok r := by
  induction ss generalizing a with
  | nil => exact h
  | cons i ss ih =>
    cases i with
    | none => exact ih _ h
    | some i =>
      simp only [signerAcc, signerKey] at h ⊢
      cases hk : pks[i]? with
      | none => rw [hk] at h; simp [Outcome.unwrap] at h
      | some k =>
        rw [hk] at h
        rw [List.getElem?_append_left (List.getElem?_eq_some_iff.1 hk).1, hk]
        simp [Outcome.unwrap] at h ⊢
        exact ih _ h

theorem amountAcc_prefix (cv : Curve p q G) (sha : Sha) (pks more : List G) (ds : List (Nat × Nat)) (a r : ZMod p)
    (h : amountAcc cv sha pks ds a = .ok r) : amountAcc cv sha (pks ++ more) ds a = .ok r := by
  induction ds generalizing a with
  | nil => exact h
  | cons d ds ih =>
    obtain ⟨i, v⟩ := d
    simp only [amountAcc] at h ⊢
    cases hk : pks[i]? with
    | none => rw [hk] at h; simp [Outcome.unwrap] at h
    | some k =>
      rw [hk] at h
      rw [List.getElem?_append_left (List.getElem?_eq_some_iff.1 hk).1, hk]
      simp [Outcome.unwrap] at h ⊢
      exact ih _ h

/-- **C124**: what the contract derives from a block does not change when accounts join or deposit later, whatever
the block and the calls. -/
theorem C124_derivation_is_stable (b : Build) (cv : Curve p q G) (sha : Sha) (c c' : Contract.State G)
    (cs : List (Call G)) (blk : Block (ZMod p)) (z : List (ZMod p))
    (hd : derivePublicInputs cv sha c blk = .ok z) (hr : Contract.run b c cs = .ok c') :
    derivePublicInputs cv sha c' blk = .ok z := by
  unfold derivePublicInputs at hd ⊢
  rw [run_pks_prefix b c cs c' hr]
  rcases h1 : signerAcc cv sha c.pks blk.signers 0 with sa | e | _ <;> rw [h1] at hd <;> simp at hd
  rcases h2 : amountAcc cv sha c.pks blk.deposits 0 with da | e | _ <;> rw [h2] at hd <;> simp at hd
  rcases h3 : amountAcc cv sha c.pks blk.withdrawals 0 with wa | e | _ <;> rw [h3] at hd <;> simp at hd
  rw [signerAcc_prefix cv sha _ _ _ _ _ h1, amountAcc_prefix cv sha _ _ _ _ _ h2,
    amountAcc_prefix cv sha _ _ _ _ _ h3]
  simpa using hd

/-- **C124**: a state from which a block can be produced is one from which it can be produced after any further
calls on the contract. -/
theorem C124_production_is_stable (b b' : Build) (cv : Curve p q G) (hs : Hashes p) (s : Agg.State p q G)
    (h : Reach b cv hs s) (c c' : Contract.State G) (cs : List (Call G)) (blk : Block (ZMod p))
    (hp : produceBlock c s = .ok blk) (hr : Contract.run b' c cs = .ok c') :
    ∃ blk', produceBlock c' s = .ok blk' := by
  have hall : ∀ pk, (some pk ∈ s.signers ∨ pk ∈ s.deposits.map (·.1) ∨ pk ∈ s.withdrawals.map (·.1)) →
      Registered c pk := by
    by_contra hc
    rw [(C48_produce_block b cv hs s h c).2 hc] at hp; simp at hp
  obtain ⟨ur, sr, -, -, e⟩ := (C48_produce_block b cv hs s h c').1
    fun pk hk => run_registered b' c cs c' hr pk (hall pk hk)
  exact ⟨_, e⟩

/-- **C124**: the public inputs of the block of a state depend on the state only. Any two contracts with at most
2^32 registered keys (different contract keys, accounts joined in different orders, several times, before or after
the epoch) that can produce the block derive the same public inputs from their own blocks, though the account numbers
written into the two blocks differ in general. -/
theorem C124_registry_does_not_matter (b b1 b2 : Build) (cv : Curve p q G) (hs : Hashes p) (sha : Sha)
    (s : Agg.State p q G) (h : Reach b cv hs s) (k1 k2 : G) (cs1 cs2 : List (Call G)) (c1 c2 : Contract.State G)
    (h1 : Contract.run b1 (Contract.new k1) cs1 = .ok c1) (h2 : Contract.run b2 (Contract.new k2) cs2 = .ok c2)
    (hl1 : c1.pks.length ≤ 2 ^ 32) (hl2 : c2.pks.length ≤ 2 ^ 32) (blk1 blk2 : Block (ZMod p))
    (hp1 : produceBlock c1 s = .ok blk1) (hp2 : produceBlock c2 s = .ok blk2) :
    ∃ z, derivePublicInputs cv sha c1 blk1 = .ok z ∧ derivePublicInputs cv sha c2 blk2 = .ok z := by
  have hroot : ∀ (c : Contract.State G) blk, produceBlock c s = .ok blk →
      HasRoot s.ledger.tree blk.utxoRoot ∧ HasRoot s.signerTree blk.signerRoot := by
    intro c blk hp
    unfold produceBlock at hp
    rcases e1 : (s.ledger.tree.rootHash : Outcome Unit (ZMod p)) with ur | e | _ <;> rw [e1] at hp <;> simp at hp
    rcases e2 : (s.txTree.rootHash : Outcome Unit (ZMod p)) with tr | e | _ <;> rw [e2] at hp <;> simp at hp
    rcases e3 : (s.signerTree.rootHash : Outcome Unit (ZMod p)) with sr | e | _ <;> rw [e3] at hp <;> simp at hp
    rcases e4 : mapO (signerIndex c) s.signers with a | e | _ <;> rw [e4] at hp <;> simp at hp
    rcases e5 : mapO (amountIndex c) s.deposits with a | e | _ <;> rw [e5] at hp <;> simp at hp
    rcases e6 : mapO (amountIndex c) s.withdrawals with a | e | _ <;> rw [e6] at hp <;> simp at hp
    subst hp
    exact ⟨e1, e3⟩
  obtain ⟨r1, r2⟩ := hroot c1 blk1 hp1
  obtain ⟨r3, r4⟩ := hroot c2 blk2 hp2
  exact ⟨_, derive_block sha h b1 k1 cs1 c1 h1 hl1 blk1 hp1 _ _ r1 r2,
    derive_block sha h b2 k2 cs2 c2 h2 hl2 blk2 hp2 _ _ r1 r2⟩

/-- **C124** (finding): the bound on the number of accounts is needed. Account numbers are written into blocks with
32 bits, so an account joined as number `n` with `n ≥ 2^32` appears in every block as account `n % 2^32`, and the
contract reads its deposits and withdrawals as those of that other account's key. -/
theorem C124_account_numbers_wrap (b : Build) (cv : Curve p q G) (hs : Hashes p) (s : Agg.State p q G)
    (h : Reach b cv hs s) (c : Contract.State G) (bal : Nat) (pk : G) (blk : Block (ZMod p))
    (hp : produceBlock (join c bal pk).1 s = .ok blk) (i v : Nat) (hi : s.deposits[i]? = some (pk, v)) :
    blk.deposits[i]? = some (c.pks.length % 2 ^ 32, v) ∧
    (2 ^ 32 ≤ c.pks.length → ∃ other, c.pks[c.pks.length % 2 ^ 32]? = some other ∧
      entryOf (join c bal pk).1.pks (c.pks.length % 2 ^ 32, v) = some (other, v)) := by
  have hall : ∀ k, (some k ∈ s.signers ∨ k ∈ s.deposits.map (·.1) ∨ k ∈ s.withdrawals.map (·.1)) →
      Registered (join c bal pk).1 k := by
    by_contra hc
    rw [(C48_produce_block b cv hs s h _).2 hc] at hp; simp at hp
  obtain ⟨ur, sr, -, -, e⟩ := (C48_produce_block b cv hs s h _).1 hall
  rw [e] at hp
  simp only [Outcome.ok.injEq] at hp
  subst hp
  have hx : regIndex (join c bal pk).1 pk = c.pks.length % 2 ^ 32 := by
    simp [regIndex, join, HMap.get_insert]
  refine ⟨by simp [List.getElem?_map, hi, hx], fun hn => ?_⟩
  have hlt : c.pks.length % 2 ^ 32 < c.pks.length := lt_of_lt_of_le (Nat.mod_lt _ (by norm_num)) hn
  refine ⟨c.pks[c.pks.length % 2 ^ 32], List.getElem?_eq_getElem hlt, ?_⟩
  unfold entryOf
  have : (join c bal pk).1.pks = c.pks ++ [pk] := rfl
  rw [this, List.getElem?_append_left hlt, List.getElem?_eq_getElem hlt]
  rfl

/-- Registries of every size are reachable. -/
theorem registry_of_size (b : Build) (k a : G) (n : Nat) :
    ∃ c, Contract.run b (Contract.new k) (List.replicate n (.join 0 a)) = .ok c ∧
      c.pks = k :: List.replicate n a := by
  have key : ∀ (n : Nat) (c : Contract.State G), ∃ c', Contract.run b c (List.replicate n (.join 0 a)) = .ok c' := by
    intro n
    induction n with
    | zero => intro c; exact ⟨c, rfl⟩
    | succ n ih =>
      intro c
      obtain ⟨c', hc⟩ := ih (join c 0 a).1
      refine ⟨c', ?_⟩
      rw [List.replicate_succ]
      simp only [Contract.run, step]
      simpa using hc
  have hj : ∀ n : Nat, joinedKeys (List.replicate n (.join 0 a : Call G)) = List.replicate n a := by
    intro n
    induction n with
    | zero => rfl
    | succ n ih =>
      rw [List.replicate_succ, List.replicate_succ, ← ih]
      rfl
  obtain ⟨c, hc⟩ := key n (Contract.new k)
  have hp := run_pks_prefix b _ _ c hc
  rw [hj] at hp
  exact ⟨c, hc, by rw [hp]; rfl⟩

/-- **C124** (finding): such a registry exists, whatever the key and the contract: after 2^32 - 1 registrations the
next account is written as account 0, the contract itself, so its deposits are read as the contract's. -/
theorem C124_last_account_is_the_contract (b b' : Build) (cv : Curve p q G) (hs : Hashes p) (s : Agg.State p q G)
    (h : Reach b cv hs s) (k a pk : G) (bal : Nat) :
    ∃ c, Contract.run b' (Contract.new k) (List.replicate (2 ^ 32 - 1) (.join 0 a)) = .ok c ∧
      c.pks = k :: List.replicate (2 ^ 32 - 1) a ∧ (join c bal pk).2 = 2 ^ 32 ∧
      ∀ (blk : Block (ZMod p)) (i v : Nat), produceBlock (join c bal pk).1 s = .ok blk → s.deposits[i]? = some (pk, v) →
        blk.deposits[i]? = some (0, v) ∧ entryOf (join c bal pk).1.pks (0, v) = some (k, v) := by
  generalize hN : (2 ^ 32 : Nat) = N
  have hN0 : 0 < N := by rw [← hN]; norm_num
  obtain ⟨c, hc, hpk⟩ := registry_of_size b' k a (N - 1)
  have hl' : c.pks.length = N := by rw [hpk, List.length_cons, List.length_replicate]; omega
  have h0 : c.pks[0]? = some k := by rw [hpk]; rfl
  refine ⟨c, hc, hpk, by simpa [join] using hl', ?_⟩
  intro blk i v hp hi
  obtain ⟨e1, e2⟩ := C124_account_numbers_wrap b cv hs s h c bal pk blk hp i v hi
  rw [hN, hl', Nat.mod_self] at e1 e2
  obtain ⟨o, ho, he⟩ := e2 le_rfl
  rw [h0] at ho
  obtain rfl : k = o := by simpa using ho
  exact ⟨e1, he⟩

end PF.Props
