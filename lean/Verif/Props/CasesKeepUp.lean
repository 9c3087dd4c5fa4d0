import Verif.Props.KeepUp

/-!
# A case for C115

One epoch: a deposit of 5 for `a`, the payment of it to `b`, and its withdrawal by `b`. The client of `b` keeps up in
two steps of one transaction each.
-/
set_option linter.unusedSectionVars false

namespace PF.Props
open PF PF.MT PF.Agg PF.Spec PF.Client
variable {p q : Nat} {G : Type} [AddCommGroup G] [Module (ZMod q) G] [DecidableEq G]

theorem pay_getSigner (a b : G) (m : Nat) : (payTx a b m).getSigner = a := by
  simp [payTx, Tx.getSigner, UTXO.new, UTXO.dummy, Circuit.select]

theorem pay_clean (a b : G) (m : Nat) : CleanTx (payTx a b m) := by
  intro u hu hd
  simp [Tx.ios, payTx] at hu
  rcases hu with rfl | rfl | rfl | rfl
  · cases hd
  · rfl
  · cases hd
  · rfl

/-- The hypotheses of C115 hold for the epoch and the client of `b`; its plan has two steps about one block. -/
theorem keep_up_case (h : FieldOk p) (hq : 1 < q) (cv : Curve p q G) (Q : AggC.Params p G) (hP : Q.hs = oneHs p)
    (bd : Build) {a b : G} (ha : a ≠ Q.contract) (hb : b ≠ Q.contract) (hab : a ≠ b) (hb0 : b ≠ 0) :
    ∃ d : Agg.Executed p q G, Lifetime bd cv Q.hs Q.contract (Agg.new q cv Q.hs) [d] d.fin ∧
      Accessible cv Q.hs Q.contract b d ∧ mine cv Q.hs Q.contract b d = [1, 2] ∧
      Follows cv Q.hs Q.contract b 1 none [d] [[[1], [2]]] ∧
      (∀ y ∈ answeredTxs d, OwnedBy y.2.1 y.1.inputs.toList) ∧
      (∀ x ∈ d.txs, totalOf x.2.inputs.toList < U64 ∧ totalOf x.2.outputs.toList < U64) ∧
      (d.block.deposits.map (·.2)).sum = 5 ∧ (d.block.withdrawals.map (·.2)).sum = 5 ∧
      (d.executed cv Q.hs Q.contract).countP (fun y => decide (b = y.1.getSigner)) = 1 := by
  have hp : 1 < p := lt_of_lt_of_le (by norm_num) h.large
  obtain ⟨s1, s2, st, block, z, e1, e2, hon, hst, hpk, hbl, b1, b2, b3, hz⟩ :=
    example_epoch bd hp hq cv Q hP ha hb hab
  let d : Agg.Executed p q G :=
    ⟨Agg.new q cv Q.hs, s1, s2, triTxs Q.contract a b 5, triSigs q Q.contract a b, st, block⟩
  have hd : d.From bd cv Q.hs Q.contract (Agg.new q cv Q.hs) :=
    ⟨rfl, e1, e2, hbl, by show 3 ≤ 4096; omega, by show 0 + 4 * 3 ≤ 2147483648; omega, by show 3 ≤ 3; omega⟩
  have ap1 : ∀ r tx k (s : ZMod q), Approves cv Q.hs Q.contract r tx (k, some (s, 1)) = true := by
    intro r tx k s
    unfold Approves
    rw [hP]
    simp [(oneHs_verify hp hq cv k _ s).1]
  have hat : answeredTxs d = [(depositTx Q.contract a 5, (Q.contract, none)), (payTx a b 5, (a, some (0, 1))),
      (payTx b Q.contract 5, (b, some (5, 1)))] := rfl
  have i0 : Involves b (depositTx Q.contract a 5) = false := by
    simp [Involves, Tx.ios, depositTx, UTXO.new, UTXO.dummy, hb0.symm, hab, hb.symm]
  have i1 : Involves b (payTx a b 5) = true := by simp [Involves, Tx.ios, payTx, UTXO.new]
  have i2 : Involves b (payTx b Q.contract 5) = true := by simp [Involves, Tx.ios, payTx, UTXO.new]
  have hm : mine cv Q.hs Q.contract b d = [1, 2] := by
    unfold mine
    rw [hat]
    show (([0, 1, 2] : List Nat).filter _) = _
    simp [List.filter_cons, i0, i1, i2, ap1]
  refine ⟨d, ⟨hd, rfl⟩, ⟨by rw [hm]; simp, ?_, ?_⟩, hm, ⟨.inr ⟨by simp, by rw [hm]; rfl, ?_⟩, trivial⟩, ?_, ?_, ?_, ?_, ?_⟩
  · intro y hy _ hi
    rw [hat] at hy
    simp only [List.mem_cons, List.not_mem_nil, or_false] at hy
    rcases hy with rfl | rfl | rfl
    · rw [i0] at hi; cases hi
    · exact (pay_getSigner a b 5).symm
    · exact (pay_getSigner b Q.contract 5).symm
  · intro y hy _ hi
    rw [hat] at hy
    simp only [List.mem_cons, List.not_mem_nil, or_false] at hy
    rcases hy with rfl | rfl | rfl
    · rw [i0] at hi; cases hi
    · exact pay_clean a b 5
    · exact pay_clean b Q.contract 5
  · intro c hc
    simp only [List.mem_cons, List.not_mem_nil, or_false] at hc
    rcases hc with rfl | rfl <;> exact le_refl _
  · intro y hy u hu hud
    rw [hat] at hy
    simp only [List.mem_cons, List.not_mem_nil, or_false] at hy
    rcases hy with rfl | rfl | rfl
    all_goals
      simp [depositTx, payTx] at hu
      rcases hu with rfl | rfl
      · rfl
      · simp [UTXO.dummy] at hud
  · intro x hx
    have hx : x ∈ triTxs Q.contract a b 5 := hx
    simp only [triTxs, List.mem_cons, List.not_mem_nil, or_false] at hx
    rcases hx with rfl | rfl | rfl <;> simp [depositTx, payTx, totalOf, UTXO.new, UTXO.dummy, U64]
  · show (block.deposits.map (·.2)).sum = 5
    rw [b1]; rfl
  · show (block.withdrawals.map (·.2)).sum = 5
    rw [b2]; rfl
  · have ap0 : ∀ r tx, Approves cv Q.hs Q.contract r tx (Q.contract, none) = true := by
      intro r tx; simp [Approves]
    have : d.executed cv Q.hs Q.contract = [(depositTx Q.contract a 5, Q.contract), (payTx a b 5, a),
        (payTx b Q.contract 5, b)] := by
      simp [Agg.Executed.executed, approvedTxs, d, triTxs, triSigs, ap0, ap1]
    rw [this]
    simp [deposit_getSigner, pay_getSigner, hb, hab.symm]

/-- Two states of one ledger do not clash. -/
theorem no_clash_one {cv : Curve p q G} {hs : Hashes p} (d : Agg.Executed p q G) : ¬ EpochClash cv hs [d] := by
  rintro ⟨x, hx, y, hy, e⟩
  rw [List.mem_singleton] at hx hy
  subst hx hy
  rcases e with ⟨e, -⟩ | ⟨c, c', hc, hc', j, -, e⟩
  · exact e rfl
  · rw [Represents.unique hc hc'] at e
    rcases e with ⟨e, -⟩ | ⟨i, u, v, h1, h2, h3, -⟩
    · exact e rfl
    · rw [h1] at h2
      exact h3 (Option.some.inj h2)

/-- Non-vacuity of C115: the client of `b` makes two steps, ends with nonce 1 and with the balance that the ledger
holds for `b`, and the totals agree. -/
example (h : FieldOk p) (hq : 1 < q) (cv : Curve p q G) (Q : AggC.Params p G) (hP : Q.hs = oneHs p) (R : Client.Params p)
    (hR : R.hs = Q.hs) (bd : Build) {a b : G} (ha : a ≠ Q.contract) (hb : b ≠ Q.contract) (hab : a ≠ b)
    (hb0 : b ≠ 0) :
    ∃ (d : Agg.Executed p q G) (as : List (UserAux p G)) (z' : UState p) (c : Nat → UTXO Nat G),
      Lifetime bd cv R.hs Q.contract (Agg.new q cv R.hs) [d] d.fin ∧ as.length = 2 ∧
      Client.runSteps R cv 1 (freshUser cv R.hs b) (as.map UserAux.alloc) z' ∧
      Represents cv R.hs d.fin c ∧ z'.balance = (heldBy c UTXO_CAP b : ZMod p) ∧ z'.nonce = 1 ∧
      z'.balance.val + 5 ≤ 5 := by
  obtain ⟨d, hl, hacc, hm, hf, hown, hsum, hdep, hwd, hcnt⟩ := keep_up_case h hq cv Q hP bd ha hb hab hb0
  rw [← hR] at hl hacc hm hf hcnt
  obtain ⟨as, z', f1, f2, f3, f4, f5⟩ := C115_keeps_up h bd R cv Q.contract [d] d.fin hl b hb0 hb
    (by intro x hx; rw [List.mem_singleton.1 hx]; exact hacc) 1 _ hf
  obtain ⟨hRch, -, -⟩ := signerLeaves_inv (epoch_leaves hl.1 SignerLeaves.new).2.1
  obtain ⟨c, hc, -⟩ := (C38_utxo_tree_mirrors bd cv R.hs d.fin hRch).1
  obtain ⟨s1, -⟩ := (C115_solvent h bd R cv Q.contract [d] d.fin hl
    (by intro x hx; rw [List.mem_singleton.1 hx]; exact hown)
    (by intro x hx; rw [List.mem_singleton.1 hx]; exact .inr hsum) [(b, z')] (List.nodup_singleton _)
    (by intro x hx; rw [List.mem_singleton.1 hx]; exact ⟨hb0, hb⟩)
    (by intro x hx y hy; rw [List.mem_singleton.1 hx, List.mem_singleton.1 hy]; exact hacc)
    (by
      intro x hx
      rw [List.mem_singleton.1 hx]
      exact ⟨1, _, as, hf, f1.imp fun _ _ e => e.1, f2⟩)).resolve_right (no_clash_one d)
  refine ⟨d, as, z', c, hl, ?_, f2, hc, (f5 c hc).resolve_right (no_clash_one d), ?_, ?_⟩
  · rw [← f1.length_eq]; rfl
  · rw [f3]
    simp [hcnt]
  · simpa [hdep, hwd] using s1

/-- Two epochs in which nothing happens. -/
theorem idle_twice (b : Build) (cv : Curve p q G) (hs : Hashes p) (rollup : G) :
    ∃ d : Agg.Executed p q G, Lifetime b cv hs rollup (Agg.new q cv hs) [d, d] (Agg.new q cv hs) := by
  obtain ⟨ur, sr, -, -, hb⟩ := (C48_produce_block b cv hs (Agg.new q cv hs) Reach.new (Contract.new rollup)).1
    (by intro pk h; simp [Agg.new] at h)
  have hd : (⟨Agg.new q cv hs, Agg.new q cv hs, Agg.new q cv hs, [], [], Contract.new rollup, _⟩ :
      Agg.Executed p q G).From b cv hs rollup (Agg.new q cv hs) :=
    ⟨rfl, rfl, rfl, hb, by show 0 ≤ 4096; omega, by show 0 + 4 * 0 ≤ 2147483648; omega, le_refl _⟩
  exact ⟨_, hd, hd, rfl⟩

/-- Case for `C115_same_block`: the second block repeats the first, a client passes over it. -/
example (b : Build) (cv : Curve p q G) (hs : Hashes p) (rollup k : G) :
    ∃ d : Agg.Executed p q G, Lifetime b cv hs rollup (Agg.new q cv hs) [d, d] (Agg.new q cv hs) ∧
      (∃ pls, Follows cv hs rollup k 1 none [d, d] pls) ∧ Follows cv hs rollup k 1 (some d) [d, d] [[], []] ∧
      ((∀ u : UTXO Nat G, u.isDummy = false → ∀ i, i < 2 ^ 31 → (i ∈ positions d.fin u ↔ i ∈ positions d.fin u)) ∨
        EpochClash cv hs [d, d]) := by
  obtain ⟨d, hd⟩ := idle_twice b cv hs rollup
  refine ⟨d, hd, C115_plan cv hs rollup k 1 (by omega) _ _, ?_, ?_⟩
  · exact ⟨.inl ⟨rfl, rfl⟩, .inl ⟨rfl, rfl⟩, trivial⟩
  · exact C115_same_block b cv hs rollup [d, d] _ _ hd _ SignerLeaves.new d d (by simp) (by simp) rfl

end PF.Props
