import Verif.Props.Order
import Verif.Props.AggregatorExact

/-!
# Property C129: one signature answers every copy of a transaction in an epoch
-/
set_option linter.unusedSectionVars false

namespace PF.Props
open PF PF.MT PF.Agg PF.Spec PF.AggC PF.Contract
variable {p q : Nat} [Fact p.Prime] [NeZero q] {G : Type} [AddCommGroup G] [Module (ZMod q) G] [DecidableEq G]

/-- **C129** (positions do not matter): in a successful call, equal transactions with equal answers get the same verdict, whatever
their positions: either all of them are executed and recorded under the key of the answer, or none. -/
theorem C129_same_verdict (b : Build) (cv : Curve p q G) (hs : Hashes p) (s s' : Agg.State p q G) (h : Reach b cv hs s) (rollup : G)
    (l : List (Pair q G)) (hf : (Op.signatures rollup l).Fits s) (hr : processSignatures b cv hs rollup l s = (s', .ok ()))
    (i j : Nat) (tx : Tx Nat G) (x : Pair q G) (hi : s.transactions[i]? = some tx) (hj : s.transactions[j]? = some tx)
    (hx : l[i]? = some x) (hx' : l[j]? = some x) :
    s'.signers[s.signers.length + i]? = s'.signers[s.signers.length + j]? ∧
    (s'.signers[s.signers.length + i]? = some (some x.1) ∨ s'.signers[s.signers.length + i]? = some none) := by
  obtain ⟨-, hsig, -⟩ := C43_appends b cv hs s s' h rollup l hf hr
  have key : ∀ k, s.transactions[k]? = some tx → l[k]? = some x → s'.signers[s.signers.length + k]? =
      some (if Approves cv hs rollup (txRoot cv hs s) tx x then some x.1 else none) := by
    intro k h1 h2
    rw [hsig, List.getElem?_append_right (by omega), Nat.add_sub_cancel_left, List.getElem?_map,
      (List.getElem?_zip_eq_some (z := (tx, x))).2 ⟨h1, h2⟩]
    rfl
  rw [key i hi hx, key j hj hx']
  refine ⟨rfl, ?_⟩
  split <;> simp

/-- The epoch of the finding: `n` deposits of `a` for `user`, then `n` copies of one payment of `a` by `user`. -/
def copiesTxs (contract user receiver : G) (a n : Nat) : List (G × Tx Nat G) :=
  List.replicate n (contract, depositTx contract user a) ++ List.replicate n (user, payTx user receiver a)

/-- The answers: none from the contract, `n` times the same signature from the user. -/
def copiesSigs (contract user : G) (sig : ZMod q × ZMod q) (n : Nat) : List (Pair q G) :=
  List.replicate n (contract, none) ++ List.replicate n (user, some sig)

theorem zip_copies {α β : Type} (n : Nat) (a b : α) (c d : β) :
    (List.replicate n a ++ List.replicate n b).zip (List.replicate n c ++ List.replicate n d) =
      List.replicate n (a, c) ++ List.replicate n (b, d) := by
  rw [List.zip_append (by simp), List.zip_replicate', List.zip_replicate']

theorem spent_replicate (rollup : G) (t : Tx Nat G) (n : Nat) (u : UTXO Nat G) :
    (spentUTXOs rollup (List.replicate n t)).count u = n * (t.spends rollup).count u := by
  induction n with
  | zero => simp [spentUTXOs]
  | succ n ih =>
    rw [List.replicate_succ, spentUTXOs_cons, List.count_append, ih, Nat.add_mul, Nat.one_mul, Nat.add_comm]

theorem created_replicate (rollup : G) (t : Tx Nat G) (n : Nat) (u : UTXO Nat G) :
    (createdUTXOs rollup (List.replicate n t)).count u = n * (t.creates rollup).count u := by
  induction n with
  | zero => simp [createdUTXOs]
  | succ n ih =>
    rw [List.replicate_succ, createdUTXOs_cons, List.count_append, ih, Nat.add_mul, Nat.one_mul, Nat.add_comm]

/-- **C129** (what copies take): in an epoch that consists of `n` copies of a transaction, a single approving answer, given
`n` times, executes all of them exactly if the ledger holds `n` times what one takes (for a transaction that does not
create what it spends; debug builds: and one pays less than 2^64 to the contract). -/
theorem C129_all_copies (b : Build) (cv : Curve p q G) (hs : Hashes p) (s : Agg.State p q G) (h : Reach b cv hs s) (rollup : G)
    (tx : Tx Nat G) (n : Nat) (hn : 0 < n) (hts : s.transactions = List.replicate n tx) (x : Pair q G)
    (hx : Approves cv hs rollup (txRoot cv hs s) tx x = true) (hf : (Op.signatures rollup (List.replicate n x)).Fits s)
    (hind : ∀ u ∈ tx.spends rollup, u ∉ tx.creates rollup) :
    ((processSignatures b cv hs rollup (List.replicate n x) s).2 = .ok () ↔
      (∀ u, n * (tx.spends rollup).count u ≤ live s u) ∧ (b = .debug → tx.withdrawn rollup < 2 ^ 64)) ∧
    ((processSignatures b cv hs rollup (List.replicate n x) s).2 = .ok () → ∀ u, u.isDummy = false →
      live (processSignatures b cv hs rollup (List.replicate n x) s).1 u + n * (tx.spends rollup).count u =
        live s u + n * (tx.creates rollup).count u) := by
  have happ : approvedTxs cv hs rollup (txRoot cv hs s) s.transactions (List.replicate n x) = List.replicate n (tx, x.1) := by
    unfold approvedTxs
    rw [hts, List.zip_replicate', List.filter_eq_self.2, List.map_replicate]
    intro y hy
    rw [List.eq_of_mem_replicate hy]
    exact hx
  constructor
  · rw [C112_executes_iff b cv hs s h rollup _ hf, happ, hts, List.map_replicate]
    have hi : Independent rollup (List.replicate n tx) := by
      intro u hu hc
      unfold spentUTXOs at hu
      unfold createdUTXOs at hc
      obtain ⟨t, ht, hu⟩ := List.mem_flatMap.1 hu
      obtain ⟨t', ht', hc⟩ := List.mem_flatMap.1 hc
      rw [List.eq_of_mem_replicate ht] at hu
      rw [List.eq_of_mem_replicate ht'] at hc
      exact hind u hu hc
    rw [affordable_independent hi]
    simp only [spent_replicate, List.length_replicate, le_refl, true_and]
    refine and_congr_right fun _ => imp_congr_right fun _ => ?_
    constructor
    · intro hh
      exact hh (tx, x.1) (List.mem_replicate.2 ⟨by omega, rfl⟩)
    · intro hh a ha
      rw [List.eq_of_mem_replicate ha]
      exact hh
  · intro hok u hu
    have := C39_accounting b cv hs s _ h rollup _ hf (Prod.ext rfl hok) u hu
    rw [happ, spentBy_eq, createdBy_eq, List.map_replicate, spent_replicate, created_replicate] at this
    exact this

/-- **C129** (finding): one signature, `n` payments. In one epoch of a new aggregator the contract deposits `n` times `a` for a
user, and the aggregator lists one payment of `a` by the user `n` times. The user signs this payment once, for the root of this
epoch. Answering each copy with this one signature executes all of them — the user has nothing left, the receiver has `n`
times `a` — and the epoch can be proved: the recorded inputs, in any batches, satisfy the circuit and end in what the contract
derives from the block. -/
theorem C129_one_signature_many_payments [Fact q.Prime] (h : Sizes p q) (hpq : p ≤ q) (b : Build) (P : Params p G)
    (hfull : P.transferOnly = false) (cv : Curve p q G) (sk : ZMod q) (receiver : G) (a n : Nat) (hn : 2 * n ≤ TX_CAP) (ha : a < U64)
    (h1 : sk • cv.gen ≠ P.contract) (h2 : receiver ≠ P.contract) (h3 : receiver ≠ sk • cv.gen)
    (hz : ∀ m, Schnorr.verify cv P.hs.crh P.contract m (0, 0) = false) :
    ∃ (s1 s2 : Agg.State p q G) (sig : ZMod q × ZMod q),
      Schnorr.verify cv P.hs.crh (sk • cv.gen) (txEnc cv (payTx (sk • cv.gen) receiver a) ++ [txRoot cv P.hs s1]) sig = true ∧
      processTransactions b cv P.hs (copiesTxs P.contract (sk • cv.gen) receiver a n) (Agg.new q cv P.hs) = (s1, .ok ()) ∧
      processSignatures b cv P.hs P.contract (copiesSigs P.contract (sk • cv.gen) sig n) s1 = (s2, .ok ()) ∧
      live s2 (UTXO.new (sk • cv.gen) a) = 0 ∧ live s2 (UTXO.new receiver a) = n ∧
      ∀ (b' : Build) (k : G) (calls : List (Call G)) (st : Contract.State G),
        Contract.run b' (Contract.new k) calls = .ok st → st.pks.length ≤ 2 ^ 32 →
        ∀ block, produceBlock st s2 = .ok block → ∀ z, StartState cv P.hs (Agg.new q cv P.hs) (txRoot cv P.hs s1) z →
        ∀ bs : List (List (CInputs p G)), bs.flatten = s2.ivcInputs.map CInputs.alloc → Proves P cv st block z bs := by
  have hp0 : 0 < p := (Fact.out : p.Prime).pos
  have hn12 : 2 * n ≤ 4096 := hn
  generalize hu : sk • cv.gen = user at h1 h3 ⊢
  generalize hT : copiesTxs P.contract user receiver a n = txs
  have hlen : txs.length = 2 * n := by
    rw [← hT, copiesTxs, List.length_append, List.length_replicate, List.length_replicate]
    omega
  have hmem : ∀ x ∈ txs, x = (P.contract, depositTx P.contract user a) ∨ x = (user, payTx user receiver a) := by
    intro x hx
    rw [← hT] at hx
    rcases List.mem_append.1 hx with hx | hx
    · exact Or.inl (List.eq_of_mem_replicate hx)
    · exact Or.inr (List.eq_of_mem_replicate hx)
  obtain ⟨t, πs, e⟩ := C44_longest_valid_prefix b cv P.hs _ Reach.new txs (by
    rw [hlen]
    show 0 + 2 * n ≤ 4096
    omega)
  have hall : ∀ x ∈ txs, decide (x.2.isValid b (some x.1) = .ok ()) = true := by
    intro x hx
    rcases hmem x hx with rfl | rfl
    · simp [depositTx_valid b P.contract user a ha]
    · simp [payTx_valid b user receiver a ha]
  have hd : txs.dropWhile (fun x => decide (x.2.isValid b (some x.1) = .ok ())) = [] := List.dropWhile_eq_nil_iff.2 hall
  have ht : txs.takeWhile (fun x => decide (x.2.isValid b (some x.1) = .ok ())) = txs := List.takeWhile_eq_self_iff.2 hall
  rw [hd, ht] at e
  simp only [List.head?_nil] at e
  generalize hs1 : ({ Agg.new q cv P.hs with
      transactions := (Agg.new q cv P.hs).transactions ++ txs.map (·.2), txTree := t,
      txProofs := (Agg.new q cv P.hs).txProofs ++ πs } : Agg.State p q G) = s1 at e
  have r1 : Reach b cv P.hs s1 := reach_transactions Reach.new _ (by
    show 0 + txs.length ≤ 4096
    omega) e (by simp)
  have t1 : s1.transactions = txs.map (·.2) := by rw [← hs1]; rfl
  have l1 : ∀ u, live s1 u = 0 := by intro u; rw [← hs1]; rfl
  have n1 : s1.ledger.next = 0 := by rw [← hs1]; rfl
  have g1 : s1.signers = [] := by rw [← hs1]; rfl
  obtain ⟨sig, hsig⟩ := exists_sig cv hp0 hpq P.hs.crh sk (txEnc cv (payTx user receiver a) ++ [txRoot cv P.hs s1])
  rw [hu] at hsig
  generalize hl : copiesSigs P.contract user sig n = l
  have hllen : l.length = 2 * n := by
    rw [← hl, copiesSigs, List.length_append, List.length_replicate, List.length_replicate]
    omega
  have hf : (Op.signatures P.contract l).Fits s1 := by
    constructor
    · rw [g1, hllen]
      show 0 + 2 * n ≤ 4096
      omega
    · rw [n1, hllen, show TX_IO_SIZE = 4 from rfl, show UTXO_CAP = 2147483648 from rfl]
      omega
  have hmap : txs.map (·.2) = List.replicate n (depositTx P.contract user a) ++ List.replicate n (payTx user receiver a) := by
    rw [← hT, copiesTxs, List.map_append, List.map_replicate, List.map_replicate]
  have hzip : (txs.map (·.2)).zip l = List.replicate n (depositTx P.contract user a, (P.contract, none)) ++
      List.replicate n (payTx user receiver a, (user, some sig)) := by
    rw [hmap, ← hl, copiesSigs, zip_copies]
  have hap : ∀ y ∈ (txs.map (·.2)).zip l, Approves cv P.hs P.contract (txRoot cv P.hs s1) y.1 y.2 = true := by
    intro y hy
    rw [hzip] at hy
    rcases List.mem_append.1 hy with hy | hy
    · rw [List.eq_of_mem_replicate hy]
      simp [Approves]
    · rw [List.eq_of_mem_replicate hy]
      simp [Approves, hsig]
  have happ : approvedTxs cv P.hs P.contract (txRoot cv P.hs s1) s1.transactions l =
      List.replicate n (depositTx P.contract user a, P.contract) ++ List.replicate n (payTx user receiver a, user) := by
    unfold approvedTxs
    rw [t1, List.filter_eq_self.2 hap, hzip, List.map_append, List.map_replicate, List.map_replicate]
  have happ1 : (approvedTxs cv P.hs P.contract (txRoot cv P.hs s1) s1.transactions l).map (·.1) =
      List.replicate n (depositTx P.contract user a) ++ List.replicate n (payTx user receiver a) := by
    rw [happ, List.map_append, List.map_replicate, List.map_replicate]
  have pspends : (payTx user receiver a).spends P.contract = [UTXO.new user a] := by
    simp [payTx, Tx.spends, UTXO.onLedger, UTXO.dummy, UTXO.new, h1]
  have pcreates : (payTx user receiver a).creates P.contract = [UTXO.new receiver a] := by
    simp [payTx, Tx.creates, UTXO.onLedger, UTXO.dummy, UTXO.new, h2]
  have dspends := depositTx_spends P.contract user a
  have dcreates := Agg.depositTx_creates h1 a
  have dw : (depositTx P.contract user a).withdrawn P.contract = 0 := Agg.depositTx_withdrawn h1 a
  have pw : (payTx user receiver a).withdrawn P.contract = 0 := by
    have := Agg.depositTx_withdrawn (rollup := P.contract) h2 a
    unfold Tx.withdrawn at this ⊢
    exact this
  have haff0 : ∀ m, Affordable P.contract (live s1) (List.replicate m (depositTx P.contract user a)) := by
    intro m
    induction m with
    | zero => exact affordable_nil _ _
    | succ m ih =>
      rw [List.replicate_succ', affordable_snoc]
      refine ⟨ih, fun u => ?_⟩
      rw [← List.replicate_succ', spent_replicate, dspends]
      simp
  have haff : ∀ m, m ≤ n → Affordable P.contract (live s1) (List.replicate n (depositTx P.contract user a) ++
      List.replicate m (payTx user receiver a)) := by
    intro m
    induction m with
    | zero => intro _; rw [List.replicate_zero, List.append_nil]; exact haff0 n
    | succ m ih =>
      intro hm
      rw [List.replicate_succ', ← List.append_assoc, affordable_snoc]
      refine ⟨ih (by omega), fun u => ?_⟩
      rw [List.append_assoc, ← List.replicate_succ', spentUTXOs_append, createdUTXOs_append, List.count_append, List.count_append,
        spent_replicate, spent_replicate, created_replicate, created_replicate, dspends, dcreates, pspends, pcreates, l1]
      by_cases hux : u = UTXO.new user a
      · subst hux
        simp
        omega
      · rw [show List.count u [UTXO.new user a] = 0 from List.count_eq_zero.2 (by simpa using hux)]
        simp
  have hok : (processSignatures b cv P.hs P.contract l s1).2 = .ok () := by
    rw [C112_executes_iff b cv P.hs s1 r1 P.contract l hf, happ1]
    refine ⟨?_, haff n (le_refl _), fun _ x hx => ?_⟩
    · rw [t1, List.length_map, hlen, hllen]
    · rw [happ] at hx
      rcases List.mem_append.1 hx with hx | hx
      · rw [List.eq_of_mem_replicate hx]
        show (depositTx P.contract user a).withdrawn P.contract < 2 ^ 64
        rw [dw]
        decide
      · rw [List.eq_of_mem_replicate hx]
        show (payTx user receiver a).withdrawn P.contract < 2 ^ 64
        rw [pw]
        decide
  rcases hr : processSignatures b cv P.hs P.contract l s1 with ⟨s2, o⟩
  rw [hr] at hok
  obtain rfl : o = .ok () := hok
  have hne : UTXO.new receiver a ≠ UTXO.new user a := fun hh => h3 (congrArg UTXO.pk hh)
  have hacc := C39_accounting b cv P.hs s1 s2 r1 P.contract l hf hr
  have hcount : ∀ u : UTXO Nat G, u.isDummy = false →
      live s2 u + n * [UTXO.new user a].count u = n * [UTXO.new user a].count u + n * [UTXO.new receiver a].count u := by
    intro u hud
    have := hacc u hud
    rw [spentBy_eq, createdBy_eq, happ1, spentUTXOs_append, createdUTXOs_append, List.count_append, List.count_append,
      spent_replicate, spent_replicate, created_replicate, created_replicate, dspends, dcreates, pspends, pcreates, l1] at this
    simpa using this
  refine ⟨s1, s2, sig, hsig, e, by rw [hl]; exact hr, ?_, ?_, ?_⟩
  · have := hcount (UTXO.new user a) rfl
    rw [show List.count (UTXO.new user a) [UTXO.new receiver a] = 0 from List.count_eq_zero.2 (by simpa using hne.symm)] at this
    omega
  · have := hcount (UTXO.new receiver a) rfl
    rw [show List.count (UTXO.new receiver a) [UTXO.new user a] = 0 from List.count_eq_zero.2 (by simpa using hne)] at this
    simpa using this
  · intro b' k calls st hst hpks block hb z hzs bs hbs
    refine C57_first_epoch h hpq b P hfull cv s1 s2 txs l (by rw [hlen]; exact hn) e hr ?_ b' k calls st hst hpks block hb z hzs bs hbs
    have hsum : ∀ x ∈ txs, totalOf x.2.inputs.toList < U64 ∧ totalOf x.2.outputs.toList < U64 := by
      intro x hx
      rcases hmem x hx with rfl | rfl <;>
        simp [depositTx, payTx, totalOf, UTXO.new, UTXO.dummy, List.filter_cons] <;> exact ha
    refine ⟨?_, Or.inr hsum, ?_, ?_, ?_⟩
    · have h0 : (0 : Nat) < U64 := by decide
      intro x hx u hu
      rcases hmem x hx with rfl | rfl <;>
        simp [depositTx, payTx, Tx.ios, UTXO.new, UTXO.dummy] at hu <;>
        rcases hu with rfl | rfl | rfl | rfl <;> first | exact ha | exact h0
    · rw [← hl, ← hT, copiesSigs, copiesTxs]
      simp
    · intro y hy hk
      rw [hzip] at hy
      rcases List.mem_append.1 hy with hy | hy
      · rw [List.eq_of_mem_replicate hy]
        exact Or.inl (hz _)
      · rw [List.eq_of_mem_replicate hy] at hk
        exact absurd hk h1
    · intro y hy hno
      rw [hap y hy] at hno
      cases hno

end PF.Props
