import Verif.Props.Aggregator
import Verif.Proof.AggregatorEpoch
import Verif.Proof.AggregatorOwner
import Verif.Proof.SparseMTRep
import Mathlib.Data.List.TakeWhile

/-!
# Properties C41–C49: the calls of the aggregator (native)
-/

set_option linter.unusedSectionVars false

namespace PF.Props
open PF PF.MT PF.Agg PF.Spec PF.Schnorr
variable {p q : Nat} {G : Type} [AddCommGroup G] [Module (ZMod q) G] [DecidableEq G]
variable (b : Build) (cv : Curve p q G) (hs : Hashes p)

/-! ## C41 -/

theorem proveFrom_ok {s : State p q G}
    (h : Rep (txTreeCfg cv hs) s.txTree (listC Tx.default s.transactions))
    (hcap : s.transactions.length ≤ TX_CAP) (l : List (Tx Nat G)) (i : Nat) (hl : s.transactions.drop i = l) :
    proveFrom cv hs s.txTree i l = .ok ((List.range' i l.length).map
      (truePath (txCRH cv hs.crh) hs.h2 13 (listC Tx.default s.transactions))) := by
  induction l generalizing i with
  | nil => rfl
  | cons tx l ih =>
    have hlt : i < s.transactions.length := by
      by_contra hc
      rw [List.drop_eq_nil_of_le (by omega)] at hl; cases hl
    have hd := drop_eq_cons (List.getElem?_eq_getElem hlt)
    rw [hd] at hl
    obtain ⟨h1, h2⟩ := List.cons.inj hl
    have hg : listC Tx.default s.transactions i = tx := by
      simp [listC, List.getElem?_eq_getElem hlt, h1]
    have hp := genProof_rep h i (by unfold TX_CAP at hcap; show _ < 2 ^ 12; omega)
    rw [hg] at hp
    unfold proveFrom
    rw [hp, ih (i + 1) h2]
    rfl

/-- C41: in every reachable state the transaction-tree root is the root of the accepted transactions at
positions 0..n-1 (default elsewhere), and `prove_transactions` returns one proof per transaction, each of
which verifies at its index in any build. -/
theorem C41_tx_tree (s : State p q G) (h : Reach b cv hs s) :
    (s.txTree.rootHash : Outcome Unit (ZMod p)) = .ok (merkleRoot (txCRH cv hs.crh) hs.h2 13
      (fun i => s.transactions[i]?.getD Tx.default)) ∧
    s.transactions.length ≤ 2 ^ 12 ∧
    ∃ πs, proveTransactions cv hs s = .ok πs ∧ πs.length = s.transactions.length ∧
      ∀ i tx π, s.transactions[i]? = some tx → πs[i]? = some π → ∀ b',
        (verifyWithIndex b' (txTreeCfg cv hs) π (txRoot cv hs s) tx i : Outcome Unit Bool) = .ok true := by
  obtain ⟨c, sc, hi⟩ := reach_inv h
  refine ⟨?_, hi.txCap, _, proveFrom_ok cv hs hi.tx hi.txCap _ 0 rfl, by simp, ?_⟩
  · unfold STree.rootHash; rw [hi.root]; rfl
  · intro i tx π h1 h2 b'
    have hlt : i < s.transactions.length := (List.getElem?_eq_some_iff.1 h1).1
    have hc := hi.txCap
    unfold TX_CAP at hc
    have := truePath_verifies (txTreeCfg cv hs) (by show 2 ≤ 13; omega) (by show 13 ≤ 64; omega)
      (listC Tx.default s.transactions) i (by show _ < 2 ^ 12; omega) b'
    rw [List.getElem?_map, List.getElem?_range' (by simpa using hlt)] at h2
    simp only [List.drop_zero, Option.map_some, Option.some.injEq, Nat.zero_add, Nat.one_mul] at h2
    rw [← h2]
    have hg : listC Tx.default s.transactions i = tx := by simp [listC, h1]
    rw [hg] at this
    exact this

/-- C41: the update proof recorded for transaction `i` verifies the insertion of this transaction, at an
empty position, into the tree of the transactions before it. -/
theorem C41_update_proofs (s : State p q G) (h : Reach b cv hs s) :
    s.txProofs.length = s.transactions.length ∧
    ∀ i tx π, s.transactions[i]? = some tx → s.txProofs[i]? = some π → ∀ b',
      (verifyUpdate b' (txTreeCfg cv hs) π
        (merkleRoot (txCRH cv hs.crh) hs.h2 13 (fun j => (s.transactions.take i)[j]?.getD Tx.default))
        (merkleRoot (txCRH cv hs.crh) hs.h2 13 (fun j => (s.transactions.take (i + 1))[j]?.getD Tx.default))
        Tx.default tx i : Outcome Unit Bool) = .ok true := by
  obtain ⟨c, sc, hi⟩ := reach_inv h
  refine ⟨hi.proofsLen, ?_⟩
  intro i tx π h1 h2 b'
  have hlt : i < s.transactions.length := (List.getElem?_eq_some_iff.1 h1).1
  have hc := hi.txCap
  unfold TX_CAP at hc
  rw [hi.proofs i hlt] at h2
  simp only [Option.some.injEq] at h2
  subst h2
  have := sibs_verify_update (txTreeCfg cv hs) (by show 13 ≤ 64; omega)
    (listC Tx.default (s.transactions.take i)) i tx (by show _ < 2 ^ 12; omega) b'
  have e1 : listC Tx.default (s.transactions.take i) i = (Tx.default : Tx Nat G) := by
    simp [listC]
  have e2 : write (listC Tx.default (s.transactions.take i)) i tx =
      listC Tx.default (s.transactions.take (i + 1)) := by
    have hl : (s.transactions.take i).length = i := by simp; omega
    have := listC_append (Tx.default : Tx Nat G) (s.transactions.take i) tx
    rw [hl] at this
    rw [← this]; congr 1
    rw [List.take_add_one, h1]; rfl
  rw [e1, e2] at this
  exact this

/-- Non-vacuity: a reachable state with a transaction. -/
example (rollup owner : G) (h : owner ≠ rollup) :
    ∃ s, Reach b cv hs s ∧ s.transactions = [depositTx rollup owner 5] := by
  obtain ⟨s1, s2, _, _, h1, _, h2, _⟩ := demo_deposit b cv hs h (a := 5) (by decide)
  exact ⟨s1, h1, h2⟩

/-- Concrete case for both C41 theorems: the payment of `toy_payment`, with its proofs. -/
example (hs : Hashes 5) : ∃ s : State 5 7 (ZMod 7), s.transactions = [payTx 3 2 5] ∧
    (∃ πs, proveTransactions toyCurve2 hs s = .ok πs ∧ πs.length = 1) ∧ s.txProofs.length = 1 := by
  obtain ⟨s3, _, _, r3, _, t3, _⟩ := toy_payment b hs
  obtain ⟨_, _, πs, e1, e2, _⟩ := C41_tx_tree b toyCurve2 hs s3 r3
  refine ⟨s3, t3, ⟨πs, e1, by rw [e2, t3]; rfl⟩, ?_⟩
  rw [(C41_update_proofs b toyCurve2 hs s3 r3).1, t3]; rfl

/-! ## C42 -/

/-- C42: a pair that does not authorise its transaction leaves the UTXO set and tree, the free index, the
deposits and withdrawals and the signer tree as they are; it appends `None` to the signers and one circuit
input, with position zero and all-zero paths for the eight UTXO updates, to the recorded inputs. `l` are the pairs before it. -/
theorem C42_unsigned_no_effect (s s1 : State p q G) (h : Reach b cv hs s) (rollup : G) (l : List (Pair q G))
    (x : Pair q G) (tx : Tx Nat G) (hf : (Op.signatures rollup (l ++ [x])).Fits s)
    (h1 : processSignatures b cv hs rollup l s = (s1, .ok ()))
    (ht : s.transactions[l.length]? = some tx)
    (hn : Approves cv hs rollup (txRoot cv hs s) tx x = false) :
    ∃ inp, processSignatures b cv hs rollup (l ++ [x]) s =
        ({ s1 with signers := s1.signers ++ [none], ivcInputs := s1.ivcInputs ++ [inp] }, .ok ()) ∧
      inp.tx = tx ∧ inp.senderPk = x.1 ∧ inp.signature = x.2.getD (0, 0) ∧
      inp.dels = List.replicate 4 (0, List.replicate 31 0) ∧
      inp.adds = List.replicate 4 (0, List.replicate 31 0) ∧ inp.signerProof = List.replicate 12 0 := by
  obtain ⟨c, sc, hi⟩ := reach_inv h
  obtain ⟨c1, sc1, k1, k2, k3⟩ := sig_ok hi (fits_prefix hf) h1
  obtain ⟨f1, f2, f3, f4, f5, f6⟩ := k1.frame
  have hlt : l.length < s.transactions.length := (List.getElem?_eq_some_iff.1 ht).1
  have hp := k2.proofs l.length (by rw [f1]; exact hlt)
  generalize sibsOf (txTreeCfg cv hs) (listC Tx.default (s1.transactions.take l.length)) l.length = tp at hp
  refine ⟨rejInputs cv hs tx tp x.1 x.2, ?_, ?_⟩
  · rw [sig_snoc h1]
    unfold processOne
    have ht1 : s1.transactions[l.length]? = some tx := by rw [f1]; exact ht
    rw [ht1, k2.root, txRoot_congr f1]
    simp only
    rw [accepted_eq, hn, if_neg (by simp)]
    unfold applyRejected
    rw [pushInputs_ok (s := { s1 with signers := s1.signers ++ [none] }) hp]
    rfl
  · exact ⟨rfl, rfl, rfl, rfl, rfl, rfl⟩

/-- C42: over a whole call the deposits and withdrawals recorded are exactly those of the authorised
transactions (in release builds for withdrawals below 2^64 per transaction). -/
theorem C42_records (s s' : State p q G) (h : Reach b cv hs s) (rollup : G) (l : List (Pair q G))
    (hf : (Op.signatures rollup l).Fits s)
    (hr : processSignatures b cv hs rollup l s = (s', .ok ())) :
    s'.deposits = s.deposits ++
      depositsBy rollup (approvedTxs cv hs rollup (txRoot cv hs s) s.transactions l) ∧
    ((b = .debug ∨ ∀ tx ∈ s.transactions, tx.withdrawn rollup < 2 ^ 64) →
      s'.withdrawals = s.withdrawals ++
        withdrawalsBy rollup (approvedTxs cv hs rollup (txRoot cv hs s) s.transactions l)) := by
  obtain ⟨c, sc, hi⟩ := reach_inv h
  obtain ⟨c1, sc1, k1, k2, k3⟩ := sig_ok hi hf hr
  exact ⟨by simpa using k1.deposits, fun hb => by simpa using k1.withdrawals hb⟩

/-- C42: what counts as unauthorised. A pair without a signature (and another key than the contract's) is
treated as the signature `(0, 0)`; it authorises a transaction only if a hash that is independent of the
key, truncated to the scalar size, is zero. -/
theorem C42_absent_signature (rollup : G) (r : ZMod p) (tx : Tx Nat G) (pk : G) (hpk : pk ≠ rollup)
    (hx : cv.xy 0 = none) :
    Approves cv hs rollup r tx (pk, none) = true ↔
      fromBigint q ((hs.crh (0 :: 0 :: (txEnc cv tx ++ [r]))).val % 2 ^ Circuit.modBits q) = some (0 : ZMod q) := by
  simp [Approves, hpk, Schnorr.verify, hx]

/-- Non-vacuity: an unauthorised pair (the hash never gives zero). -/
example : ∃ (s : State 101 7 (ZMod 7)), Reach .debug toyCurve ⟨fun _ => 1, fun _ _ => 0⟩ s ∧
    s.transactions = [depositTx 1 2 5] ∧
    Approves toyCurve ⟨fun _ => 1, fun _ _ => 0⟩ 1 (txRoot toyCurve ⟨fun _ => 1, fun _ _ => 0⟩ s)
      (depositTx 1 2 5) (2, none) = false := by
  obtain ⟨s1, s2, _, _, h1, _, h2, _⟩ := demo_deposit .debug toyCurve (⟨fun _ => 1, fun _ _ => 0⟩ : Hashes 101)
    (rollup := 1) (owner := 2) (by decide) (a := 5) (by decide)
  refine ⟨s1, h1, h2, ?_⟩
  simp [Approves, Schnorr.verify, fromBigint]
  decide

/-- Concrete case for C42_unsigned_no_effect: a deposit whose pair names key 2 and carries no signature. The
hash is 1 everywhere, so an absent signature does not verify. -/
example : ∃ (s : State 101 7 (ZMod 7)) (inp : _),
    processSignatures .debug toyCurve ⟨fun _ => 1, fun _ _ => 0⟩ 1 [(2, none)] s =
      ({ s with signers := s.signers ++ [none], ivcInputs := s.ivcInputs ++ [inp] }, .ok ()) ∧
    inp.tx = depositTx 1 2 5 ∧ inp.senderPk = 2 := by
  obtain ⟨s1, s2, _, _, h1, _, h2, _, _, g1, n1, _⟩ := demo_deposit .debug toyCurve
    (⟨fun _ => 1, fun _ _ => 0⟩ : Hashes 101) (rollup := 1) (owner := 2) (by decide) (a := 5) (by decide)
  obtain ⟨inp, e1, e2, e3, _⟩ := C42_unsigned_no_effect .debug toyCurve (⟨fun _ => 1, fun _ _ => 0⟩ : Hashes 101)
    s1 s1 h1 1 [] (2, none) (depositTx 1 2 5)
    ⟨by rw [g1]; simp [TX_CAP], by rw [n1, show UTXO_CAP = 2147483648 from rfl]; simp [TX_IO_SIZE]⟩ rfl
    (by rw [h2]; rfl) (by simp [Approves, Schnorr.verify, fromBigint]; decide)
  exact ⟨s1, inp, e1, e2, e3⟩

/-- Concrete case for C42_records: the call of `demo_deposit` records the deposit of 5 of key 2. -/
example : ∃ (s s' : State 101 7 (ZMod 7)), Reach b toyCurve (⟨fun _ => 1, fun _ _ => 0⟩ : Hashes 101) s ∧
    s'.deposits = s.deposits ++ depositsBy 1 (approvedTxs toyCurve ⟨fun _ => 1, fun _ _ => 0⟩ 1
      (txRoot toyCurve ⟨fun _ => 1, fun _ _ => 0⟩ s) s.transactions [(1, none)]) ∧ s'.deposits = [(2, 5)] := by
  obtain ⟨s1, s2, _, q2, h1, _, h2, _, _, g1, n1, _, _, _, _, d2, _⟩ := demo_deposit b toyCurve
    (⟨fun _ => 1, fun _ _ => 0⟩ : Hashes 101) (rollup := 1) (owner := 2) (by decide) (a := 5) (by decide)
  exact ⟨s1, s2, h1, (C42_records b toyCurve _ s1 s2 h1 1 _
    ⟨by rw [g1]; simp [TX_CAP], by rw [n1, show UTXO_CAP = 2147483648 from rfl]; simp [TX_IO_SIZE]⟩ q2).1, d2⟩

/-- Concrete case for C42_absent_signature: a hash that is 0 makes an absent signature verify. -/
example : Approves toyCurve ⟨fun _ => 0, fun _ _ => 0⟩ 1 0 (depositTx 1 2 5) ((2 : ZMod 7), none) = true :=
  (C42_absent_signature toyCurve ⟨fun _ => 0, fun _ _ => 0⟩ 1 0 (depositTx 1 2 5) 2 (by decide) (by decide)).2
    (by decide)

/-! ## C43 -/

/-- C43: a successful `process_signatures` on `l` appends, in order, one signer entry per pair (the key if
the pair authorises its transaction, else `None`) and one circuit input per pair, made of the transaction
at the same position, its insertion proof, the key and the signature; transactions, height and recorded
transaction proofs stay. -/
theorem C43_appends (s s' : State p q G) (h : Reach b cv hs s) (rollup : G) (l : List (Pair q G))
    (hf : (Op.signatures rollup l).Fits s)
    (hr : processSignatures b cv hs rollup l s = (s', .ok ())) :
    l.length ≤ s.transactions.length ∧
    s'.signers = s.signers ++ (s.transactions.zip l).map
      (fun y => if Approves cv hs rollup (txRoot cv hs s) y.1 y.2 then some y.2.1 else none) ∧
    (∃ ins, s'.ivcInputs = s.ivcInputs ++ ins ∧ ins.length = l.length ∧
      ins.map (fun y => (y.tx, y.senderPk, y.signature)) =
        (s.transactions.zip l).map (fun y => (y.1, y.2.1, y.2.2.getD (0, 0))) ∧
      ins.map (·.txProof) = s.txProofs.take l.length) ∧
    s'.signers.length = s.signers.length + l.length ∧
    s'.transactions = s.transactions ∧ s'.txTree = s.txTree ∧ s'.txProofs = s.txProofs ∧
    s'.height = s.height := by
  obtain ⟨c, sc, hi⟩ := reach_inv h
  obtain ⟨c1, sc1, k1, k2, k3⟩ := sig_ok hi hf hr
  obtain ⟨f1, f2, f3, f4, f5, f6⟩ := k1.frame
  obtain ⟨ins, i1, i2, i3⟩ := k1.inputs
  refine ⟨k3, by simpa using k1.signers, ⟨ins, i1, ?_, by simpa using i2, by simpa using i3⟩, f5, f1, f2, f3, f4⟩
  have := congrArg List.length i2
  simp at this; omega

/-- C43: the outcome of the next pair `x` after a successful prefix `l`, in all cases. -/
theorem C43_outcome (s s1 : State p q G) (h : Reach b cv hs s) (rollup : G) (l : List (Pair q G))
    (x : Pair q G) (hf : (Op.signatures rollup (l ++ [x])).Fits s)
    (h1 : processSignatures b cv hs rollup l s = (s1, .ok ())) :
    -- more pairs than transactions: index panic
    (s.transactions.length ≤ l.length → (processSignatures b cv hs rollup (l ++ [x]) s).2 = .panic) ∧
    ∀ tx, s.transactions[l.length]? = some tx →
      ((processSignatures b cv hs rollup (l ++ [x]) s).2 = .ok () ↔
        (Approves cv hs rollup (txRoot cv hs s) tx x = true →
          Covers rollup s1 tx.inputs.toList ∧ (b = .debug → tx.withdrawn rollup < 2 ^ 64))) ∧
      ((processSignatures b cv hs rollup (l ++ [x]) s).2 = .panic ↔
        (Approves cv hs rollup (txRoot cv hs s) tx x = true ∧ Covers rollup s1 tx.inputs.toList ∧
          b = .debug ∧ 2 ^ 64 ≤ tx.withdrawn rollup)) := by
  obtain ⟨c, sc, hi⟩ := reach_inv h
  obtain ⟨o1, o2⟩ := step_outcome hi hf h1
  refine ⟨o1, fun tx ht => ?_⟩
  obtain ⟨p1, p2, p3, p4⟩ := o2 tx ht
  have hU : U64 = 2 ^ 64 := rfl
  rw [hU] at p3 p4
  by_cases ha : Approves cv hs rollup (txRoot cv hs s) tx x = true
  · by_cases hc : Covers rollup s1 tx.inputs.toList
    · by_cases hb : b = .debug ∧ ¬ tx.withdrawn rollup < 2 ^ 64
      · have := p4 ha hc hb.1 hb.2
        rw [this]
        refine ⟨⟨fun h => (by simp at h), fun h => absurd ((h ha).2 hb.1) hb.2⟩,
          ⟨fun _ => ⟨ha, hc, hb.1, by omega⟩, fun _ => rfl⟩⟩
      · have := p3 ha hc hb
        rw [this]
        refine ⟨⟨fun _ _ => ⟨hc, fun h => by by_contra h'; exact hb ⟨h, h'⟩⟩, fun _ => rfl⟩,
          ⟨fun h => (by simp at h), fun h => absurd ⟨h.2.2.1, by omega⟩ hb⟩⟩
    · rcases p2 ha hc with e | e <;> rw [e] <;>
        exact ⟨⟨fun h => (by simp at h), fun h => absurd (h ha).1 hc⟩,
          ⟨fun h => (by simp at h), fun h => absurd h.2.1 hc⟩⟩
  · have ha' : Approves cv hs rollup (txRoot cv hs s) tx x = false := by simpa using ha
    rw [p1 ha']
    exact ⟨⟨fun _ h => absurd h ha, fun _ => rfl⟩, ⟨fun h => (by simp at h), fun h => absurd h.1 ha⟩⟩

/-- Concrete case for C43_appends and C43_outcome: the payment of `toy_payment`. The call with one pair
succeeds and records the signer; with one pair more than there are transactions it panics; with the pair
alone, `C43_outcome` gives success exactly because the owner's UTXO is there. -/
example (hs : Hashes 5) : ∃ (s s' : State 5 7 (ZMod 7)) (sig : ZMod 7 × ZMod 7),
    processSignatures b toyCurve2 hs 1 [(3, some sig)] s = (s', .ok ()) ∧
    s'.signers.length = s.signers.length + 1 ∧ (∃ inp, s'.ivcInputs = s.ivcInputs ++ [inp]) ∧
    (processSignatures b toyCurve2 hs 1 [(3, some sig), (3, some sig)] s).2 = .panic ∧
    Covers 1 s (payTx (3 : ZMod 7) 2 5).inputs.toList := by
  obtain ⟨s3, s4, sig, r3, r4, t3, g3, f3, ap, q4, _⟩ := toy_payment b hs
  obtain ⟨_, _, ⟨ins, i1, i2, _⟩, h3, _⟩ := C43_appends b toyCurve2 hs s3 s4 r3 1 _ (f3 _ (by simp)) q4
  refine ⟨s3, s4, sig, q4, h3, ?_, ?_, ?_⟩
  · obtain ⟨x, rfl⟩ := List.length_eq_one_iff.1 i2
    exact ⟨x, i1⟩
  · exact (C43_outcome b toyCurve2 hs s3 s4 r3 1 [(3, some sig)] (3, some sig) (f3 _ (by simp)) q4).1
      (by rw [t3]; simp)
  · have h := ((C43_outcome b toyCurve2 hs s3 s3 r3 1 [] (3, some sig) (f3 _ (by simp)) rfl).2 (payTx 3 2 5)
      (by rw [t3]; rfl)).1
    rw [List.nil_append, q4] at h
    exact (h.1 rfl ap).1

/-! ## C44 -/

/-- C44: `process_transactions` appends exactly the transactions before the first invalid one, in order,
and returns the first invalid one's result, `Ok` if there is none. It changes nothing but the
transactions, their tree and their proofs. -/
theorem C44_longest_valid_prefix (s : State p q G) (h : Reach b cv hs s) (l : List (G × Tx Nat G))
    (hf : s.transactions.length + l.length ≤ 2 ^ 12) :
    ∃ t πs, processTransactions b cv hs l s =
      ({ s with
          transactions := s.transactions ++
            (l.takeWhile (fun x => decide (x.2.isValid b (some x.1) = .ok ()))).map (·.2),
          txTree := t, txProofs := s.txProofs ++ πs },
       match (l.dropWhile (fun x => decide (x.2.isValid b (some x.1) = .ok ()))).head? with
       | none => .ok ()
       | some x => x.2.isValid b (some x.1)) := by
  obtain ⟨c, sc, hi⟩ := reach_inv h
  obtain ⟨done, rest, t, prs, e1, e2, e3, o, e4, e5⟩ := processTransactions_spec (b := b) l _ hi hf
  refine ⟨t, prs, ?_⟩
  have hall : ∀ x ∈ done, (fun x : G × Tx Nat G => decide (x.2.isValid b (some x.1) = .ok ())) x = true := by
    intro x hx; simpa using e2 x hx
  rcases e5 with ⟨rfl, rfl⟩ | ⟨x, rest', rfl, hx, rfl⟩
  · rw [e4, e1]
    simp only [List.append_nil]
    rw [List.takeWhile_eq_self_iff.2 hall, List.dropWhile_eq_nil_iff.2 hall]
    rfl
  · rw [e4, e1, List.takeWhile_append_of_pos hall, List.dropWhile_append_of_pos hall,
      List.takeWhile_cons_of_neg (by simpa using hx), List.dropWhile_cons_of_neg (by simpa using hx)]
    simp only [List.append_nil, List.head?_cons]

/-- Non-vacuity: of a valid deposit, an unbalanced transaction and another deposit, one is accepted. -/
example (rollup owner : G) (h : owner ≠ rollup) :
    ∃ s, (processTransactions b cv hs
        [(rollup, depositTx rollup owner 5), (owner, depositTx rollup owner 5), (rollup, depositTx rollup owner 7)]
        (Agg.new q cv hs)) = (s, .err .invalidPublicKey) ∧ s.transactions = [depositTx rollup owner 5] := by
  have hbad : (depositTx rollup owner 5).isValid b (some owner) = .err .invalidPublicKey := by
    unfold Tx.isValid
    rw [if_pos]
    simp [depositTx, nonDummy, UTXO.new, UTXO.dummy, h.symm]
  obtain ⟨t, πs, e⟩ := C44_longest_valid_prefix b cv hs _ Reach.new
    [(rollup, depositTx rollup owner 5), (owner, depositTx rollup owner 5), (rollup, depositTx rollup owner 7)]
    (by simp [Agg.new])
  rw [e]
  simp [hbad, depositTx_valid b rollup owner 5 (by decide), List.takeWhile, List.dropWhile, Agg.new]

/-! ## C45 -/

/-- C45: a failed `process_transactions` leaves exactly the state of the successful call on the
transactions before the offending one. -/
theorem C45_transactions_failed (s s' : State p q G) (l : List (G × Tx Nat G)) (e : TransactionError)
    (hr : processTransactions b cv hs l s = (s', .err e)) :
    ∃ done x rest, l = done ++ x :: rest ∧ processTransactions b cv hs done s = (s', .ok ()) ∧
      x.2.isValid b (some x.1) = .err e := by
  obtain ⟨k, x, h1, h2, h3⟩ := processTransactions_err hr
  refine ⟨l.take k, x, l.drop (k + 1), ?_, h2, h3⟩
  rw [← drop_eq_cons h1, List.take_append_drop]

/-- C45: a failed `process_signatures` leaves the state of the successful call on the pairs before the
offending one, with two differences: the offending key is already recorded as a signer (list and tree),
and the inputs of the offending transaction before the first one that is not covered are consumed. -/
theorem C45_signatures_failed (s s' : State p q G) (h : Reach b cv hs s) (rollup : G) (l : List (Pair q G))
    (hf : (Op.signatures rollup l).Fits s) (e : AggError)
    (hr : processSignatures b cv hs rollup l s = (s', .err e)) :
    ∃ done x rest s1 tx us u vs ledger' signerTree', l = done ++ x :: rest ∧
      processSignatures b cv hs rollup done s = (s1, .ok ()) ∧
      s.transactions[done.length]? = some tx ∧ Approves cv hs rollup (txRoot cv hs s) tx x = true ∧
      tx.inputs.toList = us ++ u :: vs ∧ Covers rollup s1 us ∧ ¬ Covers rollup s1 (us ++ [u]) ∧
      s' = { s1 with ledger := ledger', signerTree := signerTree', signers := s1.signers ++ [some x.1] } ∧
      s'.ledger.next = s1.ledger.next ∧
      ∀ v, v.isDummy = false → live s' v + (us.filter (·.onLedger rollup)).count v = live s1 v := by
  obtain ⟨c, sc, hi⟩ := reach_inv h
  obtain ⟨done, x, rest, s1, c1, sc1, d, sd, e1, e2, e3, e4, e5, e6, e7⟩ := sig_err hi hf hr
  obtain ⟨tx, us, u, vs, g1, g2, g3, g4, g5, g6, g7, g8, g9⟩ := e6.covers e4 e7
  obtain ⟨f1, f2, f3, f4, f5, f6⟩ := e5.frame
  obtain ⟨tx', us', u', vs', dels, l', st, k1, k2, k3, k4, k5, k6, k7, k8, k9, k10⟩ := e6
  exact ⟨done, x, rest, s1, tx, us, u, vs, l', st, e1, e3, by rw [← f1]; exact g1, g2, g3, g5, g6, k10,
    by rw [k10]; exact k8, g9⟩

/-- Transaction spending two UTXOs of `owner`. -/
def twoInputTx (owner receiver : G) : Tx Nat G :=
  { inputs := #v[UTXO.new owner 5, UTXO.new owner 7, UTXO.dummy, UTXO.dummy]
    outputs := #v[UTXO.new receiver 12, UTXO.dummy, UTXO.dummy, UTXO.dummy] }

theorem twoInputTx_valid (owner receiver : G) : (twoInputTx owner receiver).isValid b (some owner) = .ok () := by
  rw [C20_is_valid_decision, if_neg, if_pos]
  · simp [twoInputTx, totalOf, UTXO.new, UTXO.dummy]
  · simp [twoInputTx, totalOf, UTXO.new, UTXO.dummy, U64]
  · rw [not_not]
    intro u hu hd
    simp [twoInputTx] at hu
    rcases hu with rfl | rfl | rfl
    · rfl
    · rfl
    · simp [UTXO.dummy] at hd

/-- C45 (failed calls are not atomic): the owner of a UTXO of 5 signs a transaction that also spends a
UTXO of 7 which does not exist. The call fails, and the UTXO of 5 is gone: nothing was created for it. -/
theorem C45_utxo_lost [Fact q.Prime] (hp : 0 < p) (hpq : p ≤ q) (rollup receiver : G) (sk : ZMod q)
    (h1 : sk • cv.gen ≠ rollup) :
    ∃ s s' sig e, Reach b cv hs s ∧ live s (UTXO.new (sk • cv.gen) 5) = 1 ∧
      processSignatures b cv hs rollup [(sk • cv.gen, some sig)] s = (s', .err e) ∧
      ∀ v, v.isDummy = false → live s' v = 0 := by
  obtain ⟨s1, s2, _, _, _, r2, t1, t2, _, _, _, _, _, l1, l2, _, _, _, n2⟩ :=
    demo_deposit b cv hs h1 (a := 5) (by decide)
  obtain ⟨s3, q3, r3, t3, g3, _, _, sg3, _⟩ := tx_one (reach_reset r2) (sk • cv.gen)
    (twoInputTx (sk • cv.gen) receiver) (by simp [reset, TX_CAP]) (twoInputTx_valid b _ _)
  have t3' : s3.transactions[0]? = some (twoInputTx (sk • cv.gen) receiver) := by rw [t3]; rfl
  have hl3 : ∀ v, live s3 v = live s2 v := fun v => by unfold live positions; rw [g3]; rfl
  obtain ⟨sig, hsig⟩ := exists_sig cv hp hpq hs.crh sk
    (txEnc cv (twoInputTx (sk • cv.gen) receiver) ++ [txRoot cv hs s3])
  have hne : (UTXO.new (sk • cv.gen) 7 : UTXO Nat G) ≠ UTXO.new (sk • cv.gen) 5 := by
    simp [UTXO.new]
  have hsp : (twoInputTx (sk • cv.gen) receiver).spends rollup =
      [UTXO.new (sk • cv.gen) 5, UTXO.new (sk • cv.gen) 7] := by
    simp [twoInputTx, Tx.spends, UTXO.onLedger, UTXO.dummy, UTXO.new, h1]
  have hfits : (Op.signatures rollup [(sk • cv.gen, some sig)]).Fits s3 := by
    refine ⟨by rw [sg3]; simp [reset, TX_CAP], ?_⟩
    rw [g3]; simp only [reset, List.length_cons, List.length_nil]
    rw [show TX_IO_SIZE = 4 from rfl, show UTXO_CAP = 2147483648 from rfl]; omega
  have href := (C39_refused_iff b cv hs s3 r3 rollup [(sk • cv.gen, some sig)] hfits).2
    ⟨[], _, [], s3, _, rfl, rfl, t3', by simp [Approves, hsig], UTXO.new (sk • cv.gen) 7, by
      rw [hl3, l2 _ rfl hne, hsp]; simp⟩
  rcases hres : processSignatures b cv hs rollup [(sk • cv.gen, some sig)] s3 with ⟨s', o⟩
  rw [hres] at href
  have : ∃ e, o = .err e := by rcases href with hr | hr <;> exact ⟨_, hr⟩
  obtain ⟨e, rfl⟩ := this
  refine ⟨s3, s', sig, e, r3, by rw [hl3, l1], hres, ?_⟩
  obtain ⟨done, x, rest, s1', tx, us, u, vs, l', st, e1, e2, e3, e4, e5, e6, e7, e8, e9, e10⟩ :=
    C45_signatures_failed b cv hs s3 s' r3 rollup _ hfits e hres
  have hd : done = [] := by
    cases done with
    | nil => rfl
    | cons a t => simp at e1
  subst hd
  have hs1 : s1' = s3 := by
    have : processSignatures b cv hs rollup [] s3 = (s3, .ok ()) := rfl
    rw [this] at e2; simpa using e2.symm
  subst hs1
  rw [show ([] : List (Pair q G)).length = 0 from rfl, t3'] at e3
  simp only [Option.some.injEq] at e3
  subst e3
  have hu : us = [UTXO.new (sk • cv.gen) 5] := by
    refine covered_unique (vs := vs) (u := u) (u' := UTXO.new (sk • cv.gen) 7)
      (vs' := [UTXO.dummy, UTXO.dummy]) ?_ e6 ?_ e7 ?_
    · rw [← e5]; rfl
    · intro v
      rw [hl3]
      by_cases hv : v = UTXO.new (sk • cv.gen) 5
      · subst hv; rw [l1]; simp [UTXO.onLedger, UTXO.new, h1]
      · rw [List.count_eq_zero_of_not_mem]
        · exact Nat.zero_le _
        · intro hm; exact hv (by simpa using (List.mem_filter.1 hm).1)
    · intro hc
      have := hc (UTXO.new (sk • cv.gen) 7)
      rw [hl3, l2 _ rfl hne] at this
      simp [UTXO.onLedger, UTXO.new, h1] at this
  subst hu
  intro v hv
  have := e10 v hv
  rw [hl3] at this
  by_cases hv5 : v = UTXO.new (sk • cv.gen) 5
  · subst hv5
    rw [l1] at this
    simp [UTXO.onLedger, UTXO.new, h1] at this
    exact this
  · rw [l2 v hv hv5] at this; omega

/-- C45 (failed calls are not atomic): a valid transaction before an invalid one stays accepted. -/
theorem C45_valid_prefix_stays (rollup owner : G) (h : owner ≠ rollup) :
    ∃ s, (processTransactions b cv hs
        [(rollup, depositTx rollup owner 5), (owner, depositTx rollup owner 5)]
        (Agg.new q cv hs)) = (s, .err .invalidPublicKey) ∧ s.transactions = [depositTx rollup owner 5] ∧
      (Agg.new q cv hs).transactions = [] := by
  have hbad : (depositTx rollup owner 5).isValid b (some owner) = .err .invalidPublicKey := by
    unfold Tx.isValid
    rw [if_pos]
    simp [depositTx, nonDummy, UTXO.new, UTXO.dummy, h.symm]
  obtain ⟨t, πs, e⟩ := C44_longest_valid_prefix b cv hs _ Reach.new
    [(rollup, depositTx rollup owner 5), (owner, depositTx rollup owner 5)]
    (by simp [Agg.new])
  rw [e]
  simp [hbad, depositTx_valid b rollup owner 5 (by decide), List.takeWhile, List.dropWhile, Agg.new]

/-- Concrete case for C45_transactions_failed: the call of `C45_valid_prefix_stays`. (The proof of
`C45_utxo_lost` applies C45_signatures_failed, so the failing call there is its concrete case.) -/
example (hs : Hashes 5) : ∃ (s : State 5 7 (ZMod 7)) (done : List (ZMod 7 × Tx Nat (ZMod 7))) (x : _) (rest : _),
    [((1 : ZMod 7), depositTx (1 : ZMod 7) 2 5), (2, depositTx 1 2 5)] = done ++ x :: rest ∧
    processTransactions b toyCurve2 hs done (Agg.new 7 toyCurve2 hs) = (s, .ok ()) ∧
    x.2.isValid b (some x.1) = .err .invalidPublicKey := by
  obtain ⟨s, e, _⟩ := C45_valid_prefix_stays (q := 7) b toyCurve2 hs 1 2 (by decide)
  obtain ⟨done, x, rest, h1, h2, h3⟩ := C45_transactions_failed b toyCurve2 hs _ _ _ _ e
  exact ⟨s, done, x, rest, h1, h2, h3⟩

/-- Concrete case for C45_utxo_lost: contract key 1, owner key 3 (secret 1), receiver key 2. -/
example (hs : Hashes 5) := @C45_utxo_lost 5 7 (ZMod 7) _ _ _ b toyCurve2 hs ⟨by decide⟩ (by decide) (by decide)
  1 2 1 (by decide)

/-! ## C46 -/

/-- C46: if a call (even a failing one) removes a UTXO `u` from a position, then the call was
`process_signatures`, and one of its pairs authorised a transaction that spends `u` and all of whose real
inputs belong to the owner of `u`. If the pair's key is the owner's, and not the contract's, it carries
the owner's valid signature over the transaction and the transaction root. -/
theorem C46_removed_only_if_authorised (s : State p q G) (h : Reach b cv hs s) (op : Op q G)
    (hf : op.Fits s) (hr : (op.run b cv hs s).2 ≠ .panic) (u : UTXO Nat G) (hu : u.isDummy = false) (j : Nat)
    (hj : j ∈ positions s u) (hj' : j ∉ positions (op.run b cv hs s).1 u) :
    ∃ (rollup : G) (l : List (Pair q G)) (k : Nat) (x : Pair q G) (tx : Tx Nat G), op = .signatures rollup l ∧ l[k]? = some x ∧ s.transactions[k]? = some tx ∧
      u ∈ tx.spends rollup ∧ OwnedBy u.pk tx.inputs.toList ∧
      Approves cv hs rollup (txRoot cv hs s) tx x = true ∧
      (x.1 = u.pk → Schnorr.verify cv hs.crh u.pk (txEnc cv tx ++ [txRoot cv hs s]) (x.2.getD (0, 0)) = true) := by
  obtain ⟨c, sc, hi⟩ := reach_inv h
  have hcj : c j = u := (hi.holds.pos u hu j).1 hj
  cases op with
  | newEpoch => exact absurd hj hj'
  | transactions l =>
    obtain ⟨done, rest, t, prs, e1, e2, e3, o, e4, e5⟩ := processTransactions_spec (b := b) l _ hi hf
    simp only [Op.run, e4] at hj'
    exact absurd hj hj'
  | signatures rollup l =>
    rcases hres : processSignatures b cv hs rollup l s with ⟨s', o⟩
    simp only [Op.run, hres] at hr hj'
    have ho : o ≠ .panic := by rintro rfl; exact hr rfl
    have hre := reach_signatures h l hf hres ho
    obtain ⟨c', sc', hi'⟩ := reach_inv hre
    have hne : c' j ≠ c j := by
      rw [hcj]; intro e; exact hj' ((hi'.holds.pos u hu j).2 e)
    obtain ⟨k, x, tx, k1, k2, k3, k4⟩ := sig_taken hi hf hres ho hi'.represents j (hi.pos_lt hu hj) hne
    rw [hcj] at k4
    have hmem := List.mem_filter.1 k4
    obtain ⟨sender, hval⟩ := reach_valid h tx (List.mem_of_getElem? k2)
    have hown := valid_owned hval
    have hs' : u.pk = sender := hown u hmem.1 hu
    refine ⟨rollup, l, k, x, tx, rfl, k1, k2, k4, by rw [hs']; exact hown, k3, fun hx => ?_⟩
    unfold Approves at k3
    have hne : x.1 ≠ rollup := by
      rw [hx]; have := (onLedger_iff.1 hmem.2).2; exact this
    simp only [hne, decide_false, Bool.or_false] at k3
    rw [← hx]; exact k3

/-- C46 (the key of a pair is not tied to the owner): a payment of the owner's 5 is carried out by
`process_signatures` when it is presented under the contract's key, with no signature at all. -/
theorem C46_moved_without_signature (rollup owner receiver : G) (h1 : owner ≠ rollup) (h2 : receiver ≠ rollup)
    (h3 : receiver ≠ owner) :
    ∃ s s', Reach b cv hs s ∧ live s (UTXO.new owner 5) = 1 ∧
      processSignatures b cv hs rollup [(rollup, none)] s = (s', .ok ()) ∧
      live s' (UTXO.new owner 5) = 0 ∧ live s' (UTXO.new receiver 5) = 1 := by
  obtain ⟨s1, s2, _, _, _, r2, t1, t2, _, _, _, _, _, l1, l2, _, _, _, n2⟩ :=
    demo_deposit b cv hs h1 (a := 5) (by decide)
  have hpay : (payTx owner receiver 5).spends rollup = [UTXO.new owner 5] := by
    simp [payTx, Tx.spends, UTXO.onLedger, UTXO.dummy, UTXO.new, h1]
  have hcr : (payTx owner receiver 5).creates rollup = [UTXO.new receiver 5] := by
    simp [payTx, Tx.creates, UTXO.onLedger, UTXO.dummy, UTXO.new, h2]
  have hne : (UTXO.new receiver 5 : UTXO Nat G) ≠ UTXO.new owner 5 := fun h => h3 (by
    have := congrArg UTXO.pk h; exact this)
  have hwd : (payTx owner receiver 5).withdrawn rollup < U64 :=
    lt_of_le_of_lt (withdrawn_le _) (by simp [payTx, totalOf, UTXO.new, UTXO.dummy, U64])
  obtain ⟨s3, q3, r3, t3, g3, _, _, sg3, _⟩ := tx_one (reach_reset r2) owner
    (payTx owner receiver 5) (by simp [reset, TX_CAP]) (payTx_valid b _ _ _ (by decide))
  have t3' : s3.transactions[0]? = some (payTx owner receiver 5) := by rw [t3]; rfl
  have hl3 : ∀ v, live s3 v = live s2 v := fun v => by unfold live positions; rw [g3]; rfl
  obtain ⟨s4, q4, r4, a4, _, _, _, _, n4⟩ := sig_one (rollup := rollup) (x := (rollup, none)) r3
    t3' (by rw [sg3]; simp [reset, TX_CAP])
    (by rw [g3]; simp only [reset]; rw [show TX_IO_SIZE = 4 from rfl, show UTXO_CAP = 2147483648 from rfl]; omega)
    (by simp [Approves])
    (by
      intro v
      have : (payTx owner receiver 5).inputs.toList.filter (·.onLedger rollup) =
        [UTXO.new owner 5] := hpay
      rw [this, hl3]
      by_cases hv : v = UTXO.new owner 5
      · subst hv; rw [l1]; simp
      · rw [List.count_eq_zero_of_not_mem (by simpa using hv)]; exact Nat.zero_le _)
    hwd
  rw [hpay, hcr] at a4
  refine ⟨s3, s4, r3, by rw [hl3, l1], q4, ?_, ?_⟩
  · have := a4 (UTXO.new owner 5) rfl
    have hz : [UTXO.new receiver 5].count (UTXO.new owner 5) = 0 :=
      List.count_eq_zero_of_not_mem (by simpa using hne.symm)
    rw [hl3, l1, hz] at this
    simpa using this
  · have := a4 (UTXO.new receiver 5) rfl
    have hz : [UTXO.new owner 5].count (UTXO.new receiver 5) = 0 :=
      List.count_eq_zero_of_not_mem (by simpa using hne)
    rw [hl3, l2 _ rfl hne, hz] at this
    simpa using this

/-- Concrete case for C46_removed_only_if_authorised: the payment of `toy_payment` removes the owner's UTXO
from its position, and the theorem returns the owner's signature. -/
example (hs : Hashes 5) : ∃ (s : State 5 7 (ZMod 7)) (j : Nat) (tx : Tx Nat (ZMod 7)) (sig : ZMod 7 × ZMod 7),
    j ∈ positions s (UTXO.new 3 5) ∧ (UTXO.new 3 5) ∈ tx.spends 1 ∧
    Schnorr.verify toyCurve2 hs.crh 3 (txEnc toyCurve2 tx ++ [txRoot toyCurve2 hs s]) sig = true := by
  obtain ⟨s3, s4, sig, r3, r4, t3, g3, f3, ap, q4, l3, _, l4, _⟩ := toy_payment b hs
  unfold live at l3 l4
  obtain ⟨j, hj⟩ := List.length_eq_one_iff.1 l3
  have hj' : j ∈ positions s3 (UTXO.new 3 5) := by rw [hj]; simp
  have hq : ((Op.signatures (1 : ZMod 7) [((3 : ZMod 7), some sig)]).run b toyCurve2 hs s3) = (s4, .ok ()) := by
    simp [Op.run, q4]
  obtain ⟨r, l, k, x, tx, e1, e2, e3, e4, e5, e6, e7⟩ := C46_removed_only_if_authorised b toyCurve2 hs s3 r3
    (.signatures 1 [(3, some sig)]) (f3 _ (by simp)) (by rw [hq]; simp) (UTXO.new 3 5) rfl j hj'
    (by rw [hq]; rw [List.length_eq_zero_iff.1 l4]; simp)
  cases e1
  have hx : x = (3, some sig) := by
    rcases k with _ | k
    · simpa using e2.symm
    · simp at e2
  subst hx
  exact ⟨s3, j, tx, sig, hj', e4, e7 rfl⟩

/-- Concrete case for C46_moved_without_signature. -/
example (hs : Hashes 5) := C46_moved_without_signature (q := 7) b toyCurve2 hs 1 3 2
  (by decide) (by decide) (by decide)

/-! ## C47 -/

/-- C47: `reset_for_new_epoch` clears everything but the UTXO ledger, the signer tree and the height. -/
theorem C47_reset (s : State p q G) :
    reset cv hs s = { freshWith cv hs s.ledger with signerTree := s.signerTree, height := s.height } := rfl

/-- C47: whatever calls follow a reset, all their outcomes, and everything they leave except the signer
tree and the recorded signer paths, are those of a new aggregator holding the same UTXO ledger. -/
theorem C47_epoch_like_fresh (s : State p q G) (h : Reach b cv hs s) (ops : List (Op q G))
    (hf : Op.AllFit b cv hs (reset cv hs s) ops) :
    (Op.runAll b cv hs (reset cv hs s) ops).2 = (Op.runAll b cv hs (freshWith cv hs s.ledger) ops).2 ∧
    SameEpoch (Op.runAll b cv hs (reset cv hs s) ops).1
      (Op.runAll b cv hs (freshWith cv hs s.ledger) ops).1 := by
  obtain ⟨c, sc, hi⟩ := reach_inv h
  refine runAll_same ops ?_ (inv_reset hi) (inv_fresh hi) hf
  exact ⟨rfl, rfl, rfl, rfl, rfl, rfl, by rw [show (reset cv hs s).height = s.height from rfl, reach_height h]; rfl,
    rfl, rfl⟩

/-- Non-vacuity: a second epoch with another deposit. -/
example (rollup owner : G) (h1 : owner ≠ rollup) :
    ∃ s, Reach b cv hs s ∧ live s (UTXO.new owner 5) = 1 ∧
      Op.AllFit b cv hs (reset cv hs s)
        [.transactions [(rollup, depositTx rollup owner 7)], .signatures rollup [(rollup, none)]] := by
  obtain ⟨s1, s2, _, _, _, r2, _, _, _, _, _, _, _, l1, _, _, _, _, n2⟩ :=
    demo_deposit b cv hs h1 (a := 5) (by decide)
  obtain ⟨s3, q3, r3, t3, g3, _, _, sg3, _⟩ := tx_one (reach_reset r2) rollup
    (depositTx rollup owner 7) (by simp [reset, TX_CAP]) (depositTx_valid b _ _ _ (by decide))
  have hn : s3.ledger.next ≤ 4 := by rw [g3]; exact n2
  obtain ⟨s4, q4, _⟩ := sig_one (rollup := rollup) (x := (rollup, none)) r3
    (tx := depositTx rollup owner 7) (by rw [t3]; rfl) (by rw [sg3]; simp [reset, TX_CAP])
    (by rw [show TX_IO_SIZE = 4 from rfl, show UTXO_CAP = 2147483648 from rfl]; omega)
    (by simp [Approves]) (covers_of_spends_nil (depositTx_spends _ _ _))
    (by rw [depositTx_withdrawn h1]; decide)
  refine ⟨s2, r2, l1, by simp [Op.Fits, reset, TX_CAP], by simp [Op.run, q3], ?_⟩
  simp only [Op.run, q3, q4, Op.AllFit]
  refine ⟨⟨by rw [sg3]; simp [reset, TX_CAP], ?_⟩, by simp, trivial⟩
  simp only [List.length_cons, List.length_nil]
  rw [show TX_IO_SIZE = 4 from rfl, show UTXO_CAP = 2147483648 from rfl]; omega

/-- C47 (heights do not increase): in every history the height of the next block is 0. -/
theorem C47_height_always_zero (s : State p q G) (h : Reach b cv hs s) : s.height = 0 := reach_height h

/-- C47 (the signer tree is not reset): after an epoch whose first transaction was signed by the
contract, the next epoch starts with a signer-tree root over a non-empty tree: it commits to the old
signer at position 0, the empty tree to no signer. -/
theorem C47_signer_tree_kept (rollup owner : G) (h1 : owner ≠ rollup) :
    ∃ s, Reach b cv hs (reset cv hs s) ∧ (reset cv hs s).signers = [] ∧
      ((reset cv hs s).signerTree.rootHash : Outcome Unit (ZMod p)) =
        .ok (merkleRoot (pkCRH cv hs.crh) hs.h2 13 (fun i => if i = 0 then rollup else 0)) := by
  obtain ⟨s1, s2, k1, k2, r1, r2, t1, t2, _, sg1, n1, _⟩ := demo_deposit b cv hs h1 (a := 5) (by decide)
  refine ⟨s2, reach_reset r2, rfl, ?_⟩
  have hfresh : Inv cv hs s1 (fun _ => UTXO.dummy) (fun _ => 0) := by
    obtain ⟨t, πs, e⟩ := C44_longest_valid_prefix b cv hs _ Reach.new
      [(rollup, depositTx rollup owner 5)] (by simp [Agg.new])
    obtain ⟨done, rest, t, prs, e1, e2, e3, o, e4, e5⟩ := processTransactions_spec (b := b)
      [(rollup, depositTx rollup owner 5)] _ (inv_new (q := q) cv hs) (by simp [Agg.new, TX_CAP])
    rw [k1] at e4
    rw [(Prod.mk.inj e4).1]; exact e3
  obtain ⟨c', sc', g1, g2, _⟩ := sig_ok hfresh
    ⟨by rw [sg1]; simp [TX_CAP], by rw [n1]; simp [TX_IO_SIZE, UTXO_CAP]⟩ k2
  have hsc : sc' = write (fun _ => 0) 0 rollup := by
    cases g1 with
    | cons i x l s s' s'' c c1 c2 sc sc1 sc2 h1 h2 =>
      cases h2
      cases h1 with
      | rej tx tp ht hp ha => simp [accepted] at ha
      | acc => rw [sg1]; rfl
  have := g2.signer
  rw [hsc] at this
  exact this.rootHash

/-- Concrete case for C47_signer_tree_kept, and for C47_height_always_zero (a state two epochs on). -/
example (hs : Hashes 5) := C47_signer_tree_kept (q := 7) b toyCurve2 hs 1 3 (by decide)

example (hs : Hashes 5) : ∃ s : State 5 7 (ZMod 7), live s (UTXO.new 2 5) = 1 ∧ s.height = 0 := by
  obtain ⟨s3, s4, sig, r3, r4, t3, g3, f3, ap, q4, l3, _, l4, l4', _⟩ := toy_payment b hs
  exact ⟨s4, l4', C47_height_always_zero b toyCurve2 hs s4 r4⟩

/-! ## C48 -/

theorem mapO_ok {α β : Type} (f : α → Outcome Unit β) (g : α → β) (l : List α) (h : ∀ a ∈ l, f a = .ok (g a)) :
    mapO f l = .ok (l.map g) := by
  induction l with
  | nil => rfl
  | cons a t ih =>
    unfold mapO
    rw [h a (by simp), ih (fun x hx => h x (List.mem_cons_of_mem _ hx))]
    rfl

theorem mapO_panic {α β : Type} (f : α → Outcome Unit β) (l : List α) (hf : ∀ a, f a ≠ .err ())
    (h : ∃ a ∈ l, f a = .panic) : mapO f l = .panic := by
  induction l with
  | nil => simp at h
  | cons a t ih =>
    unfold mapO
    rcases ha : f a with x | _ | _
    · have : ∃ a ∈ t, f a = .panic := by
        obtain ⟨y, hy, hy2⟩ := h
        rcases List.mem_cons.1 hy with rfl | hy
        · rw [ha] at hy2; cases hy2
        · exact ⟨y, hy, hy2⟩
      rw [ih this]; rfl
    · exact absurd ha (hf a)
    · rfl

theorem mapO_not_err {α β : Type} {f : α → Outcome Unit β} (hf : ∀ a, f a ≠ .err ()) (l : List α) :
    mapO f l ≠ .err () := by
  induction l with
  | nil => simp [mapO]
  | cons a t ih =>
    unfold mapO
    rcases ha : f a with x | ⟨⟩ | _
    · rcases ht : mapO f t with y | ⟨⟩ | _
      · simp
      · exact absurd ht ih
      · simp
    · exact absurd ha (hf a)
    · simp

/-- The key is registered in the contract. -/
def Registered (c : Contract.State G) (pk : G) : Prop := (c.pkIndices.get pk).isSome

/-- Index of a registered key in the contract, as a 32-bit integer. -/
def regIndex (c : Contract.State G) (pk : G) : Nat := ((c.pkIndices.get pk).getD 0) % 2 ^ 32

theorem indexOf_ok {c : Contract.State G} {pk : G} (h : Registered c pk) : indexOf c pk = .ok (regIndex c pk) := by
  unfold Registered at h
  unfold indexOf regIndex
  cases hg : c.pkIndices.get pk with
  | none => rw [hg] at h; cases h
  | some i => rfl

theorem indexOf_panic {c : Contract.State G} {pk : G} (h : ¬ Registered c pk) : indexOf c pk = .panic := by
  unfold Registered at h
  unfold indexOf
  cases hg : c.pkIndices.get pk with
  | none => rfl
  | some i => rw [hg] at h; simp at h

/-- C48: in every reachable state, for every contract, `produce_block` returns the current roots, the
height, and for each signer, deposit and withdrawal the registered index of its key, if all keys are
registered; it panics otherwise. -/
theorem C48_produce_block (s : State p q G) (h : Reach b cv hs s) (c : Contract.State G) :
    ((∀ pk, (some pk ∈ s.signers ∨ pk ∈ s.deposits.map (·.1) ∨ pk ∈ s.withdrawals.map (·.1)) → Registered c pk) →
      ∃ ur sr, (s.ledger.tree.rootHash : Outcome Unit (ZMod p)) = .ok ur ∧
        (s.signerTree.rootHash : Outcome Unit (ZMod p)) = .ok sr ∧
        produceBlock c s = .ok
          { utxoRoot := ur, txRoot := txRoot cv hs s, signerRoot := sr,
            signers := s.signers.map (Option.map (regIndex c)), height := s.height,
            deposits := s.deposits.map (fun e => (regIndex c e.1, e.2)),
            withdrawals := s.withdrawals.map (fun e => (regIndex c e.1, e.2)) }) ∧
    (¬ (∀ pk, (some pk ∈ s.signers ∨ pk ∈ s.deposits.map (·.1) ∨ pk ∈ s.withdrawals.map (·.1)) →
        Registered c pk) → produceBlock c s = .panic) := by
  obtain ⟨d, sd, hi⟩ := reach_inv h
  have e1 := hi.holds.tree.rootHash (ε := Unit)
  have e2 := hi.signer.rootHash (ε := Unit)
  have e3 : (s.txTree.rootHash : Outcome Unit (ZMod p)) = .ok (txRoot cv hs s) := by
    unfold STree.rootHash; rw [hi.root]; rfl
  have n1 : ∀ a, signerIndex c a ≠ .err () := by
    intro a; cases a with
    | none => simp [signerIndex]
    | some pk =>
      by_cases hr : Registered c pk
      · simp [signerIndex, indexOf_ok hr]
      · simp [signerIndex, indexOf_panic hr]
  have n2 : ∀ a, amountIndex c a ≠ .err () := by
    intro a
    by_cases hr : Registered c a.1
    · simp [amountIndex, indexOf_ok hr]
    · simp [amountIndex, indexOf_panic hr]
  unfold produceBlock
  rw [e1, e2, e3]
  simp only [Outcome.bind_ok]
  constructor
  · intro hall
    refine ⟨_, _, rfl, rfl, ?_⟩
    have m1 : mapO (signerIndex c) s.signers = .ok (s.signers.map (Option.map (regIndex c))) := by
      apply mapO_ok
      intro a ha
      cases a with
      | none => rfl
      | some pk => simp [signerIndex, indexOf_ok (hall pk (Or.inl ha))]
    have m2 : mapO (amountIndex c) s.deposits = .ok (s.deposits.map (fun e => (regIndex c e.1, e.2))) := by
      apply mapO_ok
      intro a ha
      simp [amountIndex, indexOf_ok (hall a.1 (Or.inr (Or.inl (List.mem_map_of_mem ha))))]
    have m3 : mapO (amountIndex c) s.withdrawals = .ok (s.withdrawals.map (fun e => (regIndex c e.1, e.2))) := by
      apply mapO_ok
      intro a ha
      simp [amountIndex, indexOf_ok (hall a.1 (Or.inr (Or.inr (List.mem_map_of_mem ha))))]
    rw [m1, m2, m3]; rfl
  · intro hn
    push Not at hn
    obtain ⟨pk, hpk, hreg⟩ := hn
    rcases hm1 : mapO (signerIndex c) s.signers with x1 | ⟨⟩ | _
    · rcases hm2 : mapO (amountIndex c) s.deposits with x2 | ⟨⟩ | _
      · rcases hm3 : mapO (amountIndex c) s.withdrawals with x3 | ⟨⟩ | _
        · exfalso
          rcases hpk with h1 | h1 | h1
          · rw [mapO_panic _ _ n1 ⟨_, h1, by simp [signerIndex, indexOf_panic hreg]⟩] at hm1; cases hm1
          · obtain ⟨a, ha, rfl⟩ := List.mem_map.1 h1
            rw [mapO_panic _ _ n2 ⟨_, ha, by simp [amountIndex, indexOf_panic hreg]⟩] at hm2; cases hm2
          · obtain ⟨a, ha, rfl⟩ := List.mem_map.1 h1
            rw [mapO_panic _ _ n2 ⟨_, ha, by simp [amountIndex, indexOf_panic hreg]⟩] at hm3; cases hm3
        · exact absurd hm3 (mapO_not_err n2 _)
        · rfl
      · exact absurd hm2 (mapO_not_err n2 _)
      · rfl
    · exact absurd hm1 (mapO_not_err n1 _)
    · rfl

/-- Non-vacuity: after a deposit signed by the contract, `produce_block` succeeds for a contract at which
both keys are registered, with the registered indices, and panics for an empty registry. -/
example (rollup owner : G) (h1 : owner ≠ rollup) :
    ∃ s blk, Reach b cv hs s ∧
      produceBlock ⟨[rollup, owner], [(rollup, 0), (owner, 1)], [0, 0], [0, 0], []⟩ s = .ok blk ∧
      blk.signers = [some 0] ∧ blk.deposits = [(1, 5)] ∧ blk.withdrawals = [] ∧
      produceBlock ⟨[], [], [], [], []⟩ s = .panic := by
  obtain ⟨s1, s2, k1, k2, r1, r2, t1, t2, l0, sg1, n1, _, _, l1, l2, d2, w2, sg2, n2⟩ :=
    demo_deposit b cv hs h1 (a := 5) (by decide)
  obtain ⟨ur, sr, _, _, e⟩ := (C48_produce_block b cv hs s2 r2
    ⟨[rollup, owner], [(rollup, 0), (owner, 1)], [0, 0], [0, 0], []⟩).1 (by
      intro pk hpk
      rw [sg2, d2, w2] at hpk
      simp at hpk
      rcases hpk with rfl | rfl <;> simp [Registered, HMap.get]
      split <;> simp)
  refine ⟨s2, _, r2, e, ?_, ?_, ?_, ?_⟩
  · simp [sg2, regIndex, HMap.get]
  · simp [d2, regIndex, HMap.get, h1]
  · simp [w2]
  · refine (C48_produce_block b cv hs s2 r2 ⟨[], [], [], [], []⟩).2 ?_
    intro hc
    have := hc rollup (Or.inl (by rw [sg2]; simp))
    simp [Registered, HMap.get] at this

/-! ## C49 -/

/-- C49: the loop of `process_signatures` can be split: a call on `l1 ++ l2` is the call on `l1`
followed, if it succeeds, by the loop on `l2` *starting at transaction* `l1.length`. -/
theorem C49_split (s : State p q G) (rollup : G) (l1 l2 : List (Pair q G)) :
    processSignatures b cv hs rollup (l1 ++ l2) s =
      (let r := processSignatures b cv hs rollup l1 s
       match r.2 with
       | .ok _ => processFrom b cv hs rollup l1.length l2 r.1
       | .err e => (r.1, .err e)
       | .panic => (r.1, .panic)) := by
  unfold processSignatures
  rw [processFrom_append]
  simp only [SM.bind, Nat.zero_add]
  rcases processFrom b cv hs rollup 0 l1 s with ⟨s1, o⟩
  rcases o with _ | _ | _ <;> rfl

/-- C49 (a second *call* does not continue, it starts at transaction 0 again): after the deposit of 5 was
executed, calling `process_signatures` again with the same pair executes it a second time: two UTXOs and
two deposit records for one transaction. -/
theorem C49_second_call_repeats (rollup owner : G) (h1 : owner ≠ rollup) :
    ∃ s s' s'', Reach b cv hs s ∧ s.transactions = [depositTx rollup owner 5] ∧ (∀ v, live s v = 0) ∧
      processSignatures b cv hs rollup [(rollup, none)] s = (s', .ok ()) ∧
      processSignatures b cv hs rollup [(rollup, none)] s' = (s'', .ok ()) ∧
      live s'' (UTXO.new owner 5) = 2 ∧ s''.deposits = [(owner, 5), (owner, 5)] ∧
      s''.signers = [some rollup, some rollup] := by
  obtain ⟨s1, s2, k1, k2, r1, r2, t1, t2, l0, sg1, n1, _, _, l1, l2, d2, _, sg2, n2⟩ :=
    demo_deposit b cv hs h1 (a := 5) (by decide)
  obtain ⟨s3, k3, r3, a3, d3, w3, sg3, _⟩ := sig_one (rollup := rollup) (x := (rollup, none)) r2
    (tx := depositTx rollup owner 5) (by rw [t2, t1]; rfl)
    (by rw [sg2]; simp [TX_CAP])
    (by rw [show TX_IO_SIZE = 4 from rfl, show UTXO_CAP = 2147483648 from rfl]; omega)
    (by simp [Approves]) (covers_of_spends_nil (depositTx_spends _ _ _))
    (by rw [depositTx_withdrawn h1]; decide)
  refine ⟨s1, s2, s3, r1, t1, l0, k2, k3, ?_, ?_, ?_⟩
  · have := a3 (UTXO.new owner 5) rfl
    rw [depositTx_spends, depositTx_creates h1, l1] at this
    simpa using this
  · rw [d3, d2]; simp [Tx.depositsOf, depositTx, UTXO.new, UTXO.dummy]
  · rw [sg3, sg2]; rfl

/-- Concrete case for C49_second_call_repeats. -/
example (hs : Hashes 5) := C49_second_call_repeats (q := 7) b toyCurve2 hs 1 3 (by decide)

end PF.Props
