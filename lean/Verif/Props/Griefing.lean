import Verif.Props.Liveness
import Verif.Props.Order

/-!
# Property C123: what a single participant can do to everybody's epochs
-/
set_option linter.unusedSectionVars false

namespace PF.Props
open PF PF.MT PF.Agg PF.Spec PF.AggC PF.Contract
variable {p q : Nat} {G : Type} [AddCommGroup G] [Module (ZMod q) G] [DecidableEq G]

/-! ## Stopping an epoch -/

/-- In every reachable state, for every key and every list of UTXOs, some amount of the key is neither in the
ledger nor in the list. -/
theorem fresh_amount (b : Build) (cv : Curve p q G) (hs : Hashes p) (s : Agg.State p q G) (h : Reach b cv hs s)
    (pk : G) (L : List (UTXO Nat G)) (hL : L.length < 2 ^ 32) :
    ∃ v, v < U64 ∧ live s (UTXO.new pk v) = 0 ∧ UTXO.new pk v ∉ L := by
  obtain ⟨⟨c, hc, -⟩, -, hlt, hn, -⟩ := C38_utxo_tree_mirrors b cv hs s h
  by_contra hno
  push Not at hno
  have hsub : (Finset.range (2 ^ 33)).image (fun v => (UTXO.new pk v : UTXO Nat G)) ⊆
      (Finset.range s.ledger.next).image c ∪ L.toFinset := by
    intro u hu
    obtain ⟨v, hv, rfl⟩ := Finset.mem_image.1 hu
    have hv' : v < 2 ^ 33 := Finset.mem_range.1 hv
    rw [Finset.mem_union]
    by_cases hz : live s (UTXO.new pk v) = 0
    · exact Or.inr (List.mem_toFinset.2 (hno v (lt_trans hv' (by decide)) hz))
    · left
      have : positions s (UTXO.new pk v) ≠ [] := fun he => hz (by unfold live; rw [he]; rfl)
      obtain ⟨i, hi⟩ := List.exists_mem_of_ne_nil _ this
      exact Finset.mem_image.2 ⟨i, Finset.mem_range.2 (hlt _ i hi), (hc.slots _ rfl i).1 hi⟩
  have h1 := Finset.card_le_card hsub
  rw [Finset.card_image_of_injective _ (fun v w he => by
    simpa [UTXO.new] using congrArg UTXO.amount he), Finset.card_range] at h1
  have h2 : ((Finset.range s.ledger.next).image c ∪ L.toFinset).card ≤ s.ledger.next + L.length := by
    refine le_trans (Finset.card_union_le _ _) (Nat.add_le_add ?_ (List.toFinset_card_le _))
    exact le_trans Finset.card_image_le (by rw [Finset.card_range])
  have h3 : (2 : Nat) ^ 33 = 2 ^ 32 + 2 ^ 31 + 2 ^ 31 := by decide
  omega

/-- Which transactions are approved, with one transaction singled out. -/
theorem approved_insert (cv : Curve p q G) (hs : Hashes p) (rollup : G) (r : ZMod p) (A B : List (Tx Nat G))
    (t : Tx Nat G) (l : List (Pair q G)) :
    (∀ x, l[A.length]? = some x → Approves cv hs rollup r t x = true →
      approvedTxs cv hs rollup r (A ++ t :: B) l =
        approvedTxs cv hs rollup r A (l.take A.length) ++ (t, x.1) ::
          approvedTxs cv hs rollup r B (l.drop (A.length + 1))) ∧
    ((∀ x, l[A.length]? = some x → Approves cv hs rollup r t x = false) →
      approvedTxs cv hs rollup r (A ++ t :: B) l =
        approvedTxs cv hs rollup r (A ++ B) (l.eraseIdx A.length)) := by
  induction A generalizing l with
  | nil =>
    cases l with
    | nil => exact ⟨fun x hx => by simp at hx, fun _ => by simp [approvedTxs]⟩
    | cons x l =>
      refine ⟨fun y hy ha => ?_, fun ha => ?_⟩
      · simp only [List.length_nil, List.getElem?_cons_zero, Option.some.injEq] at hy
        subst hy
        rw [List.nil_append, approvedTxs_cons_pos ha]
        simp [approvedTxs]
      · rw [List.nil_append, approvedTxs_cons_neg (ha x rfl)]
        simp
  | cons a A ih =>
    cases l with
    | nil => exact ⟨fun x hx => by simp at hx, fun _ => by simp [approvedTxs]⟩
    | cons y l =>
      obtain ⟨i1, i2⟩ := ih l
      constructor
      · intro x hx ha
        simp only [List.length_cons, List.getElem?_cons_succ] at hx
        simp only [List.cons_append, List.length_cons, List.take_succ_cons, List.drop_succ_cons]
        by_cases hy : Approves cv hs rollup r a y = true
        · rw [approvedTxs_cons_pos hy, approvedTxs_cons_pos hy, i1 x hx ha]; rfl
        · rw [approvedTxs_cons_neg (by simpa using hy), approvedTxs_cons_neg (by simpa using hy), i1 x hx ha]
      · intro hx
        simp only [List.length_cons, List.getElem?_cons_succ] at hx
        simp only [List.cons_append, List.length_cons, List.eraseIdx_cons_succ]
        by_cases hy : Approves cv hs rollup r a y = true
        · rw [approvedTxs_cons_pos hy, approvedTxs_cons_pos hy, i2 hx]
        · rw [approvedTxs_cons_neg (by simpa using hy), approvedTxs_cons_neg (by simpa using hy), i2 hx]

theorem payTx_spends {rollup owner : G} (h : owner ≠ rollup) (receiver : G) (a : Nat) :
    (payTx owner receiver a).spends rollup = [UTXO.new owner a] := by
  simp [payTx, Tx.spends, UTXO.onLedger, UTXO.dummy, UTXO.new, h]

/-- **C123** (finding): every single user, with nothing in the ledger, can stop an epoch. Whatever the others submit
(`pre`, `post`), the holder of any secret key can submit a transaction that is accepted like theirs and that he can
sign, with these consequences. However everybody else answers, if his signature is handed in, the call fails. If it
is left out, the call succeeds exactly when the other transactions can be executed, as if his were not there. -/
theorem C123_one_user_stops_an_epoch [Fact q.Prime] (b : Build) (cv : Curve p q G) (hs : Hashes p) (hp0 : 0 < p)
    (hpq : p ≤ q) (rollup : G) (sk : ZMod q) (hk : sk • cv.gen ≠ rollup) (s : Agg.State p q G)
    (h : Reach b cv hs s) (hstart : EpochStart s) (pre post : List (G × Tx Nat G))
    (hv : ∀ x ∈ pre ++ post, x.2.isValid b (some x.1) = .ok ()) (hcap : (pre ++ post).length < TX_CAP)
    (hslots : s.ledger.next + TX_IO_SIZE * ((pre ++ post).length + 1) ≤ UTXO_CAP) :
    ∃ (t : Tx Nat G) (s1 : Agg.State p q G),
      processTransactions b cv hs (pre ++ (sk • cv.gen, t) :: post) s = (s1, .ok ()) ∧
      (∃ sig, Approves cv hs rollup (txRoot cv hs s1) t (sk • cv.gen, some sig) = true) ∧
      (∀ (l : List (Pair q G)) (x : Pair q G), l.length ≤ (pre ++ post).length + 1 → l[pre.length]? = some x →
        Approves cv hs rollup (txRoot cv hs s1) t x = true →
        (processSignatures b cv hs rollup l s1).2 ≠ .ok ()) ∧
      ∀ l : List (Pair q G), l.length ≤ (pre ++ post).length + 1 →
        (∀ x, l[pre.length]? = some x → Approves cv hs rollup (txRoot cv hs s1) t x = false) →
        ((processSignatures b cv hs rollup l s1).2 = .ok () ↔
          Affordable rollup (live s) ((approvedTxs cv hs rollup (txRoot cv hs s1) ((pre ++ post).map (·.2))
            (l.eraseIdx pre.length)).map (·.1)) ∧
          (b = .debug → ∀ a ∈ approvedTxs cv hs rollup (txRoot cv hs s1) ((pre ++ post).map (·.2))
            (l.eraseIdx pre.length), a.1.withdrawn rollup < 2 ^ 64)) := by
  have hTX : TX_CAP = 4096 := rfl
  have hIO : TX_IO_SIZE = 4 := rfl
  obtain ⟨v, hv64, hlive, hnot⟩ := fresh_amount b cv hs s h (sk • cv.gen)
    (((pre ++ post).map (·.2)).flatMap fun t => t.outputs.toList) (by
      rw [List.length_flatMap]
      have : (((pre ++ post).map (·.2)).map fun t : Tx Nat G => t.outputs.toList.length) =
          List.replicate (pre ++ post).length 4 := by
        rw [List.eq_replicate_iff]
        constructor
        · simp
        · intro n hn
          simp only [List.mem_map] at hn
          obtain ⟨t, _, rfl⟩ := hn
          simp
      rw [this, List.sum_replicate, smul_eq_mul]
      have : (4 : Nat) * 4096 < 2 ^ 32 := by decide
      omega)
  have hlen : (pre ++ (sk • cv.gen, payTx (sk • cv.gen) (sk • cv.gen) v) :: post).length =
      (pre ++ post).length + 1 := by simp; omega
  obtain ⟨s1, e1, e2, e3, e4, e5, -, -⟩ := submit_valid h hstart
    (pre ++ (sk • cv.gen, payTx (sk • cv.gen) (sk • cv.gen) v) :: post) (by rw [hlen]; omega) (fun x hx => by
      rcases List.mem_append.1 hx with hx | hx
      · exact hv x (List.mem_append_left _ hx)
      · rcases List.mem_cons.1 hx with rfl | hx
        · exact payTx_valid b _ _ v hv64
        · exact hv x (List.mem_append_right _ hx))
  have hl : ∀ u, live s1 u = live s u := fun u => by unfold live positions; rw [e4]
  have hfit : ∀ l : List (Pair q G), l.length ≤ (pre ++ post).length + 1 → (Op.signatures rollup l).Fits s1 := by
    intro l hll
    refine ⟨by rw [e5]; simp only [List.length_nil]; omega, ?_⟩
    rw [e4]
    exact le_trans (Nat.add_le_add_left (Nat.mul_le_mul_left _ hll) _) hslots
  have hmap : (pre ++ (sk • cv.gen, payTx (sk • cv.gen) (sk • cv.gen) v) :: post).map (·.2) =
      pre.map (·.2) ++ payTx (sk • cv.gen) (sk • cv.gen) v :: post.map (·.2) := by simp
  have hpl : (pre.map (·.2)).length = pre.length := List.length_map _
  refine ⟨payTx (sk • cv.gen) (sk • cv.gen) v, s1, e1, ?_, ?_, ?_⟩
  · obtain ⟨sig, hsig⟩ := exists_sig cv hp0 hpq hs.crh sk
      (txEnc cv (payTx (sk • cv.gen) (sk • cv.gen) v) ++ [txRoot cv hs s1])
    exact ⟨sig, by unfold Approves; simp only [Option.getD_some]; rw [hsig]; rfl⟩
  · intro l x hll hx ha hok
    obtain ⟨-, haff, -⟩ := (C112_executes_iff b cv hs s1 e2 rollup l (hfit l hll)).1 hok
    rw [e3, hmap, (approved_insert cv hs rollup (txRoot cv hs s1) (pre.map (·.2)) (post.map (·.2))
      (payTx (sk • cv.gen) (sk • cv.gen) v) l).1 x (by rw [hpl]; exact hx) ha, List.map_append,
      List.map_cons] at haff
    have h1 := haff _ _ _ rfl (UTXO.new (sk • cv.gen) v)
    dsimp only at h1
    rw [hl, hlive] at h1
    have h2 : 0 < (spentUTXOs rollup ((approvedTxs cv hs rollup (txRoot cv hs s1) (pre.map (·.2))
        (l.take (pre.map (·.2)).length)).map (·.1) ++ [payTx (sk • cv.gen) (sk • cv.gen) v])).count
        (UTXO.new (sk • cv.gen) v) := by
      rw [List.count_pos_iff]
      unfold spentUTXOs
      rw [List.mem_flatMap]
      exact ⟨_, List.mem_append_right _ (List.mem_singleton.2 rfl), by rw [payTx_spends hk]; simp⟩
    have h3 : (createdUTXOs rollup ((approvedTxs cv hs rollup (txRoot cv hs s1) (pre.map (·.2))
        (l.take (pre.map (·.2)).length)).map (·.1))).count (UTXO.new (sk • cv.gen) v) = 0 := by
      rw [List.count_eq_zero]
      intro hm
      unfold createdUTXOs at hm
      obtain ⟨t, ht, hm⟩ := List.mem_flatMap.1 hm
      obtain ⟨y, hy, rfl⟩ := List.mem_map.1 ht
      unfold approvedTxs at hy
      obtain ⟨w, hw, rfl⟩ := List.mem_map.1 hy
      have hw2 := List.of_mem_zip (List.mem_of_mem_filter hw)
      refine hnot (List.mem_flatMap.2 ⟨w.1, ?_, List.mem_of_mem_filter hm⟩)
      rw [List.map_append]
      exact List.mem_append_left _ hw2.1
    omega
  · intro l hll hx
    rw [C112_executes_iff b cv hs s1 e2 rollup l (hfit l hll), e3, hmap,
      (approved_insert cv hs rollup (txRoot cv hs s1) (pre.map (·.2)) (post.map (·.2))
        (payTx (sk • cv.gen) (sk • cv.gen) v) l).2 (by rw [hpl]; exact hx), hpl, ← List.map_append]
    have hfun : live s1 = live s := funext hl
    rw [hfun]
    constructor
    · rintro ⟨-, h2, h3⟩; exact ⟨h2, h3⟩
    · rintro ⟨h2, h3⟩
      refine ⟨?_, h2, h3⟩
      simp only [List.length_append, List.length_cons, List.length_map] at hll ⊢
      omega

/-! ## Blocking the production of a block -/

/-- **C123** (finding): a key that is not registered with the contract can submit the empty transaction and sign it;
once its signature is accepted, no block can be produced in this epoch: the call panics. -/
theorem C123_unregistered_signer [Fact q.Prime] (b : Build) (cv : Curve p q G) (hs : Hashes p) (hp0 : 0 < p)
    (hpq : p ≤ q) (rollup : G) (sk : ZMod q) (c : Contract.State G) (hreg : ¬ Registered c (sk • cv.gen)) :
    (Tx.default : Tx Nat G).isValid b (some (sk • cv.gen)) = .ok () ∧
    (∀ r, ∃ sig, Approves cv hs rollup r Tx.default (sk • cv.gen, some sig) = true) ∧
    ∀ (s s' : Agg.State p q G) (l : List (Pair q G)), Reach b cv hs s → (Op.signatures rollup l).Fits s →
      processSignatures b cv hs rollup l s = (s', .ok ()) →
      ∀ (j : Nat) (t : Tx Nat G) (x : Pair q G), s.transactions[j]? = some t → l[j]? = some x →
        x.1 = sk • cv.gen → Approves cv hs rollup (txRoot cv hs s) t x = true → produceBlock c s' = .panic := by
  refine ⟨default_valid b _, fun r => ?_, ?_⟩
  · obtain ⟨sig, hsig⟩ := exists_sig cv hp0 hpq hs.crh sk (txEnc cv (Tx.default : Tx Nat G) ++ [r])
    exact ⟨sig, by unfold Approves; simp only [Option.getD_some]; rw [hsig]; rfl⟩
  · intro s s' l h hf hr j t x ht hx hk ha
    obtain ⟨_, h1, _⟩ := C43_appends b cv hs s s' h rollup l hf hr
    refine (C48_produce_block b cv hs s' (reach_signatures h l hf hr (by simp)) c).2 fun hall => ?_
    refine hreg (hall _ (Or.inl ?_))
    rw [h1]
    refine List.mem_append_right _ (List.mem_map.2 ⟨(t, x), ?_, by dsimp only; rw [ha, hk]; rfl⟩)
    exact List.mem_of_getElem? (List.getElem?_zip_eq_some.2 ⟨ht, hx⟩)

/-! ## Using everything up -/

/-- A transaction without inputs and with four outputs of amount zero. -/
def dustTx (pk : G) : Tx Nat G :=
  { inputs := #v[UTXO.dummy, UTXO.dummy, UTXO.dummy, UTXO.dummy]
    outputs := #v[UTXO.new pk 0, UTXO.new pk 0, UTXO.new pk 0, UTXO.new pk 0] }

theorem dustTx_valid (b : Build) (pk k : G) : (dustTx pk).isValid b (some k) = .ok () := by
  rw [C20_is_valid_decision]
  have h1 : OwnedBy k (dustTx pk).inputs.toList := by
    intro u hu hd
    simp [dustTx] at hu
    subst hu
    simp [UTXO.dummy] at hd
  rw [if_neg (not_not.2 h1)]
  simp [dustTx, totalOf, UTXO.dummy, UTXO.new, U64]

theorem dustTx_spends (rollup pk : G) : (dustTx pk).spends rollup = [] := by
  simp [dustTx, Tx.spends, UTXO.onLedger, UTXO.dummy]

theorem dustTx_creates {rollup pk : G} (h : pk ≠ rollup) :
    (dustTx pk).creates rollup = List.replicate 4 (UTXO.new pk 0) := by
  simp [dustTx, Tx.creates, UTXO.onLedger, UTXO.new, h]

/-- **C123** (finding): one registered user without any funds can use up what the system has. From every reachable
state there is an epoch that consists of his transactions only, each without inputs and with four outputs of amount
zero, that executes and whose recorded inputs prove its block; it takes all free leaves of the signer tree and four
leaves of the UTXO tree for each, and changes no other UTXO. (The exception is a valid signature `(0, 0)`.) -/
theorem C123_one_user_uses_everything_up [Fact q.Prime] (h : Sizes p q) (hpq : p ≤ q) (b : Build) (P : Params p G)
    (hfull : P.transferOnly = false) (cv : Curve p q G) (s : Agg.State p q G) (sc : Nat → G)
    (hsc : SignerLeaves b cv P.hs s sc) (hslots : s.ledger.next + TX_IO_SIZE * TX_CAP ≤ UTXO_CAP)
    (b' : Build) (k : G) (calls : List (Call G)) (st : Contract.State G)
    (hst : Contract.run b' (Contract.new k) calls = .ok st) (hpks : st.pks.length ≤ 2 ^ 32)
    (sk : ZMod q) (user : G) (hsk : user = sk • cv.gen) (ho : user ≠ P.contract) (hu0 : user ≠ 0)
    (hreg : Registered st user) :
    (∃ (d : Agg.Executed p q G) (sc' : Nat → G), d.From b cv P.hs P.contract s ∧ (∀ x ∈ d.txs, x.1 = user) ∧
      d.executed cv P.hs P.contract = List.replicate (4096 - signedPositions sc) (dustTx user, user) ∧
      live d.fin (UTXO.new user 0) = live s (UTXO.new user 0) + 4 * (4096 - signedPositions sc) ∧
      (∀ u : UTXO Nat G, u.isDummy = false → u ≠ UTXO.new user 0 → live d.fin u = live s u) ∧
      SignerLeaves b cv P.hs d.fin sc' ∧ (∀ j < 4096, sc' j ≠ 0) ∧
      ∀ z bs, StartState cv P.hs d.start (txRoot cv P.hs d.mid) z →
        bs.flatten = d.fin.ivcInputs.map CInputs.alloc → Proves P cv st d.block z bs) ∨
    ∃ (txs : List (G × Tx Nat G)) (s1 : Agg.State p q G),
      processTransactions b cv P.hs txs (Agg.reset cv P.hs s) = (s1, .ok ()) ∧ (user, Tx.default) ∈ txs ∧
      Schnorr.verify cv P.hs.crh user (txEnc cv (Tx.default : Tx Nat G) ++ [txRoot cv P.hs s1]) (0, 0) = true := by
  obtain ⟨n, hn⟩ : ∃ n, n = TX_CAP - signedPositions sc := ⟨_, rfl⟩
  have hn' : 4096 - signedPositions sc = n := hn.symm
  have hmem : ∀ x ∈ List.replicate n (user, dustTx user), x = (user, dustTx user) :=
    fun x hx => (List.mem_replicate.1 hx).2
  have hreq : Requests b P cv s st (List.replicate n (user, dustTx user)) := by
    refine ⟨fun x hx => ?_, fun x hx => ?_, fun x hx => ?_, fun x hx => ?_, fun x hx => ?_, ?_⟩
    · rw [hmem x hx]; exact dustTx_valid b _ _
    · rw [hmem x hx]
      intro u hu
      simp [Tx.ios, dustTx] at hu
      rcases hu with rfl | rfl <;> (show 0 < U64; decide)
    · rw [hmem x hx]
      constructor <;> (simp only [dustTx, totalOf, UTXO.new, UTXO.dummy]; simp [U64])
    · rw [hmem x hx]; exact .inr ⟨sk, hsk⟩
    · rw [hmem x hx]
      refine ⟨hreg, fun u hu _ => ?_⟩
      simp [dustTx] at hu
      subst hu
      exact hreg
    · rw [List.map_replicate]
      refine affordable_no_spends fun t ht => ?_
      rw [(List.mem_replicate.1 ht).2]; exact dustTx_spends _ _
  rcases C114_can_execute h hpq b P hfull cv s sc hsc hslots b' k calls st hst hpks user ho _ hreq
    (by rw [List.length_replicate, hn]) with ⟨d, d1, d2, d3, d4, dk, d5, de, d6⟩ | ⟨txs, s1, x, x1, x2, x3, x4⟩
  · left
    have hkeys : ∀ x ∈ d.txs, x.1 = user := fun x hx => by
      rcases d4 x hx with hx | rfl
      · rw [hmem x hx]
      · rfl
    obtain ⟨-, l1, l2⟩ := epoch_leaves d1 hsc
    have e1 : spentBy P.contract ((List.replicate n (user, dustTx user)).map fun x => (x.2, x.1)) = [] := by
      rw [List.map_replicate, spentBy, List.flatMap_eq_nil_iff]
      intro x hx
      rw [(List.mem_replicate.1 hx).2]; exact dustTx_spends _ _
    have e2 : ∀ n, createdBy P.contract ((List.replicate n (user, dustTx user)).map fun x => (x.2, x.1)) =
        List.replicate (4 * n) (UTXO.new user 0) := by
      intro n
      rw [List.map_replicate, createdBy]
      induction n with
      | zero => rfl
      | succ n ih =>
        rw [List.replicate_succ, List.flatMap_cons, ih, dustTx_creates ho, List.replicate_append_replicate]
        rw [Nat.mul_succ, Nat.add_comm]
    refine ⟨d, _, d1, hkeys, by rw [d3, List.map_replicate, hn'], ?_, fun u hu hne => ?_, l1, fun j hj => ?_, d6⟩
    · have := epoch_live hsc d1 (UTXO.new user 0) rfl
      rw [d3, e1, e2, List.count_replicate_self, List.count_nil, Nat.add_zero] at this
      rw [this, hn']
    · have := epoch_live hsc d1 u hu
      rw [d3, e1, e2, List.count_nil, Nat.add_zero, List.count_replicate] at this
      rw [this, if_neg (by simpa using Ne.symm hne), Nat.add_zero]
    · have hkey : ∀ y ∈ d.answers, y.1 ≠ 0 := by
        intro y hy
        have : y.1 ∈ d.txs.map (·.1) := dk ▸ List.mem_map_of_mem hy
        obtain ⟨x, hx, e⟩ := List.mem_map.1 this
        rw [← e, hkeys x hx]
        exact hu0
      have hsp := signed_after l2 d1.txCap hkey (sc := sc) (fun k y hy ha =>
        have hy := List.getElem?_zip_eq_some.1 hy
        de.free k y.1 y.2 hy.1 hy.2 ha)
      have hle : signedPositions sc ≤ TX_CAP := by
        unfold signedPositions
        exact le_trans List.countP_le_length (by rw [List.length_range])
      rw [d3, List.length_map, List.length_replicate, hn, Nat.add_sub_cancel' hle] at hsp
      unfold signedPositions at hsp
      have := List.countP_eq_length.1 (hsp.trans List.length_range.symm) j (List.mem_range.2 hj)
      simpa using this
  · right
    rcases x3 with rfl | ⟨hx, e⟩
    · exact ⟨txs, s1, x1, x2, x4⟩
    · rw [hmem x hx] at e
      exact absurd e ho

/-- **C123** (and then): after such an epoch no later epoch whose recorded inputs are accepted executes anything,
whatever anybody submits and signs, or the signer tree's hash collides. -/
theorem C123_then_nothing (h : Sizes p q) (b : Build) (P : Params p G) (cv : Curve p q G) (s s' : Agg.State p q G)
    (sc' : Nat → G) (hsc : SignerLeaves b cv P.hs s sc') (hfull : ∀ j < 4096, sc' j ≠ 0)
    (ds : List (Agg.Executed p q G)) (hl : Lifetime b cv P.hs P.contract s ds s')
    (hk : ∀ d ∈ ds, ∀ y ∈ d.answers, y.1 ≠ 0) (hr : ∀ d ∈ ds, RecordedRun P cv d) :
    (∀ u : UTXO Nat G, u.isDummy = false → live s' u = live s u) ∨
    ∃ d ∈ ds, ∃ sc'', SignerLeaves b cv P.hs d.start sc'' ∧ Collision P.hs (pkEncVar cv) 13 sc''
      (signerUpds P cv (txRoot cv P.hs d.mid) 0 (d.fin.ivcInputs.map CInputs.alloc)) := by
  rcases C114_frozen h b P cv ds s s' hl sc' hsc hfull hk hr with hnone | hc
  · left
    intro u hu
    clear hr hfull hk
    induction ds generalizing s sc' with
    | nil => obtain rfl : s' = s := hl; rfl
    | cons d ds ih =>
      obtain ⟨h1, h2⟩ := hl
      obtain ⟨-, l1, -⟩ := epoch_leaves h1 hsc
      rw [ih d.fin _ l1 h2 (fun e he => hnone e (List.mem_cons_of_mem _ he))]
      have := epoch_live hsc h1 u hu
      rw [hnone d (by simp)] at this
      simpa [spentBy, createdBy] using this
  · exact .inr hc

end PF.Props
