import Verif.Proof.AggregatorBook
import Verif.Props.AggregatorCalls

/-!
# C97, C98: the aggregator on histories of any length
-/

set_option linter.unusedSectionVars false

namespace PF.Props
open PF PF.MT PF.Agg PF.Spec
variable {p q : Nat} {G : Type} [AddCommGroup G] [Module (ZMod q) G] [DecidableEq G]
variable {b : Build} {cv : Curve p q G} {hs : Hashes p}

/-! ## C97 -/

/-- C97: on every history of calls, with no bound on the number of transactions, signers and UTXOs, the
aggregator shows exactly the state of the reference ledger, and every further call has the outcome of the
reference ledger, including which error is returned and when a debug build panics. -/
theorem C97_refines (s : Agg.State p q G) (B : Book G) (h : Histories b cv hs s B) :
    Shows s B ∧
    (∀ l, (processTransactions b cv hs l s).2 = (B.submit b l).2) ∧
    ∃ root, (s.txTree.rootHash : Outcome Unit (ZMod p)) = .ok root ∧
      ∀ rollup l, (processSignatures b cv hs rollup l s).2 =
        (B.answers b rollup (Approves cv hs rollup root) 0 l).2 := by
  have hf := histories_full h
  refine ⟨hf.shows, fun l => (hf.submit l).1, ?_⟩
  obtain ⟨r, hr⟩ := hf.txRoot
  refine ⟨r, by unfold STree.rootHash; rw [hr]; rfl, fun rollup l => (hf.answers hr l 0).1⟩

/-- C97: every non-panicking sequence of calls has a reference ledger: a call that does not panic extends
the history. -/
theorem C97_every_call (s : Agg.State p q G) (B : Book G) (h : Histories b cv hs s B) (op : Op q G)
    (hr : (op.run b cv hs s).2 ≠ .panic) : ∃ B', Histories b cv hs (op.run b cv hs s).1 B' := by
  cases op with
  | newEpoch => exact ⟨_, h.newEpoch⟩
  | transactions l =>
    refine ⟨_, h.transactions l fun hh => hr ?_⟩
    simp only [Op.run]; rw [hh]
  | signatures rollup l =>
    obtain ⟨root, hroot, _⟩ := (C97_refines s B h).2.2
    refine ⟨_, h.signatures rollup l root hroot fun hh => hr ?_⟩
    simp only [Op.run]; rw [hh]

theorem histories_represents (s : Agg.State p q G) (B : Book G) (h : Histories b cv hs s B)
    (hc : s.ledger.next ≤ UTXO_CAP) : Represents cv hs s (slotsOf s.ledger B.ever) := by
  have hf := (histories_full h).led
  refine ⟨?_, ?_, ?_⟩
  · unfold STree.rootHash; rw [(hf.tree hc).root]; rfl
  · intro u hu i
    show i ∈ posIn s.ledger u ↔ _
    unfold slotsOf
    constructor
    · intro hi
      rw [hf.slot u i hi]
      simp [hi]
    · rcases he : B.ever[i]? with _ | v
      · intro e; rw [← e] at hu; simp [UTXO.dummy] at hu
      · simp only
        split
        · next hv => rintro rfl; exact hv
        · intro e; rw [← e] at hu; simp [UTXO.dummy] at hu
  · intro i hi
    unfold slotsOf at hi ⊢
    rcases he : B.ever[i]? with _ | v
    · rfl
    · rw [he] at hi
      simp only at hi ⊢
      split
      · next hv =>
        rw [if_pos hv] at hi
        rw [hf.real v (List.mem_of_getElem? he)] at hi
        cases hi
      · rfl

/-- C97: as long as at most 2^31 UTXOs were ever created, the UTXO root commits to the reference pool: there
is an array of slots with that root, consistent with the UTXO map, whose number of copies of every real UTXO
is its multiplicity in the pool. No bound on the number of transactions or signers is needed. -/
theorem C97_root_commits_to_pool (s : Agg.State p q G) (B : Book G) (h : Histories b cv hs s B)
    (hc : B.ever.length ≤ 2 ^ 31) :
    ∃ c, Represents cv hs s c ∧ ∀ u, u.isDummy = false → copies c (2 ^ 31) u = B.pool.count u := by
  have hf := (histories_full h).led
  have hc' : s.ledger.next ≤ UTXO_CAP := by rw [hf.next]; exact hc
  have hR := histories_represents s B h hc'
  refine ⟨_, hR, fun u hu => ?_⟩
  have e := copies_eq_length (c := slotsOf s.ledger B.ever) (n := UTXO_CAP) (l := positions s u)
    (hf.nodup u) (fun i => hR.slots u hu i) (fun i hi => by
      have h1 := (List.getElem?_eq_some_iff.1 (hf.slot u i hi)).1
      rw [← hf.next] at h1
      exact lt_of_lt_of_le h1 hc')
  rw [show (2 : Nat) ^ 31 = UTXO_CAP from rfl, e]
  exact hf.pool u

/-! ## C98 -/

theorem memLoop_total {D ε : Type} (t : BMap D) (es : List D) (n j : Nat) (hn : n ≤ es.length)
    (hj : j < 2 ^ n) : ∃ path, (memLoop t es (hidx n j) : Outcome ε _) = .ok path ∧ path.length = n := by
  induction n generalizing es j with
  | zero =>
    have : j = 0 := by simpa using hj
    subst this
    refine ⟨[], ?_, rfl⟩
    rw [memLoop.eq_def]; simp [isRoot, hidx]
  | succ n ih =>
    have hp := hidx_succ_pos n j
    rcases es with _ | ⟨e, es⟩
    · simp at hn
    obtain ⟨path, h1, h2⟩ := ih es (j / 2) (by simpa using hn) (half_lt hj)
    have hroot : isRoot (hidx (n + 1) j) = false := by simp [isRoot]; omega
    refine ⟨(if isLeftChild (hidx (n + 1) j) then
      ((t.get (hidx (n + 1) j)).getD e, (t.get (hidx (n + 1) (sibPos j))).getD e) else
      ((t.get (hidx (n + 1) (sibPos j))).getD e, (t.get (hidx (n + 1) j)).getD e)) :: path, ?_,
      by rw [List.length_cons, h2]⟩
    · rw [memLoop.eq_def]
      simp only [hroot, Bool.false_eq_true, if_false, sibling_hidx, parent_hidx, Outcome.unwrap_some,
        Outcome.bind_ok]
      rw [h1]
      rfl

theorem genProof_cases {L D : Type} [DecidableEq D] (cfg : Config L D) (t : STree D) (i : Nat) (v : L)
    (n j : Nat) (hi : convertIndex i cfg.height = hidx n j) (hj : j < 2 ^ n) (hn : n ≤ t.emptyHashes.length) :
    genProof cfg t i v = .err () ∨ (n = cfg.height - 1 ∧ ∃ π, genProof cfg t i v = .ok π) := by
  have hm : genMembershipProof cfg t i = .err () ∨
      (n = cfg.height - 1 ∧ ∃ π, genMembershipProof cfg t i = .ok π) := by
    obtain ⟨path, h1, h2⟩ := memLoop_total (ε := Unit) t.tree t.emptyHashes n j hn hj
    unfold genMembershipProof
    rw [hi, h1, Outcome.bind_ok]
    by_cases e : path.length ≠ cfg.height - 1
    · left; rw [if_pos e]
    · right
      rw [if_neg e]
      exact ⟨by rw [← h2]; simpa using e, path, rfl⟩
  unfold genProof
  split
  · split
    · left; rfl
    · exact hm
  · exact hm

theorem proveFrom_overfull (t : STree (ZMod p))
    (he : t.emptyHashes = genEmptyHashes (txTreeCfg cv hs) (txTreeCfg cv hs).height)
    (l : List (Tx Nat G)) (i : Nat) (hi : i ≤ 4096) (hl : 4096 < i + l.length) :
    proveFrom cv hs t i l = .err () := by
  have hlen : 13 ≤ t.emptyHashes.length := by
    have := genEmptyHashes_get (txTreeCfg cv hs) (txTreeCfg cv hs).height 12 (by show 12 ≤ 13; omega)
    rw [he]
    exact (List.getElem?_eq_some_iff.1 this).1
  induction l generalizing i with
  | nil => simp at hl; omega
  | cons tx l ih =>
    simp only [List.length_cons] at hl
    unfold proveFrom
    by_cases e : i = 4096
    · subst e
      rcases genProof_cases (txTreeCfg cv hs) t 4096 tx 13 0 rfl (by decide) (by omega) with h | ⟨h, _⟩
      · rw [h]; rfl
      · exact absurd h (by show ¬ (13 = 12); decide)
    · rcases genProof_cases (txTreeCfg cv hs) t i tx 12 i (convertIndex_eq i _)
        (by show i < 4096; omega) (by omega) with h | ⟨_, π, h⟩
      · rw [h]; rfl
      · rw [h, Outcome.bind_ok, ih (i + 1) (by omega) (by omega)]
        rfl

/-- C98: `prove_transactions` succeeds exactly when the epoch holds at most 4096 transactions; its proofs then
verify at their indices. With more transactions (which `process_transactions` accepts, see C97) it returns an
error for everybody. -/
theorem C98_prove_transactions (s : Agg.State p q G) (B : Book G) (h : Histories b cv hs s B) :
    (s.transactions.length ≤ 4096 → ∃ πs root, proveTransactions cv hs s = .ok πs ∧
      (s.txTree.rootHash : Outcome Unit (ZMod p)) = .ok root ∧ πs.length = s.transactions.length ∧
      ∀ i tx π, s.transactions[i]? = some tx → πs[i]? = some π → ∀ b',
        (verifyWithIndex b' (txTreeCfg cv hs) π root tx i : Outcome Unit Bool) = .ok true) ∧
    (4096 < s.transactions.length → proveTransactions cv hs s = .err ()) := by
  have hf := histories_full h
  constructor
  · intro hc
    have hrep := hf.txTree hc
    refine ⟨_, _, proveFrom_ok cv hs hrep hc _ 0 rfl, by unfold STree.rootHash; rw [hrep.root]; rfl, by simp, ?_⟩
    intro i tx π h1 h2 b'
    have hlt : i < s.transactions.length := (List.getElem?_eq_some_iff.1 h1).1
    have := truePath_verifies (txTreeCfg cv hs) (by show 2 ≤ 13; omega) (by show 13 ≤ 64; omega)
      (listC Tx.default s.transactions) i (by show _ < 2 ^ 12; omega) b'
    rw [List.getElem?_map, List.getElem?_range' (by simpa using hlt)] at h2
    simp only [List.drop_zero, Option.map_some, Option.some.injEq, Nat.zero_add, Nat.one_mul] at h2
    rw [← h2]
    have hg : listC Tx.default s.transactions i = tx := by simp [listC, h1]
    rw [hg] at this
    exact this
  · intro hc
    exact proveFrom_overfull _ hf.txEs _ 0 (by omega) (by simpa using hc)

theorem climb_claims {L D : Type} (cfg : Config L D) (π : List D) (hl : π.length = cfg.height - 1) (v : L)
    (i : Nat) (c' : Nat → L)
    (he : climb cfg.h2 π (cfg.leafHash v) i = merkleRoot cfg.leafHash cfg.h2 cfg.height c') :
    (cfg.leafHash (c' (i % 2 ^ (cfg.height - 1))) = cfg.leafHash v) ∨
    PathCollision cfg.h2 (climbPairs cfg.h2 π (cfg.leafHash v) (i % 2 ^ (cfg.height - 1)))
      (truePath cfg.leafHash cfg.h2 cfg.height c' (i % 2 ^ (cfg.height - 1))) := by
  rw [← climb_mod, hl] at he
  have hj : i % 2 ^ (cfg.height - 1) < 2 ^ (cfg.height - 1) := Nat.mod_lt _ (by positivity)
  have := climb_sound cfg.h2 (fun k => cfg.leafHash (c' k)) π (cfg.leafHash v) 0
    (i % 2 ^ (cfg.height - 1)) (by
      rw [he, hl, Nat.div_eq_of_lt hj, Nat.zero_add]; rfl)
  rw [hl] at this
  rcases this with ⟨e1, _⟩ | e
  · exact .inl e1.symm
  · exact .inr e

/-- C98: once more than 2^31 UTXOs were created, new UTXOs overwrite old positions in the tree. After a
successful call whose last transaction is approved and creates `u` last, the UTXO root cannot commit to the
aggregator's own UTXO set if the `(n - 1) mod 2^31`-th UTXO ever created is another one (`n`: number of UTXOs
created so far), unless an explicit collision is exhibited: two UTXOs with one leaf digest, or two pairs of
nodes with one digest on the path written. -/
theorem C98_utxo_overflow (s s' : Agg.State p q G) (B : Book G) (h : Histories b cv hs s B) (rollup : G)
    (l : List (Pair q G)) (x : Pair q G) (root : ZMod p)
    (hroot : (s.txTree.rootHash : Outcome Unit (ZMod p)) = .ok root)
    (hok : processSignatures b cv hs rollup (l ++ [x]) s = (s', .ok ())) (tx : Tx Nat G)
    (htx : s.transactions[l.length]? = some tx) (hap : Approves cv hs rollup root tx x = true)
    (us : List (UTXO Nat G)) (u : UTXO Nat G) (hcr : tx.creates rollup = us ++ [u])
    (B' : Book G) (hB' : B' = (B.answers b rollup (Approves cv hs rollup root) 0 (l ++ [x])).1)
    (hne : B'.ever[(B'.ever.length - 1) % 2 ^ 31]? ≠ some u)
    (c : Nat → UTXO Nat G) (hc : Represents cv hs s' c) :
    (∃ v, v ≠ u ∧ v = c ((B'.ever.length - 1) % 2 ^ 31) ∧ utxoCRH cv hs.crh v = utxoCRH cv hs.crh u) ∨
    ∃ π, PathCollision hs.h2 (climbPairs hs.h2 π (utxoCRH cv hs.crh u) ((B'.ever.length - 1) % 2 ^ 31))
      (truePath (utxoCRH cv hs.crh) hs.h2 32 c ((B'.ever.length - 1) % 2 ^ 31)) := by
  have hf := histories_full h
  obtain ⟨r, hr⟩ := hf.txRoot
  have : r = root := by
    unfold STree.rootHash at hroot
    rw [hr] at hroot
    exact Outcome.ok.inj hroot
  subst this
  have hall := hf.answers (b := b) (rollup := rollup) hr (l ++ [x]) 0
  have hfirst := hf.answers (b := b) (rollup := rollup) hr l 0
  unfold processSignatures at hok
  rw [hok] at hall
  have hf' : Full cv hs s' B' := by
    rw [hB']
    exact (hall.2 (by rw [← hall.1]; simp)).1
  rw [processFrom_append] at hok
  rcases h1 : processFrom b cv hs rollup 0 l s with ⟨s1, o⟩
  rw [h1] at hfirst
  rcases o with a | e | _
  · cases a
    rw [SM.bind_of_ok h1, Nat.zero_add, processFrom_cons] at hok
    obtain ⟨hf1, htree⟩ := hfirst.2 (by rw [← hfirst.1]; simp)
    simp only at htree
    obtain ⟨_, _, k3⟩ := hf1.answer (b := b) (rollup := rollup) (r := r) (by simp only; rw [htree.1]; exact hr)
      l.length x
    simp only at k3
    rcases h2 : processOne b cv hs rollup l.length x.1 x.2 s1 with ⟨s2, o2⟩
    rcases o2 with a | e | _
    · cases a
      rw [SM.bind_of_ok h2] at hok
      have e : s2 = s' := congrArg Prod.fst hok
      subst e
      rw [h2] at k3
      obtain ⟨π, g1, g2⟩ := k3 rfl tx us u (by rw [htree.2]; exact htx) hap hcr
      simp only at g2
      have hroot' := hc.root
      unfold STree.rootHash at hroot'
      rw [g2] at hroot'
      have hcl := climb_claims (utxoTreeCfg cv hs) π g1 u (s2.ledger.next - 1) c (Outcome.ok.inj hroot')
      rw [hf'.led.next] at hcl
      rcases hcl with hcl | hcl
      · left
        refine ⟨_, ?_, rfl, hcl⟩
        intro e
        have hreal : u.isDummy = false := by
          have : u ∈ tx.creates rollup := by rw [hcr]; simp
          exact (onLedger_iff.1 (List.mem_filter.1 this).2).1
        have hm := (hc.slots u hreal _).2 e
        exact hne (hf'.led.slot u _ hm)
      · right
        exact ⟨π, hcl⟩
    · rw [SM.bind_of_err h2] at hok; cases hok
    · rw [SM.bind_of_panic h2] at hok; cases hok
  · rw [SM.bind_of_err h1] at hok; cases hok
  · rw [SM.bind_of_panic h1] at hok; cases hok

/-! ### Histories beyond the capacities exist -/

theorem submit_deposits (rollup : G) (ds : List (G × Nat)) (hd : ∀ d ∈ ds, d.2 < U64) (B : Book G) :
    B.submit b (ds.map fun d => (rollup, depositTx rollup d.1 d.2)) =
      ({ B with transactions := B.transactions ++ ds.map fun d => depositTx rollup d.1 d.2 }, .ok ()) := by
  induction ds generalizing B with
  | nil => simp [Book.submit]
  | cons d ds ih =>
    simp only [List.map_cons, Book.submit]
    rw [depositTx_valid b rollup d.1 d.2 (hd d (by simp))]
    simp only
    rw [ih (fun d hd' => hd d (by simp [hd']))]
    simp

theorem depositTx_creates (rollup owner : G) (a : Nat) (ho : owner ≠ rollup) :
    (depositTx rollup owner a).creates rollup = [UTXO.new owner a] := by
  simp [Tx.creates, depositTx, UTXO.onLedger, UTXO.new, UTXO.dummy, ho]

theorem depositTx_withdrawn (rollup owner : G) (a : Nat) (ho : owner ≠ rollup) :
    (depositTx rollup owner a).withdrawn rollup = 0 := by
  have h1 : (List.filter (fun u : UTXO Nat G => decide (u.pk = rollup))
      (depositTx rollup owner a).outputs.toList) =
      List.filter (fun u : UTXO Nat G => decide (u.pk = rollup)) [UTXO.dummy, UTXO.dummy, UTXO.dummy] := by
    simp [depositTx, UTXO.new, ho, List.filter_cons]
  unfold Tx.withdrawn
  rw [h1]
  by_cases h0 : (UTXO.dummy : UTXO Nat G).pk = rollup
  · simp only [List.filter_cons, h0, decide_true, if_true]; rfl
  · simp only [List.filter_cons, h0, decide_false]; rfl

theorem answer_deposit (rollup owner : G) (a : Nat) (ho : owner ≠ rollup) (root : ZMod p) (i : Nat)
    (B : Book G) (hi : B.transactions[i]? = some (depositTx rollup owner a)) :
    ∃ B', B.answer b rollup (Approves (q := q) cv hs rollup root) i (rollup, none) = (B', .ok ()) ∧
      B'.ever = B.ever ++ [UTXO.new owner a] ∧ B'.pool = UTXO.new owner a ::ₘ B.pool ∧
      B'.transactions = B.transactions := by
  have hap : Approves (q := q) cv hs rollup root (depositTx rollup owner a) (rollup, none) = true := by
    simp [Approves]
  have hsp : ∀ C : Book G, C.spend rollup (depositTx rollup owner a).inputs.toList = (C, .ok ()) := by
    intro C
    simp [depositTx, Book.spend, UTXO.onLedger, UTXO.new, UTXO.dummy]
  unfold Book.answer
  rw [hi]
  simp only
  rw [if_pos hap, hsp]
  simp only
  rw [Book.execute_ok (by rw [depositTx_withdrawn _ _ _ ho]; simp)]
  refine ⟨_, rfl, ?_, ?_, rfl⟩
  · simp only; rw [depositTx_creates _ _ _ ho]
  · simp only; rw [depositTx_creates _ _ _ ho]
    rw [Multiset.coe_singleton, Multiset.add_comm, Multiset.singleton_add]

theorem answers_deposits (rollup : G) (root : ZMod p) (ds : List (G × Nat)) (hd : ∀ d ∈ ds, d.1 ≠ rollup)
    (B : Book G) (i : Nat) (hi : B.transactions.drop i = ds.map fun d => depositTx rollup d.1 d.2) :
    ∃ B', B.answers b rollup (Approves (q := q) cv hs rollup root) i
        (List.replicate ds.length (rollup, none)) = (B', .ok ()) ∧
      B'.ever = B.ever ++ ds.map (fun d => UTXO.new d.1 d.2) ∧ B'.transactions = B.transactions := by
  induction ds generalizing B i with
  | nil => exact ⟨B, rfl, by simp, rfl⟩
  | cons d ds ih =>
    have hget : B.transactions[i]? = some (depositTx rollup d.1 d.2) := by
      have := congrArg (fun l => l[0]?) hi
      simpa using this
    have hdrop : B.transactions.drop (i + 1) = ds.map fun d => depositTx rollup d.1 d.2 := by
      have := congrArg List.tail hi
      simpa [List.tail_drop] using this
    obtain ⟨B1, k1, k2, _, k3⟩ := answer_deposit (b := b) (cv := cv) (hs := hs) rollup d.1 d.2
      (hd d (by simp)) root i B hget
    obtain ⟨B', k4, k5, k6⟩ := ih (fun d hd' => hd d (by simp [hd'])) B1 (i + 1) (by rw [k3]; exact hdrop)
    refine ⟨B', ?_, ?_, by rw [k6, k3]⟩
    · rw [List.length_cons, List.replicate_succ]
      unfold Book.answers
      rw [k1]
      exact k4
    · rw [k5, k2]; simp

/-- C97, C98: for every list of deposits, however long, the calls are accepted: all transactions are taken,
and every answer creates its UTXO. -/
theorem C98_no_refusal (rollup : G) (ds : List (G × Nat)) (hd : ∀ d ∈ ds, d.1 ≠ rollup ∧ d.2 < 2 ^ 64) :
    ∃ (s1 s2 : Agg.State p q G) (B1 B2 : Book G), Histories b cv hs s1 B1 ∧ Histories b cv hs s2 B2 ∧
      processTransactions b cv hs (ds.map fun d => (rollup, depositTx rollup d.1 d.2)) (Agg.new q cv hs) =
        (s1, .ok ()) ∧
      processSignatures b cv hs rollup (List.replicate ds.length (rollup, none)) s1 = (s2, .ok ()) ∧
      s1.transactions = (ds.map fun d => depositTx rollup d.1 d.2) ∧
      s2.transactions = (ds.map fun d => depositTx rollup d.1 d.2) ∧ B1.ever = [] ∧
      B2.ever = ds.map (fun d => UTXO.new d.1 d.2) := by
  have h0 : Histories b cv hs (Agg.new q cv hs) (Book.empty : Book G) := .new
  have hsub := submit_deposits (b := b) rollup ds (fun d hd' => (hd d hd').2) (Book.empty : Book G)
  have ho1 := (C97_refines _ _ h0).2.1 (ds.map fun d => (rollup, depositTx rollup d.1 d.2))
  rw [hsub] at ho1
  have h1 := h0.transactions (ds.map fun d => (rollup, depositTx rollup d.1 d.2)) (by rw [ho1]; simp)
  rw [hsub] at h1
  rcases hp : processTransactions b cv hs (ds.map fun d => (rollup, depositTx rollup d.1 d.2))
    (Agg.new q cv hs) with ⟨s1, o1⟩
  rw [hp] at h1 ho1
  simp only at h1 ho1
  subst ho1
  have hr1 := C97_refines _ _ h1
  obtain ⟨root, hroot, hout⟩ := hr1.2.2
  obtain ⟨B2, k1, k2, k3⟩ := answers_deposits (b := b) (cv := cv) (hs := hs) rollup root ds
    (fun d hd' => (hd d hd').1)
    { (Book.empty : Book G) with
      transactions := (Book.empty : Book G).transactions ++ ds.map fun d => depositTx rollup d.1 d.2 } 0
    (by simp [Book.empty])
  have ho2 := hout rollup (List.replicate ds.length (rollup, none))
  rw [k1] at ho2
  have h2 := h1.signatures rollup (List.replicate ds.length (rollup, none)) root hroot (by rw [ho2]; simp)
  rw [k1] at h2
  rcases hq : processSignatures b cv hs rollup (List.replicate ds.length (rollup, none)) s1 with ⟨s2, o2⟩
  rw [hq] at h2 ho2
  simp only at h2 ho2
  subst ho2
  refine ⟨s1, s2, _, B2, h1, h2, hp, hq, ?_, ?_, rfl, by rw [k2]; simp [Book.empty]⟩
  · rw [hr1.1.transactions]; simp [Book.empty]
  · rw [(C97_refines _ _ h2).1.transactions, k3]; simp [Book.empty]

/-- C98 counterexample: 4097 valid transactions are accepted with `Ok`, and afterwards nobody can get a proof
of inclusion, not even of the first transaction. -/
theorem C98_overfull_epoch (rollup owner : G) (ho : owner ≠ rollup) :
    ∃ s1 : Agg.State p q G,
      processTransactions b cv hs (List.replicate 4097 (rollup, depositTx rollup owner 1)) (Agg.new q cv hs) =
        (s1, .ok ()) ∧ s1.transactions.length = 4097 ∧ proveTransactions cv hs s1 = .err () := by
  obtain ⟨s1, _, B1, _, h1, _, k1, _, k2, _⟩ := C98_no_refusal (b := b) (cv := cv) (hs := hs) rollup
    (List.replicate 4097 (owner, 1)) (fun d hd => by
      obtain ⟨_, rfl⟩ := List.mem_replicate.1 hd
      exact ⟨ho, by norm_num⟩)
  rw [List.map_replicate] at k1 k2
  have hl : s1.transactions.length = 4097 := by rw [k2, List.length_replicate]
  exact ⟨s1, k1, hl, (C98_prove_transactions s1 B1 h1).2 (by omega)⟩

/-- C98 counterexample: after 2^31 + 1 accepted deposits (the first of amount 1, the others of amount 2) the
UTXO root is not the root of the aggregator's UTXO set, unless the run exhibits a collision. -/
theorem C98_overfull_utxo_tree (rollup owner : G) (ho : owner ≠ rollup) :
    ∃ (s' : Agg.State p q G) (B' : Book G), Histories b cv hs s' B' ∧ B'.ever.length = 2 ^ 31 + 1 ∧
      ∀ c, Represents cv hs s' c →
        (∃ v, v ≠ UTXO.new owner 2 ∧ v = c 0 ∧
          utxoCRH cv hs.crh v = utxoCRH cv hs.crh (UTXO.new owner 2)) ∨
        ∃ π, PathCollision hs.h2 (climbPairs hs.h2 π (utxoCRH cv hs.crh (UTXO.new owner 2)) 0)
          (truePath (utxoCRH cv hs.crh) hs.h2 32 c 0) := by
  generalize hN : (2 : Nat) ^ 31 = N
  have hN0 : 0 < N := by rw [← hN]; positivity
  obtain ⟨n, rfl⟩ : ∃ n, N = n + 1 := ⟨N - 1, by omega⟩
  have hds : ∀ d ∈ (owner, 1) :: List.replicate (n + 1) (owner, 2), d.1 ≠ rollup ∧ d.2 < 2 ^ 64 := by
    intro d hd
    rcases List.mem_cons.1 hd with rfl | hd
    · exact ⟨ho, by norm_num⟩
    · obtain ⟨_, rfl⟩ := List.mem_replicate.1 hd
      exact ⟨ho, by norm_num⟩
  obtain ⟨s1, s2, B1, B2, h1, h2, k1, k2, k3, k4, k5, k6⟩ :=
    C98_no_refusal (b := b) (cv := cv) (hs := hs) rollup _ hds
  have hever : B2.ever = UTXO.new owner 1 :: List.replicate (n + 1) (UTXO.new owner 2) := by
    rw [k6]; simp
  have hlen : B2.ever.length = n + 1 + 1 := by rw [hever]; simp
  obtain ⟨root, hroot, hout⟩ := (C97_refines _ _ h1).2.2
  have hf1 := histories_full h1
  rw [List.length_cons, List.length_replicate, List.replicate_succ' (n := n + 1)] at k2
  -- the book of the whole call
  have hB : (B1.answers b rollup (Approves cv hs rollup root) 0
      (List.replicate (n + 1) (rollup, none) ++ [(rollup, none)])).1.ever = B2.ever := by
    have hf1 := histories_full h1
    obtain ⟨B', g1, g2, _⟩ := answers_deposits (b := b) (cv := cv) (hs := hs) rollup root
      ((owner, 1) :: List.replicate (n + 1) (owner, 2)) (fun d hd => (hds d hd).1) B1 0
      (by rw [← hf1.transactions, k3]; rfl)
    rw [List.length_cons, List.length_replicate, List.replicate_succ' (n := n + 1)] at g1
    rw [g1]
    simp only
    rw [g2, k5, k6]; rfl
  refine ⟨s2, B2, h2, hlen, fun c hc => ?_⟩
  have htx : s1.transactions[(List.replicate (n + 1) ((rollup, none) : Pair q G)).length]? =
      some (depositTx rollup owner 2) := by
    rw [k3, List.length_replicate, List.map_cons, List.getElem?_cons_succ, List.map_replicate,
      List.getElem?_replicate]
    simp
  have key := C98_utxo_overflow s1 s2 B1 h1 rollup (List.replicate (n + 1) (rollup, none)) (rollup, none) root
    hroot k2 (depositTx rollup owner 2) htx (by simp [Approves]) [] (UTXO.new owner 2)
    (by rw [depositTx_creates _ _ _ ho]; rfl) _ rfl
  rw [hB, hlen, hN, Nat.add_sub_cancel, Nat.mod_self] at key
  refine key ?_ c hc
  rw [hever]
  simp [UTXO.new]

end PF.Props
