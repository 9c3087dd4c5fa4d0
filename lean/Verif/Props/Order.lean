import Verif.Spec.Order
import Verif.Props.AggregatorExact

/-!
# Properties C112 and C113: which transactions execute, in which order, and at whose choice
-/
set_option linter.unusedSectionVars false

namespace PF.Props
open PF PF.MT PF.Agg PF.Spec PF.AggC PF.Contract
variable {p q : Nat} {G : Type} [AddCommGroup G] [Module (ZMod q) G] [DecidableEq G]

/-! ## Lists -/

theorem spentUTXOs_append (rollup : G) (a c : List (Tx Nat G)) :
    spentUTXOs rollup (a ++ c) = spentUTXOs rollup a ++ spentUTXOs rollup c := by simp [spentUTXOs]

theorem createdUTXOs_append (rollup : G) (a c : List (Tx Nat G)) :
    createdUTXOs rollup (a ++ c) = createdUTXOs rollup a ++ createdUTXOs rollup c := by simp [createdUTXOs]

theorem spentUTXOs_cons (rollup : G) (t : Tx Nat G) (c : List (Tx Nat G)) :
    spentUTXOs rollup (t :: c) = t.spends rollup ++ spentUTXOs rollup c := by simp [spentUTXOs]

theorem createdUTXOs_cons (rollup : G) (t : Tx Nat G) (c : List (Tx Nat G)) :
    createdUTXOs rollup (t :: c) = t.creates rollup ++ createdUTXOs rollup c := by simp [createdUTXOs]

theorem spentBy_eq (rollup : G) (as : List (Tx Nat G × G)) :
    spentBy rollup as = spentUTXOs rollup (as.map (·.1)) := by simp [spentBy, spentUTXOs, List.flatMap_map]

theorem createdBy_eq (rollup : G) (as : List (Tx Nat G × G)) :
    createdBy rollup as = createdUTXOs rollup (as.map (·.1)) := by
  simp [createdBy, createdUTXOs, List.flatMap_map]

theorem affordable_nil (rollup : G) (f : UTXO Nat G → Nat) : Affordable rollup f [] := by
  intro done a rest h; simp at h

theorem affordable_snoc {rollup : G} {f : UTXO Nat G → Nat} {ts : List (Tx Nat G)} {t : Tx Nat G} :
    Affordable rollup f (ts ++ [t]) ↔ Affordable rollup f ts ∧
      ∀ u, (spentUTXOs rollup (ts ++ [t])).count u ≤ f u + (createdUTXOs rollup ts).count u := by
  constructor
  · intro h
    refine ⟨fun done x rest e u => ?_, h ts t [] rfl⟩
    exact h done x (rest ++ [t]) (by rw [e]; simp) u
  · rintro ⟨h1, h2⟩ done x rest e u
    rcases List.eq_nil_or_concat rest with rfl | ⟨r', y, rfl⟩
    · have e' : ts ++ [t] = done ++ [x] := e
      obtain ⟨rfl, e2⟩ := List.append_inj' e' rfl
      obtain rfl : t = x := by simpa using e2
      exact h2 u
    · have e' : ts ++ [t] = (done ++ x :: r') ++ [y] := by rw [e]; simp
      obtain ⟨e1, _⟩ := List.append_inj' e' rfl
      exact h1 done x r' e1 u

theorem affordable_cons {rollup : G} {f : UTXO Nat G → Nat} {ts : List (Tx Nat G)} {t : Tx Nat G} :
    Affordable rollup f (t :: ts) ↔ (∀ u, (t.spends rollup).count u ≤ f u) ∧
      Affordable rollup (fun u => f u - (t.spends rollup).count u + (t.creates rollup).count u) ts := by
  constructor
  · intro h
    have h0 : ∀ u, (t.spends rollup).count u ≤ f u := fun u => by
      have := h [] t ts rfl u
      simpa [spentUTXOs, createdUTXOs] using this
    refine ⟨h0, fun done x rest e u => ?_⟩
    have := h (t :: done) x rest (by rw [e]; simp) u
    rw [List.cons_append, spentUTXOs_cons, createdUTXOs_cons, List.count_append, List.count_append] at this
    have := h0 u
    dsimp only
    omega
  · rintro ⟨h0, h1⟩ done x rest e u
    rcases done with _ | ⟨y, done⟩
    · obtain ⟨rfl, _⟩ : t = x ∧ ts = rest := by simpa using e
      simpa [spentUTXOs, createdUTXOs] using h0 u
    · obtain ⟨rfl, e2⟩ : t = y ∧ ts = done ++ x :: rest := by simpa using e
      have h2 := h1 done x rest e2 u
      rw [List.cons_append, spentUTXOs_cons, createdUTXOs_cons, List.count_append, List.count_append]
      have := h0 u
      dsimp only at h2
      omega

theorem affordable_congr {rollup : G} {f g : UTXO Nat G → Nat} (h : ∀ u, f u = g u) {ts : List (Tx Nat G)} :
    Affordable rollup f ts ↔ Affordable rollup g ts := by rw [funext h]

/-- Two neighbours can be exchanged if the second one spends nothing the first one creates. -/
theorem affordable_swap {rollup : G} {t t' : Tx Nat G} (hi : ∀ u ∈ t'.spends rollup, u ∉ t.creates rollup)
    (pre post : List (Tx Nat G)) : ∀ f : UTXO Nat G → Nat,
    Affordable rollup f (pre ++ t :: t' :: post) → Affordable rollup f (pre ++ t' :: t :: post) := by
  induction pre with
  | nil =>
    intro f h
    simp only [List.nil_append, affordable_cons] at h ⊢
    obtain ⟨h1, h2, h3⟩ := h
    have key : ∀ u, (t'.spends rollup).count u = 0 ∨ (t.creates rollup).count u = 0 := fun u => by
      by_cases hu : u ∈ t'.spends rollup
      · exact .inr (List.count_eq_zero.2 (hi u hu))
      · exact .inl (List.count_eq_zero.2 hu)
    refine ⟨fun u => ?_, fun u => ?_, (affordable_congr fun u => ?_).1 h3⟩
    all_goals
      have a1 := h1 u
      have a2 := h2 u
      have a3 := key u
      omega
  | cons y pre ih =>
    intro f h
    simp only [List.cons_append, affordable_cons] at h ⊢
    exact ⟨h.1, ih _ h.2⟩

/-- Independent transactions are affordable exactly if all inputs together are at hand. -/
theorem affordable_independent {rollup : G} {f : UTXO Nat G → Nat} {ts : List (Tx Nat G)}
    (hi : Independent rollup ts) : Affordable rollup f ts ↔ ∀ u, (spentUTXOs rollup ts).count u ≤ f u := by
  constructor
  · intro h u
    rcases List.eq_nil_or_concat ts with rfl | ⟨ts', t, rfl⟩
    · simp [spentUTXOs]
    · rw [List.concat_eq_append] at *
      by_cases hu : u ∈ spentUTXOs rollup (ts' ++ [t])
      · have h1 := h ts' t [] rfl u
        have h2 : (createdUTXOs rollup ts').count u = 0 := List.count_eq_zero.2 fun hc =>
          hi u hu (by rw [createdUTXOs_append]; exact List.mem_append_left _ hc)
        omega
      · have : (spentUTXOs rollup (ts' ++ [t])).count u = 0 := List.count_eq_zero.2 hu
        omega
  · intro h done t rest e u
    have h1 := h u
    have e2 : ts = (done ++ [t]) ++ rest := by rw [e]; simp
    rw [e2, spentUTXOs_append, List.count_append] at h1
    omega

theorem perm_spent {rollup : G} {ts ts' : List (Tx Nat G)} (h : ts.Perm ts') (u : UTXO Nat G) :
    (spentUTXOs rollup ts).count u = (spentUTXOs rollup ts').count u :=
  (h.flatMap_right _).count_eq u

theorem perm_created {rollup : G} {ts ts' : List (Tx Nat G)} (h : ts.Perm ts') (u : UTXO Nat G) :
    (createdUTXOs rollup ts).count u = (createdUTXOs rollup ts').count u :=
  (h.flatMap_right _).count_eq u

theorem spends_dummy {rollup : G} {t : Tx Nat G} {u : UTXO Nat G} (hu : ¬ u.isDummy = false) :
    (t.spends rollup).count u = 0 := by
  rw [List.count_eq_zero]
  intro h
  have := (List.mem_filter.1 h).2
  unfold UTXO.onLedger at this
  simp at this
  exact hu this.1

theorem spent_dummy {rollup : G} {ts : List (Tx Nat G)} {u : UTXO Nat G} (hu : ¬ u.isDummy = false) :
    (spentUTXOs rollup ts).count u = 0 := by
  rw [List.count_eq_zero]
  intro h
  obtain ⟨a, _, h2⟩ := List.mem_flatMap.1 h
  exact (List.count_pos_iff.2 h2).ne' (spends_dummy hu)

theorem created_dummy {rollup : G} {ts : List (Tx Nat G)} {u : UTXO Nat G} (hu : ¬ u.isDummy = false) :
    (createdUTXOs rollup ts).count u = 0 := by
  rw [List.count_eq_zero]
  intro h
  obtain ⟨a, _, h2⟩ := List.mem_flatMap.1 h
  have := (List.mem_filter.1 h2).2
  unfold UTXO.onLedger at this
  simp at this
  exact hu this.1

theorem approvedTxs_snoc (cv : Curve p q G) (hs : Hashes p) (rollup : G) (r : ZMod p) (txs : List (Tx Nat G))
    (l : List (Pair q G)) (x : Pair q G) (tx : Tx Nat G) (ht : txs[l.length]? = some tx) :
    approvedTxs cv hs rollup r txs (l ++ [x]) = approvedTxs cv hs rollup r txs l ++
      (if Approves cv hs rollup r tx x = true then [(tx, x.1)] else []) := by
  have hz : txs.zip (l ++ [x]) = txs.zip l ++ [(tx, x)] := by
    have hlen : l.length < txs.length := by
      by_contra h
      rw [List.getElem?_eq_none (by omega)] at ht; simp at ht
    have e : txs = txs.take l.length ++ tx :: txs.drop (l.length + 1) := by
      conv_lhs => rw [← List.take_append_drop l.length txs]
      rw [drop_eq_cons ht]
    have hl : (txs.take l.length).length = l.length := by simp; omega
    have e1 : txs.zip (l ++ [x]) = (txs.take l.length).zip l ++ [(tx, x)] := by
      conv_lhs => rw [e]
      rw [List.zip_append hl]; simp
    have e2 : txs.zip l = (txs.take l.length).zip l := by
      conv_lhs => rw [e, ← List.append_nil l]
      rw [List.zip_append (by simpa using hl)]; simp
    rw [e1, e2]
  unfold approvedTxs
  rw [hz, List.filter_append, List.map_append]
  congr 1
  by_cases h : Approves cv hs rollup r tx x = true
  · simp [h]
  · simp [h]

/-! ## C112 -/

/-- **C112** (exactly when an epoch executes): in every reachable state, `process_signatures` succeeds exactly if
there are no more answers than transactions, every approved transaction finds its inputs among the UTXOs at hand
and those created by the approved ones before it, and (debug builds only) nothing paid to the contract overflows
64 bits. Transactions that are not approved do not matter. -/
theorem C112_executes_iff (b : Build) (cv : Curve p q G) (hs : Hashes p) (s : Agg.State p q G)
    (h : Reach b cv hs s) (rollup : G) (l : List (Pair q G)) (hf : (Op.signatures rollup l).Fits s) :
    (processSignatures b cv hs rollup l s).2 = .ok () ↔
      l.length ≤ s.transactions.length ∧
      Affordable rollup (live s)
        ((approvedTxs cv hs rollup (txRoot cv hs s) s.transactions l).map (·.1)) ∧
      (b = .debug → ∀ a ∈ approvedTxs cv hs rollup (txRoot cv hs s) s.transactions l,
        a.1.withdrawn rollup < 2 ^ 64) := by
  induction l using List.reverseRecOn with
  | nil =>
    rw [approvedTxs_nil]
    simp [processSignatures, processFrom, SM.pure, affordable_nil]
  | append_singleton l x ih =>
    have ih := ih (fits_prefix hf)
    by_cases hok : (processSignatures b cv hs rollup l s).2 = .ok ()
    · obtain ⟨s1, h1⟩ : ∃ s1, processSignatures b cv hs rollup l s = (s1, .ok ()) := ⟨_, Prod.ext rfl hok⟩
      obtain ⟨i1, i2, i3⟩ := ih.1 hok
      obtain ⟨o1, o2⟩ := C43_outcome b cv hs s s1 h rollup l x hf h1
      by_cases hlen : s.transactions.length ≤ l.length
      · rw [o1 hlen]
        constructor
        · intro e; simp at e
        · rintro ⟨e, _⟩; simp at e; omega
      · obtain ⟨tx, ht⟩ : ∃ tx, s.transactions[l.length]? = some tx :=
          ⟨_, List.getElem?_eq_getElem (by omega)⟩
        rw [(o2 tx ht).1, approvedTxs_snoc cv hs rollup _ _ l x tx ht]
        have hl' : (l ++ [x]).length ≤ s.transactions.length := by simp; omega
        by_cases ha : Approves cv hs rollup (txRoot cv hs s) tx x = true
        · rw [if_pos ha, List.map_append, List.map_singleton, affordable_snoc]
          have hcov : Covers rollup s1 tx.inputs.toList ↔
              ∀ u, (spentUTXOs rollup ((approvedTxs cv hs rollup (txRoot cv hs s) s.transactions l).map (·.1) ++
                [tx])).count u ≤ live s u + (createdUTXOs rollup
                  ((approvedTxs cv hs rollup (txRoot cv hs s) s.transactions l).map (·.1))).count u := by
            refine forall_congr' fun u => ?_
            rw [spentUTXOs_append, List.count_append, show spentUTXOs rollup [tx] = tx.spends rollup by
              simp [spentUTXOs]]
            change (tx.spends rollup).count u ≤ _ ↔ _
            by_cases hu : u.isDummy = false
            · have := C39_accounting b cv hs s s1 h rollup l (fits_prefix hf) h1 u hu
              rw [spentBy_eq, createdBy_eq] at this
              omega
            · rw [spends_dummy hu, spent_dummy hu]; simp
          constructor
          · intro hh
            obtain ⟨c1, c2⟩ := hh ha
            refine ⟨hl', ⟨i2, hcov.1 c1⟩, fun hb a hm => ?_⟩
            rcases List.mem_append.1 hm with hm | hm
            · exact i3 hb a hm
            · obtain rfl : a = (tx, x.1) := by simpa using hm
              exact c2 hb
          · rintro ⟨_, ⟨_, k2⟩, k3⟩ _
            exact ⟨hcov.2 k2, fun hb => k3 hb (tx, x.1) (by simp)⟩
        · rw [if_neg ha, List.append_nil]
          exact ⟨fun _ => ⟨hl', i2, i3⟩, fun _ h' => absurd h' ha⟩
    · have hno : (processSignatures b cv hs rollup (l ++ [x]) s).2 ≠ .ok () := by
        unfold processSignatures at hok ⊢
        rw [processFrom_append]
        unfold SM.bind
        rcases hp : processFrom b cv hs rollup 0 l s with ⟨s1, o⟩
        rw [hp] at hok
        rcases o with u | e | _
        · exact absurd rfl hok
        · simp
        · simp
      refine ⟨fun e => absurd e hno, fun ⟨k1, k2, k3⟩ => absurd (ih.2 ?_) hok⟩
      have k1' : l.length + 1 ≤ s.transactions.length := by simpa using k1
      obtain ⟨tx, ht⟩ : ∃ tx, s.transactions[l.length]? = some tx :=
        ⟨_, List.getElem?_eq_getElem (by omega)⟩
      rw [approvedTxs_snoc cv hs rollup _ _ l x tx ht] at k2 k3
      refine ⟨by omega, ?_, fun hb a hm => k3 hb a (List.mem_append_left _ hm)⟩
      by_cases ha : Approves cv hs rollup (txRoot cv hs s) tx x = true
      · rw [if_pos ha, List.map_append, List.map_singleton] at k2; exact (affordable_snoc.1 k2).1
      · rw [if_neg ha, List.append_nil] at k2; exact k2

theorem live_of_dummy {b : Build} {cv : Curve p q G} {hs : Hashes p} {s : Agg.State p q G} (h : Reach b cv hs s)
    {u : UTXO Nat G} (hu : ¬ u.isDummy = false) : live s u = 0 := by
  obtain ⟨_, _, _, _, k⟩ := C38_utxo_tree_mirrors b cv hs s h
  unfold live
  rw [k u (by simpa using hu)]; rfl

theorem executed_live {b : Build} {cv : Curve p q G} {hs : Hashes p} {rollup : G} {s : Agg.State p q G}
    {ts : List (Tx Nat G)} (h : Spec.Executed b cv hs rollup s ts) :
    Reach b cv hs s ∧ ∀ u, live s u + (spentUTXOs rollup ts).count u = (createdUTXOs rollup ts).count u := by
  induction h with
  | new =>
    refine ⟨Reach.new, fun u => ?_⟩
    simp [spentUTXOs, createdUTXOs, live, positions, Agg.new, HMap.get]
  | newEpoch h ih => exact ⟨reach_reset ih.1, ih.2⟩
  | transactions l h hf hr ih =>
    refine ⟨reach_transactions ih.1 l hf (Prod.ext rfl rfl) hr, fun u => ?_⟩
    have := ih.2 u
    obtain ⟨t, πs, e⟩ := C44_longest_valid_prefix b cv hs _ ih.1 l hf
    rw [e]; exact this
  | @signatures s s' ts l h hf hr ih =>
    have hr' := reach_signatures ih.1 l hf hr (by simp)
    refine ⟨hr', fun u => ?_⟩
    have h0 := ih.2 u
    rw [spentUTXOs_append, createdUTXOs_append, List.count_append, List.count_append]
    by_cases hu : u.isDummy = false
    · have := C39_accounting b cv hs s s' ih.1 rollup l hf hr u hu
      rw [spentBy_eq, createdBy_eq] at this
      omega
    · rw [live_of_dummy hr' hu, spent_dummy hu, spent_dummy hu, created_dummy hu, created_dummy hu]

/-- **C112** (the order does not show): two aggregators, each after any number of epochs and of calls without
failed `process_signatures` calls, that executed the same transactions in any order, split in any way over
epochs, hold the same UTXOs with the same multiplicities (also if they use different builds or hash
functions). -/
theorem C112_same_contents (b b' : Build) (cv : Curve p q G) (hs hs' : Hashes p) (rollup : G)
    (s s' : Agg.State p q G) (ts ts' : List (Tx Nat G)) (h : Spec.Executed b cv hs rollup s ts)
    (h' : Spec.Executed b' cv hs' rollup s' ts') (hp : ts.Perm ts') (u : UTXO Nat G) : live s u = live s' u := by
  have h1 := (executed_live h).2 u
  have h2 := (executed_live h').2 u
  rw [perm_spent hp, perm_created hp] at h1
  omega

/-- **C112** (submission): whether all transactions of a list are accepted does not depend on their order. -/
theorem C112_submission_order (b : Build) (cv : Curve p q G) (hs : Hashes p) (s : Agg.State p q G)
    (h : Reach b cv hs s) (l l' : List (G × Tx Nat G)) (hp : l.Perm l')
    (hf : (Op.transactions l : Op q G).Fits s) :
    (processTransactions b cv hs l s).2 = .ok () ↔ (processTransactions b cv hs l' s).2 = .ok () := by
  have key : ∀ l : List (G × Tx Nat G), s.transactions.length + l.length ≤ TX_CAP →
      ((processTransactions b cv hs l s).2 = .ok () ↔ ∀ x ∈ l, x.2.isValid b (some x.1) = .ok ()) := by
    intro l hl
    obtain ⟨c, sc, hi⟩ := reach_inv h
    obtain ⟨done, rest, t, prs, e1, e2, _, o, e4, e5⟩ := processTransactions_spec (b := b) l _ hi hl
    rw [e4]
    rcases e5 with ⟨rfl, rfl⟩ | ⟨x, rest', rfl, hx, rfl⟩
    · refine ⟨fun _ x hx => e2 x (by simpa [e1] using hx), fun _ => rfl⟩
    · refine ⟨fun hh => absurd hh hx, fun hh => absurd (hh x (by rw [e1]; simp)) hx⟩
  have hf' : s.transactions.length + l'.length ≤ TX_CAP := by rw [← hp.length_eq]; exact hf
  rw [key l hf, key l' hf']
  exact ⟨fun hh x hx => hh x (hp.mem_iff.2 hx), fun hh x hx => hh x (hp.mem_iff.1 hx)⟩

/-- **C112** (independent transactions): if no approved transaction spends a UTXO equal to one created in the
epoch, the approved transactions execute in one order exactly if they execute in any other, and the result is
the same. `s` and `s'` hold the same UTXOs and list the transactions in their orders. -/
theorem C112_any_order (b : Build) (cv : Curve p q G) (hs hs' : Hashes p) (rollup : G) (s s' : Agg.State p q G)
    (h : Reach b cv hs s) (h' : Reach b cv hs' s') (hlive : ∀ u, live s u = live s' u)
    (l l' : List (Pair q G)) (hf : (Op.signatures rollup l).Fits s) (hf' : (Op.signatures rollup l').Fits s')
    (hl : l.length ≤ s.transactions.length) (hl' : l'.length ≤ s'.transactions.length)
    (hp : ((approvedTxs cv hs rollup (txRoot cv hs s) s.transactions l).map (·.1)).Perm
      ((approvedTxs cv hs' rollup (txRoot cv hs' s') s'.transactions l').map (·.1)))
    (hi : Independent rollup ((approvedTxs cv hs rollup (txRoot cv hs s) s.transactions l).map (·.1))) :
    ((processSignatures b cv hs rollup l s).2 = .ok () ↔ (processSignatures b cv hs' rollup l' s').2 = .ok ()) ∧
    ((processSignatures b cv hs rollup l s).2 = .ok () →
      ∀ u, live (processSignatures b cv hs rollup l s).1 u = live (processSignatures b cv hs' rollup l' s').1 u) := by
  have hi' : Independent rollup ((approvedTxs cv hs' rollup (txRoot cv hs' s') s'.transactions l').map (·.1)) := by
    intro u h1 h2
    refine hi u ?_ ?_
    · rw [← List.count_pos_iff, perm_spent hp, List.count_pos_iff]; exact h1
    · rw [← List.count_pos_iff, perm_created hp, List.count_pos_iff]; exact h2
  have hiff : (processSignatures b cv hs rollup l s).2 = .ok () ↔
      (processSignatures b cv hs' rollup l' s').2 = .ok () := by
    rw [C112_executes_iff b cv hs s h rollup l hf, C112_executes_iff b cv hs' s' h' rollup l' hf',
      affordable_independent hi, affordable_independent hi']
    have hw : (∀ a ∈ approvedTxs cv hs rollup (txRoot cv hs s) s.transactions l, a.1.withdrawn rollup < 2 ^ 64) ↔
        ∀ a ∈ approvedTxs cv hs' rollup (txRoot cv hs' s') s'.transactions l', a.1.withdrawn rollup < 2 ^ 64 := by
      have e : ∀ as : List (Tx Nat G × G), (∀ a ∈ as, a.1.withdrawn rollup < 2 ^ 64) ↔
          ∀ t ∈ as.map (·.1), t.withdrawn rollup < 2 ^ 64 := fun as => by simp
      rw [e, e]
      exact ⟨fun hh x hx => hh x (hp.mem_iff.2 hx), fun hh x hx => hh x (hp.mem_iff.1 hx)⟩
    rw [hw]
    have hs : (∀ u, (spentUTXOs rollup ((approvedTxs cv hs rollup (txRoot cv hs s) s.transactions l).map
        (·.1))).count u ≤ live s u) ↔ ∀ u, (spentUTXOs rollup ((approvedTxs cv hs' rollup (txRoot cv hs' s')
        s'.transactions l').map (·.1))).count u ≤ live s' u :=
      forall_congr' fun u => by rw [perm_spent hp, hlive u]
    rw [hs]
    exact ⟨fun k => ⟨hl', k.2⟩, fun k => ⟨hl, k.2⟩⟩
  refine ⟨hiff, fun hok u => ?_⟩
  obtain ⟨s1, r1⟩ : ∃ s1, processSignatures b cv hs rollup l s = (s1, .ok ()) := ⟨_, Prod.ext rfl hok⟩
  obtain ⟨s2, r2⟩ : ∃ s2, processSignatures b cv hs' rollup l' s' = (s2, .ok ()) :=
    ⟨_, Prod.ext rfl (hiff.1 hok)⟩
  rw [r1, r2]
  show live s1 u = live s2 u
  by_cases hu : u.isDummy = false
  · have a1 := C39_accounting b cv hs s _ h rollup l hf r1 u hu
    have a2 := C39_accounting b cv hs' s' _ h' rollup l' hf' r2 u hu
    rw [spentBy_eq, createdBy_eq] at a1 a2
    rw [perm_spent hp, perm_created hp, hlive u] at a1
    omega
  · rw [live_of_dummy (reach_signatures h l hf r1 (by simp)) hu,
      live_of_dummy (reach_signatures h' l' hf' r2 (by simp)) hu]

/-- **C112** (neighbours): if a list of approved transactions executes, so does the list with two neighbours
exchanged, provided the second one spends nothing the first one creates. -/
theorem C112_swap (b : Build) (cv : Curve p q G) (hs hs' : Hashes p) (rollup : G) (s s' : Agg.State p q G)
    (h : Reach b cv hs s) (h' : Reach b cv hs' s') (hlive : ∀ u, live s u = live s' u)
    (l l' : List (Pair q G)) (hf : (Op.signatures rollup l).Fits s) (hf' : (Op.signatures rollup l').Fits s')
    (hl' : l'.length ≤ s'.transactions.length) (pre post : List (Tx Nat G)) (t t' : Tx Nat G)
    (ha : (approvedTxs cv hs rollup (txRoot cv hs s) s.transactions l).map (·.1) = pre ++ t :: t' :: post)
    (ha' : (approvedTxs cv hs' rollup (txRoot cv hs' s') s'.transactions l').map (·.1) = pre ++ t' :: t :: post)
    (hi : ∀ u ∈ t'.spends rollup, u ∉ t.creates rollup)
    (hok : (processSignatures b cv hs rollup l s).2 = .ok ()) :
    (processSignatures b cv hs' rollup l' s').2 = .ok () := by
  obtain ⟨_, k2, k3⟩ := (C112_executes_iff b cv hs s h rollup l hf).1 hok
  refine (C112_executes_iff b cv hs' s' h' rollup l' hf').2 ⟨hl', ?_, fun hb a hm => ?_⟩
  · rw [ha', ← affordable_congr hlive]
    rw [ha] at k2
    exact affordable_swap hi pre post _ k2
  · have hm' : a.1 ∈ pre ++ t' :: t :: post := ha' ▸ List.mem_map_of_mem hm
    have hm2 : a.1 ∈ pre ++ t :: t' :: post := by simp at hm' ⊢; tauto
    rw [← ha] at hm2
    obtain ⟨a2, hm3, e⟩ := List.mem_map.1 hm2
    rw [← e]; exact k3 hb a2 hm3

end PF.Props
