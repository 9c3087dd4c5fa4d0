import Verif.Props.Order

/-!
# Property C113: executing a signed transaction is the aggregator's choice
-/
set_option linter.unusedSectionVars false

namespace PF.Props
open PF PF.MT PF.Agg PF.Spec PF.AggC PF.Contract
variable {p q : Nat} {G : Type} [AddCommGroup G] [Module (ZMod q) G] [DecidableEq G]

theorem withheld_length {l l' : List (Pair q G)} (h : Withholds l l') : l'.length = l.length :=
  (List.Forall₂.length_eq h).symm

theorem withheld_get {l l' : List (Pair q G)} (h : Withholds l l') :
    ∀ (k : Nat) (y : Pair q G), l'[k]? = some y → ∃ x, l[k]? = some x ∧ (y = x ∨ y = (x.1, none)) := by
  induction h with
  | nil => intro k y hy; simp at hy
  | @cons a c l l' hr _ ih =>
    intro k y hy
    rcases k with _ | k
    · obtain rfl : c = y := by simpa using hy
      exact ⟨a, rfl, hr⟩
    · exact ih k y (by simpa using hy)

/-- What is approved with some signatures left out is approved with all of them. -/
theorem withheld_approves {cv : Curve p q G} {hs : Hashes p} {rollup : G} {f : ZMod p} {tx : Tx Nat G}
    {x y : Pair q G} (h : y = x ∨ y = (x.1, none))
    (hz : y.2 = none → Schnorr.verify cv hs.crh y.1 (txEnc cv tx ++ [f]) (0, 0) = false)
    (ha : Approves cv hs rollup f tx y = true) : Approves cv hs rollup f tx x = true ∧ y.1 = x.1 := by
  rcases h with rfl | rfl
  · exact ⟨ha, rfl⟩
  · refine ⟨?_, rfl⟩
    have hz := hz rfl
    unfold Approves at ha ⊢
    simp only [Option.getD_none] at ha
    dsimp only at hz
    rw [hz] at ha
    simp only [Bool.false_or] at ha
    rw [ha]; simp

theorem withheld_sublist {cv : Curve p q G} {hs : Hashes p} {rollup : G} {f : ZMod p} {l l' : List (Pair q G)}
    (hw : Withholds l l') : ∀ txs : List (Tx Nat G),
    (∀ y ∈ txs.zip l', y.2.2 = none → Schnorr.verify cv hs.crh y.2.1 (txEnc cv y.1 ++ [f]) (0, 0) = false) →
    (approvedTxs cv hs rollup f txs l').Sublist (approvedTxs cv hs rollup f txs l) := by
  induction hw with
  | nil => intro txs _; exact List.Sublist.refl _
  | @cons x y l l' h _ ih =>
    intro txs hz
    rcases txs with _ | ⟨tx, txs⟩
    · simp [approvedTxs]
    · have ih := ih txs fun z hm => hz z (by rw [List.zip_cons_cons]; exact List.mem_cons_of_mem _ hm)
      by_cases ha : Approves cv hs rollup f tx y = true
      · obtain ⟨h1, h2⟩ := withheld_approves h (fun e => hz (tx, y) (by simp) e) ha
        rw [approvedTxs_cons_pos ha, approvedTxs_cons_pos h1, h2]
        exact ih.cons_cons _
      · rw [approvedTxs_cons_neg (by simpa using ha)]
        by_cases h1 : Approves cv hs rollup f tx x = true
        · rw [approvedTxs_cons_pos h1]; exact ih.cons _
        · rw [approvedTxs_cons_neg (by simpa using h1)]; exact ih

theorem affordable_sublist {rollup : G} {f : UTXO Nat G → Nat} {ts ts' : List (Tx Nat G)} (h : ts'.Sublist ts)
    (hi : Independent rollup ts) (ha : Affordable rollup f ts) : Affordable rollup f ts' := by
  have h1 : (spentUTXOs rollup ts').Sublist (spentUTXOs rollup ts) := by
    unfold spentUTXOs; rw [List.flatMap_def, List.flatMap_def]; exact (h.map _).flatten
  have h2 : (createdUTXOs rollup ts').Sublist (createdUTXOs rollup ts) := by
    unfold createdUTXOs; rw [List.flatMap_def, List.flatMap_def]; exact (h.map _).flatten
  have hi' : Independent rollup ts' := fun u a b => hi u (h1.subset a) (h2.subset b)
  rw [affordable_independent hi] at ha
  rw [affordable_independent hi']
  exact fun u => (h1.count_le u).trans (ha u)

theorem zip_forall₂ {A B C : Type} {R : B → C → Prop} {l : List B} {l' : List C} (h : List.Forall₂ R l l') :
    ∀ (ts : List A) (y : A × C), y ∈ ts.zip l' → ∃ x, (y.1, x) ∈ ts.zip l ∧ R x y.2 := by
  induction h with
  | nil => intro ts y hy; simp at hy
  | @cons a c l l' hr _ ih =>
    intro ts y hy
    rcases ts with _ | ⟨t, ts⟩
    · simp at hy
    · rw [List.zip_cons_cons] at hy ⊢
      rcases List.mem_cons.1 hy with rfl | hy
      · exact ⟨a, by simp, hr⟩
      · obtain ⟨x, h1, h2⟩ := ih ts y hy
        exact ⟨x, List.mem_cons_of_mem _ h1, h2⟩

/-- **C113** (the conditions of a proof survive): if an epoch meets the exact conditions of C91, it meets them
with any signatures left out, as long as no transaction without approval pays to the contract (and the pair
`(0, 0)`, which the aggregator takes for a missing signature, is not a valid one). -/
theorem C113_still_provable (P : Params p G) (cv : Curve p q G) (txs : List (Tx Nat G)) (l l' : List (Pair q G))
    (f : ZMod p) (sc : Nat → G) (hok : ProvableEpoch P cv txs l f sc) (hw : Withholds l l')
    (hz : ∀ y ∈ txs.zip l', y.2.2 = none →
      Schnorr.verify cv P.hs.crh y.2.1 (txEnc cv y.1 ++ [f]) (0, 0) = false)
    (hpay : ∀ y ∈ txs.zip l', Approves cv P.hs P.contract f y.1 y.2 = false → y.1.withdrawn P.contract = 0) :
    ProvableEpoch P cv txs l' f sc := by
  have hkey : ∀ x y : Pair q G, (y = x ∨ y = (x.1, none)) → y.1 = x.1 := by rintro x y (rfl | rfl) <;> rfl
  refine ⟨fun y hy => ?_, hok.balanced, hok.fits, fun y hy hk hv => ?_, hpay, fun k tx y h1 h2 ha => ?_,
    fun k tx h1 h2 => hok.complete k tx h1 (by rw [← withheld_length hw]; exact h2)⟩
  · obtain ⟨x, hx, hr⟩ := zip_forall₂ hw txs y hy
    rw [hkey _ _ hr]; exact hok.owned _ hx
  · obtain ⟨x, hx, hr⟩ := zip_forall₂ hw txs y hy
    rcases hr with e | e
    · have e' : (y.1, x) = y := by rw [← e]
      rw [e'] at hx
      exact hok.contract _ hx hk hv
    · have hn : y.2.2 = none := by rw [e]
      have := hz y hy hn
      rw [hn] at hv
      simp only [Option.getD_none] at hv
      rw [this] at hv; simp at hv
  · obtain ⟨x, hx, hr⟩ := withheld_get hw k y h2
    have hm : (tx, y) ∈ txs.zip l' := List.mem_iff_getElem?.2 ⟨k, List.getElem?_zip_eq_some.2 ⟨h1, h2⟩⟩
    have hz' := hz (tx, y) hm
    have hx' := (withheld_approves hr hz' ha).1
    exact hok.free k tx x h1 hx hx'

theorem owned_spends_nil {rollup : G} {t : Tx Nat G} (h : OwnedBy rollup t.inputs.toList) :
    t.spends rollup = [] := by
  rw [Tx.spends, List.filter_eq_nil_iff]
  intro u hu
  unfold UTXO.onLedger
  by_cases hd : u.isDummy = false
  · simp [h u hu hd]
  · simp at hd; simp [hd]

theorem affordable_no_spends {rollup : G} {f : UTXO Nat G → Nat} {ts : List (Tx Nat G)}
    (h : ∀ t ∈ ts, t.spends rollup = []) : Affordable rollup f ts := by
  intro done t rest e u
  have : spentUTXOs rollup (done ++ [t]) = [] := by
    unfold spentUTXOs
    rw [List.flatMap_eq_nil_iff]
    intro x hx
    exact h x (by rw [e]; simp at hx ⊢; tauto)
  rw [this]; simp

/-- **C113** (finding): executing a signed transaction is the aggregator's choice. Take any epoch that executes
and can be proved. With any of the signatures left out, provided no transaction of the epoch spends what another
one creates, or with all of them left out, the same transactions again execute, the transactions whose signature
was left out without any effect (unless they are sent with the contract's key), and the recorded inputs again
prove the block produced, for the same contract. Only transactions that pay to the contract cannot be left
unapproved. -/
theorem C113_withheld (h : Sizes p q) (hpq : p ≤ q) (b : Build) (P : Params p G)
    (hfull : P.transferOnly = false) (cv : Curve p q G)
    (s s1 s2 : Agg.State p q G) (sc : Nat → G) (hsc : SignerLeaves b cv P.hs s sc) (hstart : EpochStart s)
    (txs : List (G × Tx Nat G)) (l : List (Pair q G)) (hcap : txs.length ≤ TX_CAP)
    (hslots : s.ledger.next + TX_IO_SIZE * txs.length ≤ UTXO_CAP) (hll : l.length ≤ txs.length)
    (hu64 : ∀ x ∈ txs, x.2.U64Amounts)
    (h1 : processTransactions b cv P.hs txs s = (s1, .ok ()))
    (h2 : processSignatures b cv P.hs P.contract l s1 = (s2, .ok ()))
    (b' : Build) (k : G) (calls : List (Call G)) (st : Contract.State G)
    (hst : Contract.run b' (Contract.new k) calls = .ok st) (hpks : st.pks.length ≤ 2 ^ 32)
    (block : Block (ZMod p)) (hb : produceBlock st s2 = .ok block)
    (hok : ProvableEpoch P cv (txs.map (·.2)) l (txRoot cv P.hs s1) sc)
    (l' : List (Pair q G)) (hw : Withholds l l')
    (hz : ∀ y ∈ (txs.map (·.2)).zip l', y.2.2 = none →
      Schnorr.verify cv P.hs.crh y.2.1 (txEnc cv y.1 ++ [txRoot cv P.hs s1]) (0, 0) = false)
    (hpay : ∀ y ∈ (txs.map (·.2)).zip l',
      Approves cv P.hs P.contract (txRoot cv P.hs s1) y.1 y.2 = false → y.1.withdrawn P.contract = 0)
    (hfree : Independent P.contract
        ((approvedTxs cv P.hs P.contract (txRoot cv P.hs s1) (txs.map (·.2)) l).map (·.1)) ∨
      ∀ y ∈ l', y.2 = none) :
    ∃ s2' block', processSignatures b cv P.hs P.contract l' s1 = (s2', .ok ()) ∧
      produceBlock st s2' = .ok block' ∧
      (∀ (j : Nat) (x : G), l'[j]? = some (x, none) → x ≠ P.contract → s2'.signers[j]? = some none) ∧
      (∀ j : Nat, l'[j]? = l[j]? → s2'.signers[j]? = s2.signers[j]?) ∧
      (∀ u : UTXO Nat G, u.isDummy = false → live s2' u +
          (spentBy P.contract (approvedTxs cv P.hs P.contract (txRoot cv P.hs s1) (txs.map (·.2)) l')).count u =
        live s u +
          (createdBy P.contract (approvedTxs cv P.hs P.contract (txRoot cv P.hs s1) (txs.map (·.2)) l')).count u) ∧
      ∀ z bs, StartState cv P.hs s (txRoot cv P.hs s1) z → bs.flatten = s2'.ivcInputs.map CInputs.alloc →
        Proves P cv st block' z bs := by
  obtain ⟨hR, _⟩ := signerLeaves_inv hsc
  have hf1 : (Op.transactions txs : Op q G).Fits s := by
    show s.transactions.length + txs.length ≤ TX_CAP
    rw [hstart.transactions]; simpa using hcap
  have hR1 : Reach b cv P.hs s1 := reach_transactions hR txs hf1 h1 (by simp)
  have ht1 : s1.transactions = txs.map (·.2) ∧ s1.ledger = s.ledger ∧ s1.signers = s.signers ∧
      s1.deposits = s.deposits ∧ s1.withdrawals = s.withdrawals := by
    obtain ⟨c, sc, hi⟩ := reach_inv hR
    obtain ⟨done, rest, t, prs, e1, e2, _, o, e4, e5⟩ := processTransactions_spec (b := b) txs _ hi hf1
    rw [h1] at e4
    obtain ⟨e6, e7⟩ := Prod.mk.inj e4
    rcases e5 with ⟨rfl, _⟩ | ⟨x, rest', rfl, hx, rfl⟩
    · rw [List.append_nil] at e1
      subst e1
      rw [e6]; simp [hstart.transactions]
    · exact absurd e7.symm hx
  obtain ⟨ht, hl1, hs1, hd1, hw1⟩ := ht1
  have hl' : l'.length = l.length := withheld_length hw
  have hfit : ∀ m : List (Pair q G), m.length ≤ txs.length → (Op.signatures P.contract m).Fits s1 := by
    intro m hm
    refine ⟨?_, ?_⟩
    · rw [hs1, hstart.signers]; simp only [List.length_nil]; omega
    · rw [hl1]
      rw [show TX_IO_SIZE = 4 from rfl] at hslots ⊢
      generalize UTXO_CAP = N at *
      omega
  have hf := hfit l hll
  have hf' := hfit l' (by omega)
  have hok' := C113_still_provable P cv _ l l' _ sc hok hw hz hpay
  have hsub := withheld_sublist (rollup := P.contract) hw (txs.map (·.2)) hz
  have hok2 : (processSignatures b cv P.hs P.contract l' s1).2 = .ok () := by
    rw [C112_executes_iff b cv P.hs s1 hR1 P.contract l' hf', ht]
    refine ⟨by simp; omega, ?_, fun _ a ha => ?_⟩
    · rcases hfree with hi | hall
      · refine affordable_sublist (hsub.map _) hi ?_
        have := ((C112_executes_iff b cv P.hs s1 hR1 P.contract l hf).1 (by rw [h2])).2.1
        rwa [ht] at this
      · refine affordable_no_spends fun t hm => ?_
        obtain ⟨a, ha, rfl⟩ := List.mem_map.1 hm
        obtain ⟨y, hy, e⟩ := List.mem_map.1 ha
        obtain ⟨hy1, hy2⟩ := List.mem_filter.1 hy
        have hn := hall y.2 (List.of_mem_zip hy1).2
        have hv := hz y hy1 hn
        have hk : y.2.1 = P.contract := by
          have hy2 : Approves cv P.hs P.contract (txRoot cv P.hs s1) y.1 y.2 = true := hy2
          unfold Approves at hy2
          rw [hn] at hy2
          simp only [Option.getD_none] at hy2
          rw [hv] at hy2
          simpa using hy2
        have := hok'.owned y hy1
        rw [hk] at this
        rw [← e]
        exact owned_spends_nil this
    · obtain ⟨y, hy, e⟩ := List.mem_map.1 ha
      have := hok.fits y.1 (List.of_mem_zip (List.mem_filter.1 hy).1).1
      rw [← e]
      exact this
  obtain ⟨s2', hs2⟩ : ∃ s2', processSignatures b cv P.hs P.contract l' s1 = (s2', .ok ()) :=
    ⟨_, Prod.ext rfl hok2⟩
  have hsg := (C43_appends b cv P.hs s1 s2 hR1 P.contract l hf h2).2.1
  have hsg' := (C43_appends b cv P.hs s1 s2' hR1 P.contract l' hf' hs2).2.1
  rw [hs1, hstart.signers, List.nil_append, ht] at hsg hsg'
  have hwd : ∀ tx ∈ s1.transactions, tx.withdrawn P.contract < 2 ^ 64 := by
    rw [ht]; exact hok.fits
  obtain ⟨hde, hwi⟩ := C42_records b cv P.hs s1 s2 hR1 P.contract l hf h2
  obtain ⟨hde', hwi'⟩ := C42_records b cv P.hs s1 s2' hR1 P.contract l' hf' hs2
  have hwi := hwi (.inr hwd)
  have hwi' := hwi' (.inr hwd)
  rw [ht, hd1, hstart.deposits, List.nil_append] at hde hde'
  rw [ht, hw1, hstart.withdrawals, List.nil_append] at hwi hwi'
  have hR2 := reach_signatures hR1 l hf h2 (by simp)
  have hR2' := reach_signatures hR1 l' hf' hs2 (by simp)
  have hreg : ∀ pk, (some pk ∈ s2.signers ∨ pk ∈ s2.deposits.map (·.1) ∨ pk ∈ s2.withdrawals.map (·.1)) →
      Registered st pk := by
    by_contra hno
    have := (C48_produce_block b cv P.hs s2 hR2 st).2 hno
    rw [this] at hb; simp at hb
  obtain ⟨ur, sr, _, _, hbl⟩ := (C48_produce_block b cv P.hs s2' hR2' st).1 (by
    intro pk hpk
    apply hreg
    rcases hpk with hm | hm | hm
    · left
      rw [hsg'] at hm
      obtain ⟨y, hy, e⟩ := List.mem_map.1 hm
      obtain ⟨x, hx, hr⟩ := zip_forall₂ hw _ y hy
      by_cases ha : Approves cv P.hs P.contract (txRoot cv P.hs s1) y.1 y.2 = true
      · rw [if_pos ha] at e
        have hz' := hz y hy
        obtain ⟨h3, h4⟩ := withheld_approves hr hz' ha
        rw [hsg]
        exact List.mem_map.2 ⟨(y.1, x), hx, by rw [if_pos h3, ← e, h4]⟩
      · rw [if_neg ha] at e; simp at e
    · right; left
      rw [hde'] at hm
      rw [hde]
      obtain ⟨d, hd, e⟩ := List.mem_map.1 hm
      obtain ⟨a, ha, hd⟩ := List.mem_flatMap.1 hd
      exact List.mem_map.2 ⟨d, List.mem_flatMap.2 ⟨a, hsub.subset ha, hd⟩, e⟩
    · right; right
      rw [hwi'] at hm
      rw [hwi]
      obtain ⟨d, hd, e⟩ := List.mem_map.1 hm
      obtain ⟨a, ha, hd⟩ := List.mem_flatMap.1 hd
      exact List.mem_map.2 ⟨d, List.mem_flatMap.2 ⟨a, hsub.subset ha, hd⟩, e⟩)
  have hget : ∀ (m : List (Pair q G)), m.length ≤ txs.length → ∀ (j : Nat) (y : Pair q G), m[j]? = some y →
      ∃ t, (((txs.map (·.2)).zip m).map fun y =>
        if Approves cv P.hs P.contract (txRoot cv P.hs s1) y.1 y.2 then some y.2.1 else none)[j]? =
          some (if Approves cv P.hs P.contract (txRoot cv P.hs s1) t y then some y.1 else none) ∧
        (txs.map (·.2))[j]? = some t := by
    intro m hm j y hy
    have hj : j < m.length := (List.getElem?_eq_some_iff.1 hy).1
    obtain ⟨t, ht⟩ : ∃ t, (txs.map (·.2))[j]? = some t :=
      ⟨_, List.getElem?_eq_getElem (by simp; omega)⟩
    refine ⟨t, ?_, ht⟩
    have hzz : ((txs.map (·.2)).zip m)[j]? = some (t, y) := List.getElem?_zip_eq_some.2 ⟨ht, hy⟩
    rw [List.getElem?_map, hzz]
    rfl
  refine ⟨s2', _, hs2, hbl, ?_, ?_, fun u hu => ?_, fun z bs hz' hbs => ?_⟩
  · intro j x hj hx
    obtain ⟨t, e1, e2⟩ := hget l' (by omega) j _ hj
    rw [hsg', e1]
    have hm : (t, ((x, none) : Pair q G)) ∈ (txs.map (·.2)).zip l' :=
      List.mem_iff_getElem?.2 ⟨j, List.getElem?_zip_eq_some.2 ⟨e2, hj⟩⟩
    have hv := hz _ hm rfl
    have ha : Approves cv P.hs P.contract (txRoot cv P.hs s1) t (x, none) = false := by
      unfold Approves
      simp only [Option.getD_none]
      dsimp only at hv
      rw [hv]
      simpa using hx
    rw [ha]; rfl
  · intro j hj
    rw [hsg, hsg']
    cases hx : l'[j]? with
    | none =>
      rw [hx] at hj
      have a1 := List.getElem?_eq_none_iff.1 hx
      rw [List.getElem?_eq_none, List.getElem?_eq_none] <;> simp <;> omega
    | some y =>
      rw [hx] at hj
      obtain ⟨t, e1, e2⟩ := hget l' (by omega) j y hx
      obtain ⟨t', e3, e4⟩ := hget l (by omega) j y hj.symm
      rw [e1, e3]
      rw [e2] at e4
      obtain rfl : t = t' := by simpa using e4
      rfl
  · have := C39_accounting b cv P.hs s1 s2' hR1 P.contract l' hf' hs2 u hu
    rw [ht] at this
    have e : live s1 u = live s u := by unfold live positions; rw [hl1]
    rwa [e] at this
  · exact C91_provable_if h hpq b P hfull cv s s1 s2' sc hsc hstart txs l' hcap hslots (by omega) hu64 h1 hs2 b' k calls
      st hst hpks _ hbl z hz' bs hbs hok'

end PF.Props
