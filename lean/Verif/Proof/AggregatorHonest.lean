import Verif.Proof.AggregatorCircuitPublic
import Verif.Proof.AggregatorFacts

/-!
# The circuit inputs recorded by the aggregator are honest tree updates
-/
set_option linter.unusedSectionVars false

namespace PF.AggC
open PF PF.Spec PF.MT PF.Circuit PF.Contract PF.Agg
variable {p q : Nat} {G : Type} [AddCommGroup G] [Module (ZMod q) G] [DecidableEq G]

/-! ## Allocation -/

theorem dummy_alloc : (UTXO.dummy : UTXO Nat G).alloc p = UTXO.dummy := by
  simp [UTXO.alloc, UTXO.dummy]

theorem default_alloc : (Tx.default : Tx Nat G).alloc p = Tx.default := by
  apply Tx.ext_ios
  rw [Tx.ios_alloc]
  simp [Tx.ios, Tx.default, dummy_alloc]

theorem txEncVar_alloc (cv : Curve p q G) (t : Tx Nat G) : txEncVar cv (t.alloc p) = txEnc cv t := by
  unfold txEncVar txEnc
  rw [Tx.ios_alloc, List.flatMap_map]
  simp only [utxoEncVar_alloc]

theorem inputs_alloc (t : Tx Nat G) : (t.alloc p).inputs.toList = t.inputs.toList.map (UTXO.alloc p) := by
  simp [Tx.alloc]

theorem outputs_alloc (t : Tx Nat G) : (t.alloc p).outputs.toList = t.outputs.toList.map (UTXO.alloc p) := by
  simp [Tx.alloc]

theorem onLedger_alloc (k : G) (u : UTXO Nat G) : (u.alloc p).onLedger k = u.onLedger k := rfl

theorem write_map {A B : Type} (f : A → B) (c : Nat → A) (i : Nat) (v : A) :
    write (fun j => f (c j)) i (f v) = fun j => f (write c i v j) := by
  funext j; simp only [write]; split <;> rfl

theorem signed_alloc (hq : 0 < q) (cv : Curve p q G) (hs : Hashes p) (root : ZMod p) (i : Inputs p q G) :
    (CInputs.alloc i).signed cv hs root =
      Schnorr.verify cv hs.crh i.senderPk (txEnc cv i.tx ++ [root]) i.signature := by
  have hNZ : NeZero q := ⟨by omega⟩
  have hv : ∀ x : ZMod q, bitsVal (natBits (modBits q) x.val) = x.val := by
    intro x
    rw [bitsVal_natBits, Nat.mod_eq_of_lt (lt_two_pow_modBits hq x)]
  unfold CInputs.signed
  simp only [CInputs.alloc, Schnorr.allocSig, hv, ZMod.natCast_zmod_val, txEncVar_alloc, ZMod.val_lt,
    decide_true, Bool.true_and]

/-! ## The UTXO tree -/

theorem proofsShape_cons {us : List (UTXO (ZMod p) G)} {ds : List (ZMod p × List (ZMod p))}
    (u : UTXO (ZMod p) G) (d : ZMod p × List (ZMod p)) (hd : d.2.length = 31) (h : ProofsShape us ds) :
    ProofsShape (u :: us) (d :: ds) := by
  refine ⟨by simp [h.1], fun x hx => ?_⟩
  rcases List.mem_cons.1 hx with rfl | hx
  · exact hd
  · exact h.2 x hx

theorem noUpdate_length (cv : Curve p q G) (hs : Hashes p) : (noUpdate cv hs).2.length = 31 := by
  show (List.replicate _ _).length = _
  rw [List.length_replicate]; rfl

theorem sibsOf_length {L D : Type} (cfg : Config L D) (c : Nat → L) (i : Nat) :
    (sibsOf cfg c i).length = cfg.height - 1 := sibsFrom_length _ _ _ _ _

theorem utxo_sibs (cv : Curve p q G) (hs : Hashes p) (c : Nat → UTXO Nat G) (i : Nat) :
    sibsOf (utxoTreeCfg cv hs) c i =
      trueSibs (fun l => hs.crh (utxoEncVar cv l)) hs.h2 32 (fun j => (c j).alloc p) i := by
  rw [trueSibs_eq]
  simp only [utxoEncVar_alloc]
  rfl

/-- Updates recorded by the loops are legal, honest and lead to the new contents. -/
structure Leads {L : Type} (hs : Hashes p) (enc : L → List (ZMod p)) (height : Nat) (c c' : Nat → L)
    (us : List (Upd L (ZMod p))) : Prop where
  legal : Legal c us
  honest : Honest (fun l => hs.crh (enc l)) hs.h2 height c us
  final : applied c us = c'

theorem Leads.nil {L : Type} (hs : Hashes p) (enc : L → List (ZMod p)) (height : Nat) (c : Nat → L) :
    Leads hs enc height c c [] := ⟨legal_nil c, trivial, rfl⟩

theorem Leads.append {L : Type} {hs : Hashes p} {enc : L → List (ZMod p)} {height : Nat} {c c1 c2 : Nat → L}
    {us vs : List (Upd L (ZMod p))} (h1 : Leads hs enc height c c1 us) (h2 : Leads hs enc height c1 c2 vs) :
    Leads hs enc height c c2 (us ++ vs) := by
  obtain ⟨a1, a2, rfl⟩ := h1
  exact ⟨(legal_append _ _ _).2 ⟨a1, h2.legal⟩, (honest_append _ _ _ _ _ _).2 ⟨a2, h2.honest⟩,
    by rw [applied_append]; exact h2.final⟩

theorem Leads.cons {L : Type} {hs : Hashes p} {enc : L → List (ZMod p)} {height : Nat} {c c2 : Nat → L}
    {u : Upd L (ZMod p)} {vs : List (Upd L (ZMod p))} (ho : c u.idx = u.old)
    (hsib : u.sibs = trueSibs (fun l => hs.crh (enc l)) hs.h2 height c u.idx)
    (h2 : Leads hs enc height (write c u.idx u.new) c2 vs) :
    Leads hs enc height c c2 (u :: vs) :=
  ⟨(legal_cons _ _ _).2 ⟨ho, h2.legal⟩, ⟨hsib, h2.honest⟩, by rw [applied_cons]; exact h2.final⟩

theorem idx_cast (hp : UTXO_CAP < p) {i : Nat} (hi : i < UTXO_CAP) :
    ((i : ZMod p)).val % 2 ^ (UTXO_TREE_HEIGHT - 1) = i := by
  rw [ZMod.val_natCast, Nat.mod_eq_of_lt (show i < p from lt_trans hi hp)]
  exact Nat.mod_eq_of_lt hi

theorem deleted_leads (hp : UTXO_CAP < p) {cv : Curve p q G} {hs : Hashes p} {rollup : G}
    {us : List (UTXO Nat G)} {ds : List (ZMod p × List (ZMod p))} {c c1 : Nat → UTXO Nat G}
    (h : Deleted cv hs rollup us ds c c1) (sel : UTXO (ZMod p) G → Bool)
    (hsel : ∀ u ∈ us, sel (u.alloc p) = u.onLedger rollup) :
    ProofsShape (us.map (UTXO.alloc p)) ds ∧
    Leads hs (utxoEncVar cv) 32 (fun j => (c j).alloc p) (fun j => (c1 j).alloc p)
      (updsOf (us.map (UTXO.alloc p)) ds sel id (fun _ => UTXO.dummy)) := by
  induction us generalizing ds c with
  | nil =>
    obtain ⟨rfl, rfl⟩ := h
    exact ⟨⟨rfl, by simp⟩, Leads.nil _ _ _ _⟩
  | cons u us ih =>
    unfold Deleted at h
    have hs1 := hsel u (by simp)
    by_cases ho : u.onLedger rollup = true
    · rw [if_pos ho] at h
      obtain ⟨idx, ds', h1, h2, rfl, h4⟩ := h
      obtain ⟨i1, i2⟩ := ih h4 (fun v hv => hsel v (by simp [hv]))
      refine ⟨proofsShape_cons _ _ (sibsOf_length _ _ _) i1, ?_⟩
      rw [List.map_cons, updsOf_cons, hs1, ho, if_pos rfl, List.singleton_append, idx_cast hp h1]
      refine Leads.cons (by simp [h2]) (utxo_sibs cv hs c idx) ?_
      have e : write (fun j => (c j).alloc p) idx (UTXO.dummy : UTXO (ZMod p) G) =
          fun j => (write c idx UTXO.dummy j).alloc p := by
        rw [← dummy_alloc, write_map]
      simp only
      rw [e]
      exact i2
    · have ho' : u.onLedger rollup = false := by simpa using ho
      rw [if_neg ho] at h
      obtain ⟨ds', rfl, h4⟩ := h
      obtain ⟨i1, i2⟩ := ih h4 (fun v hv => hsel v (by simp [hv]))
      refine ⟨proofsShape_cons _ _ (noUpdate_length cv hs) i1, ?_⟩
      rw [List.map_cons, updsOf_cons, hs1, ho']
      exact i2

theorem added_leads (hp : UTXO_CAP < p) {cv : Curve p q G} {hs : Hashes p} {rollup : G}
    {us : List (UTXO Nat G)} {ds : List (ZMod p × List (ZMod p))} {n : Nat} {c c1 : Nat → UTXO Nat G}
    (h : Added cv hs rollup us ds n c c1) (sel : UTXO (ZMod p) G → Bool)
    (hsel : ∀ u ∈ us, sel (u.alloc p) = u.onLedger rollup) :
    ProofsShape (us.map (UTXO.alloc p)) ds ∧
    Leads hs (utxoEncVar cv) 32 (fun j => (c j).alloc p) (fun j => (c1 j).alloc p)
      (updsOf (us.map (UTXO.alloc p)) ds sel (fun _ => UTXO.dummy) id) := by
  induction us generalizing ds c n with
  | nil =>
    obtain ⟨rfl, rfl⟩ := h
    exact ⟨⟨rfl, by simp⟩, Leads.nil _ _ _ _⟩
  | cons u us ih =>
    unfold Added at h
    have hs1 := hsel u (by simp)
    by_cases ho : u.onLedger rollup = true
    · rw [if_pos ho] at h
      obtain ⟨ds', h1, rfl, h2, h4⟩ := h
      obtain ⟨i1, i2⟩ := ih h4 (fun v hv => hsel v (by simp [hv]))
      refine ⟨proofsShape_cons _ _ (sibsOf_length _ _ _) i1, ?_⟩
      rw [List.map_cons, updsOf_cons, hs1, ho, if_pos rfl, List.singleton_append, idx_cast hp h1]
      refine Leads.cons (by simp [h2, dummy_alloc]) (utxo_sibs cv hs c n) ?_
      simp only [id]
      rw [write_map]
      exact i2
    · have ho' : u.onLedger rollup = false := by simpa using ho
      rw [if_neg ho] at h
      obtain ⟨ds', rfl, h4⟩ := h
      obtain ⟨i1, i2⟩ := ih h4 (fun v hv => hsel v (by simp [hv]))
      refine ⟨proofsShape_cons _ _ (noUpdate_length cv hs) i1, ?_⟩
      rw [List.map_cons, updsOf_cons, hs1, ho']
      exact i2

theorem updsOf_none {us : List (UTXO (ZMod p) G)} {ds : List (ZMod p × List (ZMod p))}
    {sel : UTXO (ZMod p) G → Bool} (o n : UTXO (ZMod p) G → UTXO (ZMod p) G) (h : ∀ u ∈ us, sel u = false) :
    updsOf us ds sel o n = [] := by
  unfold updsOf
  rw [List.filter_eq_nil_iff.2]
  · rfl
  · rintro ⟨u, d⟩ hx
    simp [h u (List.of_mem_zip hx).1]

theorem proofsShape_replicate {us : List (UTXO (ZMod p) G)} {d : ZMod p × List (ZMod p)}
    (hlen : us.length = TX_IO_SIZE) (hd : d.2.length = 31) : ProofsShape us (List.replicate TX_IO_SIZE d) :=
  ⟨by simp [hlen], fun x hx => by rw [List.eq_of_mem_replicate hx]; exact hd⟩

/-! ## One pair and runs of pairs -/

/-- A pair the circuit treats like the aggregator does: its key owns the inputs, and if it is the
contract's, it comes without a valid signature or the transaction has no real inputs. -/
structure Proper (cv : Curve p q G) (hs : Hashes p) (rollup : G) (r : ZMod p) (tx : Tx Nat G) (x : Pair q G) :
    Prop where
  owned : OwnedBy x.1 tx.inputs.toList
  contract : x.1 = rollup → Schnorr.verify cv hs.crh x.1 (txEnc cv tx ++ [r]) (x.2.getD (0, 0)) = false ∨
    ∀ u ∈ tx.inputs.toList, u.isDummy = true

theorem proper_sel {cv : Curve p q G} {hs : Hashes p} {rollup : G} {r : ZMod p} {tx : Tx Nat G} {x : Pair q G}
    (h : Proper cv hs rollup r tx x) (ha : Approves cv hs rollup r tx x = true) (u : UTXO Nat G)
    (hu : u ∈ tx.inputs.toList) :
    (Schnorr.verify cv hs.crh x.1 (txEnc cv tx ++ [r]) (x.2.getD (0, 0)) && !u.isDummy) = u.onLedger rollup := by
  unfold UTXO.onLedger
  cases hd : u.isDummy with
  | true => simp
  | false =>
    have ho := h.owned u hu hd
    by_cases hx : x.1 = rollup
    · rcases h.contract hx with hv | hv
      · rw [hv]; simp [ho, hx]
      · rw [hv u hu] at hd; cases hd
    · have hv : Schnorr.verify cv hs.crh x.1 (txEnc cv tx ++ [r]) (x.2.getD (0, 0)) = true := by
        simpa [Approves, hx] using ha
      simp [hv, ho, hx]

/-- What the recorded inputs of a run satisfy. -/
structure Recorded (P : Params p G) (cv : Curve p q G) (r : ZMod p) (i : Nat) (c c' : Nat → UTXO Nat G)
    (sc sc' : Nat → G) (ins : List (Inputs p q G)) : Prop where
  shapes : ∀ y ∈ ins, ProofsShape (y.tx.inputs.toList.map (UTXO.alloc p)) y.dels ∧
    ProofsShape (y.tx.outputs.toList.map (UTXO.alloc p)) y.adds ∧ y.signerProof.length = 12
  ledger : Leads P.hs (utxoEncVar cv) 32 (fun j => (c j).alloc p) (fun j => (c' j).alloc p)
    (ledgerUpds P cv r (ins.map CInputs.alloc))
  signer : Leads P.hs (pkEncVar cv) 13 sc sc' (signerUpds P cv r (i : ZMod p) (ins.map CInputs.alloc))

theorem authorised_alloc (hq : 0 < q) (P : Params p G) (cv : Curve p q G) (root : ZMod p) (i : Inputs p q G) :
    (CInputs.alloc i).authorised P cv root =
      Approves cv P.hs P.contract root i.tx (i.senderPk, some i.signature) := by
  unfold CInputs.authorised Approves
  rw [signed_alloc hq]; rfl

theorem pk_sibs (cv : Curve p q G) (hs : Hashes p) (sc : Nat → G) (i : Nat) :
    sibsOf (signerTreeCfg cv hs) sc i = trueSibs (fun l => hs.crh (pkEncVar cv l)) hs.h2 13 sc i := by
  rw [trueSibs_eq]
  simp only [pkEncVar_eq]
  rfl

theorem step_recorded (h : Sizes p q) {b : Build} (P : Params p G) (cv : Curve p q G) {r : ZMod p} {i : Nat}
    {x : Pair q G} {s s' : State p q G} {c c' : Nat → UTXO Nat G} {sc sc' : Nat → G}
    (hst : Step b cv P.hs P.contract r i x s c sc s' c' sc') (hi : s.signers.length = i) (hc : i < TX_CAP)
    (hprop : ∀ tx, s.transactions[i]? = some tx → Proper cv P.hs P.contract r tx x)
    (hfree : ∀ tx, s.transactions[i]? = some tx → Approves cv P.hs P.contract r tx x = true → sc i = 0) :
    ∃ y, s'.ivcInputs = s.ivcInputs ++ [y] ∧ Recorded P cv r i c c' sc sc' [y] ∧
      ∀ j, j ≠ i → sc' j = sc j := by
  have hp : UTXO_CAP < p := lt_of_lt_of_le (by rw [show UTXO_CAP = 2 ^ 31 from rfl]; decide) h.large
  have hcp : i < p := lt_trans hc (lt_of_lt_of_le (by simp [TX_CAP]) h.large)
  have hic : ((i : ZMod p)).val % TX_CAP = i := by
    rw [ZMod.val_natCast, Nat.mod_eq_of_lt hcp, Nat.mod_eq_of_lt hc]
  have len4 : ∀ v : Vector (UTXO Nat G) TX_IO_SIZE, TX_IO_SIZE = (v.toList.map (UTXO.alloc p)).length := by
    intro v; simp
  cases hst with
  | rej tx tp ht htp ha =>
    refine ⟨rejInputs cv P.hs tx tp x.1 x.2, rfl, ?_, fun _ _ => rfl⟩
    have hau : (CInputs.alloc (rejInputs cv P.hs tx tp x.1 x.2)).authorised P cv r = false := by
      rw [authorised_alloc h.pos]; exact ha
    have hsg : (CInputs.alloc (rejInputs cv P.hs tx tp x.1 x.2)).signed cv P.hs r = false := by
      unfold CInputs.authorised at hau; rw [Bool.or_eq_false_iff] at hau; exact hau.1
    refine ⟨?_, ?_, ?_⟩
    · intro y hy
      rw [List.mem_singleton] at hy; subst hy
      refine ⟨?_, ?_, ?_⟩
      · simp only [rejInputs]
        exact proofsShape_replicate (len4 tx.inputs).symm (noUpdate_length cv P.hs)
      · simp only [rejInputs]
        exact proofsShape_replicate (len4 tx.outputs).symm (noUpdate_length cv P.hs)
      · show (List.replicate _ _).length = 12
        rw [List.length_replicate]; rfl
    · rw [List.map_singleton, ledgerUpds_one, erases_eq, inserts_eq, updsOf_none, updsOf_none]
      · exact Leads.nil _ _ _ _
      · intro u _; rw [hau]; rfl
      · intro u _; rw [hsg]; rfl
    · simp only [List.map_cons, List.map_nil, signerUpds, hau]
      exact Leads.nil _ _ _ _
  | acc tx tp dels adds l' st c1 _ w ht htp ha hd hadd hn hw1 hw2 =>
    refine ⟨accInputs cv P.hs tx tp x.1 x.2 dels adds sc s.signers.length, rfl, ?_, ?_⟩
    rotate_left
    · intro j hj
      rw [hi]; simp [write, hj]
    have hau : (CInputs.alloc (accInputs cv P.hs tx tp x.1 x.2 dels adds sc s.signers.length)).authorised P cv r
        = true := by
      rw [authorised_alloc h.pos]; exact ha
    have hsg := signed_alloc h.pos cv P.hs r (accInputs cv P.hs tx tp x.1 x.2 dels adds sc s.signers.length)
    obtain ⟨d1, d2⟩ := deleted_leads hp hd (fun u => (CInputs.alloc
        (accInputs cv P.hs tx tp x.1 x.2 dels adds sc s.signers.length)).signed cv P.hs r && !u.isDummy)
      (fun u hu => by rw [hsg]; exact proper_sel (hprop tx ht) ha u hu)
    obtain ⟨a1, a2⟩ := added_leads hp hadd (fun u => (CInputs.alloc
        (accInputs cv P.hs tx tp x.1 x.2 dels adds sc s.signers.length)).authorised P cv r &&
          u.onLedger P.contract)
      (fun u hu => by rw [hau]; rfl)
    refine ⟨?_, ?_, ?_⟩
    · intro y hy
      rw [List.mem_singleton] at hy; subst hy
      exact ⟨d1, a1, sibsOf_length _ _ _⟩
    · rw [List.map_singleton, ledgerUpds_one, erases_eq, inserts_eq]
      refine Leads.append (c1 := fun j => (c1 j).alloc p) ?_ ?_
      · have e : (CInputs.alloc (accInputs cv P.hs tx tp x.1 x.2 dels adds sc s.signers.length)).tx.inputs.toList
          = tx.inputs.toList.map (UTXO.alloc p) := inputs_alloc tx
        rw [e]; exact d2
      · have e : (CInputs.alloc (accInputs cv P.hs tx tp x.1 x.2 dels adds sc s.signers.length)).tx.outputs.toList
          = tx.outputs.toList.map (UTXO.alloc p) := outputs_alloc tx
        rw [e]; exact a2
    · simp only [List.map_cons, List.map_nil, signerUpds, hau, if_true, hic, List.append_nil]
      refine Leads.cons (hfree tx ht ha) ?_ ?_
      · simp only [CInputs.alloc, accInputs, hi]
        exact pk_sibs cv P.hs sc i
      · simp only [CInputs.alloc, accInputs, hi]
        exact Leads.nil _ _ _ _

theorem runs_recorded (h : Sizes p q) {b : Build} (P : Params p G) (cv : Curve p q G) {r : ZMod p} {i : Nat}
    {l : List (Pair q G)} {s s' : State p q G} {c c' : Nat → UTXO Nat G} {sc sc' : Nat → G}
    (hst : Runs b cv P.hs P.contract r i l s c sc s' c' sc') (hi : s.signers.length = i)
    (hc : i + l.length ≤ TX_CAP)
    (hprop : ∀ (k : Nat) (tx : Tx Nat G) (x : Pair q G), s.transactions[i + k]? = some tx → l[k]? = some x →
      Proper cv P.hs P.contract r tx x)
    (hfree : ∀ (k : Nat) (tx : Tx Nat G) (x : Pair q G), s.transactions[i + k]? = some tx → l[k]? = some x →
      Approves cv P.hs P.contract r tx x = true → sc (i + k) = 0) :
    ∃ ins, s'.ivcInputs = s.ivcInputs ++ ins ∧ Recorded P cv r i c c' sc sc' ins := by
  induction hst with
  | nil i s c sc =>
    refine ⟨[], by simp, ⟨by simp, ?_, ?_⟩⟩
    · exact Leads.nil _ _ _ _
    · exact Leads.nil _ _ _ _
  | cons i x l s s1 s2 c c1 c2 sc sc1 sc2 h1 h2 ih =>
    simp only [List.length_cons] at hc
    obtain ⟨y, e1, e2, e3⟩ := step_recorded h P cv h1 hi (by omega)
      (fun tx ht => hprop 0 tx x (by simpa using ht) (by simp))
      (fun tx ht ha => by simpa using hfree 0 tx x (by simpa using ht) (by simp) ha)
    obtain ⟨f1, f2, f3, f4, f5, f6, f7⟩ := h1.frame
    obtain ⟨ins, g1, g2⟩ := ih (by omega) (by omega)
      (fun k tx z ht hz => hprop (k + 1) tx z
        (by rw [f1] at ht; rw [← ht]; congr 1; omega) (by simpa using hz))
      (fun k tx z ht hz ha => by
        rw [e3 _ (by omega)]
        have := hfree (k + 1) tx z (by rw [f1] at ht; rw [← ht]; congr 1; omega) (by simpa using hz) ha
        rw [← this]; congr 1; omega)
    refine ⟨y :: ins, by rw [g1, e1]; simp, ⟨?_, ?_, ?_⟩⟩
    · intro z hz
      rcases List.mem_cons.1 hz with rfl | hz
      · exact e2.shapes _ (by simp)
      · exact g2.shapes z hz
    · rw [List.map_cons, ledgerUpds_cons, ← ledgerUpds_one]
      exact Leads.append e2.ledger g2.ledger
    · rw [List.map_cons, signerUpds_cons]
      have : ((i : ZMod p) + 1) = ((i + 1 : Nat) : ZMod p) := by push_cast; ring
      rw [this]
      exact Leads.append e2.signer g2.signer

/-! ## The transaction tree -/

theorem tx_sibs (cv : Curve p q G) (hs : Hashes p) (ct : Nat → Tx Nat G) (i : Nat) :
    sibsOf (txTreeCfg cv hs) ct i =
      trueSibs (fun l => hs.crh (txEncVar cv l)) hs.h2 13 (fun j => (ct j).alloc p) i := by
  rw [trueSibs_eq]
  simp only [txEncVar_alloc]
  rfl

theorem listC_take_succ {α : Type} (d : α) (T : List α) (i : Nat) (t : α) (h : T[i]? = some t) :
    listC d (T.take (i + 1)) = write (listC d (T.take i)) i t := by
  have hl := (List.getElem?_eq_some_iff.1 h).1
  have : T.take (i + 1) = T.take i ++ [t] := by
    rw [List.take_add_one, h]; rfl
  rw [this, listC_append, List.length_take, Nat.min_eq_left (by omega)]

theorem tx_leads (h : Sizes p q) (cv : Curve p q G) (hs : Hashes p) (T : List (Tx Nat G)) (hT : T.length ≤ TX_CAP)
    (ins : List (Inputs p q G)) (i : Nat) (hi : i ≤ T.length) (htx : ins.map (·.tx) = T.drop i)
    (hpf : ∀ (k : Nat) (y : Inputs p q G), ins[k]? = some y →
      y.txProof = sibsOf (txTreeCfg cv hs) (listC Tx.default (T.take (i + k))) (i + k)) :
    Leads hs (txEncVar cv) 13 (fun j => (listC Tx.default (T.take i) j).alloc p)
      (fun j => (listC Tx.default T j).alloc p) (txUpds (i : ZMod p) (ins.map CInputs.alloc)) := by
  induction ins generalizing i with
  | nil =>
    have : T.length ≤ i := by simpa using htx
    have : T.take i = T := List.take_of_length_le this
    rw [this]
    exact Leads.nil _ _ _ _
  | cons y ins ih =>
    have hlt : i < T.length := by
      by_contra hge
      rw [List.drop_eq_nil_of_le (by omega)] at htx; simp at htx
    have hTi : T[i]? = some y.tx := by
      rw [List.drop_eq_getElem_cons hlt] at htx
      simp only [List.map_cons, List.cons.injEq] at htx
      rw [List.getElem?_eq_getElem hlt, htx.1]
    have hcp : i < p := lt_of_lt_of_le hlt (le_trans hT (le_trans (by simp [TX_CAP]) h.large))
    have hic : ((i : ZMod p)).val % TX_CAP = i := by
      rw [ZMod.val_natCast, Nat.mod_eq_of_lt hcp, Nat.mod_eq_of_lt (by omega)]
    simp only [List.map_cons, txUpds, hic]
    refine Leads.cons ?_ ?_ ?_
    · simp only [listC]
      rw [List.getElem?_eq_none (by simp), Option.getD_none, default_alloc]
    · have := hpf 0 y (by simp)
      simp only [Nat.add_zero] at this
      simp only [CInputs.alloc]
      rw [this]; exact tx_sibs cv hs _ i
    · have : ((i : ZMod p) + 1) = ((i + 1 : Nat) : ZMod p) := by push_cast; ring
      rw [this]
      simp only [CInputs.alloc]
      rw [write_map, ← listC_take_succ _ _ _ _ hTi]
      refine ih (i + 1) (by omega) ?_ ?_
      · rw [List.drop_eq_getElem_cons hlt] at htx
        simp only [List.map_cons, List.cons.injEq] at htx
        exact htx.2
      · intro k z hz
        have := hpf (k + 1) z (by simpa using hz)
        rw [show i + 1 + k = i + (k + 1) by omega]; exact this

end PF.AggC
