import Verif.Proof.AggregatorHonest
import Verif.Props.AggregatorCalls

/-!
# The recorded inputs of an epoch satisfy the circuit
-/
set_option linter.unusedSectionVars false

namespace PF.AggC
open PF PF.Spec PF.MT PF.Circuit PF.Contract PF.Agg
variable {p q : Nat} {G : Type} [AddCommGroup G] [Module (ZMod q) G] [DecidableEq G]

/-- Transaction, key and signature of recorded inputs. -/
def inputKey (y : Inputs p q G) : Tx Nat G × G × (ZMod q × ZMod q) := (y.tx, y.senderPk, y.signature)

theorem flatMap_filter_nil {A B : Type} (l : List A) (f : A → Bool) (g : A → List B)
    (h : ∀ a ∈ l, f a = false → g a = []) : l.flatMap g = (l.filter f).flatMap g := by
  induction l with
  | nil => rfl
  | cons a l ih =>
    rw [List.flatMap_cons, ih (fun b hb => h b (by simp [hb]))]
    cases hf : f a with
    | true => simp [hf]
    | false => simp [hf, h a (by simp) hf]

theorem signerList_recorded (hq : 0 < q) (P : Params p G) (cv : Curve p q G) (r : ZMod p)
    (T : List (Tx Nat G)) (l : List (Pair q G)) (ins : List (Inputs p q G))
    (h : ins.map (fun y => (y.tx, y.senderPk, y.signature)) =
      (T.zip l).map (fun y => (y.1, y.2.1, y.2.2.getD (0, 0)))) :
    signerList P cv r (ins.map CInputs.alloc) =
      (T.zip l).map (fun y => if Approves cv P.hs P.contract r y.1 y.2 then y.2.1 else 0) := by
  have e : signerList P cv r (ins.map CInputs.alloc) =
      (ins.map (fun y => (y.tx, y.senderPk, y.signature))).map
        (fun t => if Approves cv P.hs P.contract r t.1 (t.2.1, some t.2.2) then t.2.1 else 0) := by
    unfold signerList
    rw [List.map_map, List.map_map]
    apply List.map_congr_left
    intro y _
    simp only [Function.comp, authorised_alloc hq]
    rfl
  rw [e, h, List.map_map]
  rfl

theorem alloc_amount {u : UTXO Nat G} (h : u.amount < p) : (u.alloc p).amount.val = u.amount := by
  simp [UTXO.alloc, ZMod.val_natCast, Nat.mod_eq_of_lt h]

theorem withdrawn_alloc {tx : Tx Nat G} (P : Params p G) (h : ∀ u ∈ tx.ios, u.amount < p)
    (y : Inputs p q G) (hy : y.tx = tx) : (CInputs.alloc y).withdrawn P = tx.withdrawn P.contract := by
  subst hy
  unfold CInputs.withdrawn Tx.withdrawn
  have e : (CInputs.alloc y).tx.outputs.toList = y.tx.outputs.toList.map (UTXO.alloc p) := outputs_alloc y.tx
  rw [e, List.filter_map, totalVal_alloc]
  · rfl
  · intro u hu _
    exact h u (by simp [Tx.ios, (List.mem_filter.1 hu).1])

theorem deposits_alloc {tx : Tx Nat G} (P : Params p G) (h : ∀ u ∈ tx.ios, u.amount < p)
    (y : Inputs p q G) (hy : y.tx = tx) :
    (if (CInputs.alloc y).senderPk = P.contract then
      ((CInputs.alloc y).tx.outputs.toList.filter fun u => !u.isDummy).map fun u => (u.pk, u.amount.val)
    else []) = tx.depositsOf P.contract y.senderPk := by
  subst hy
  unfold Tx.depositsOf
  have e : (CInputs.alloc y).tx.outputs.toList = y.tx.outputs.toList.map (UTXO.alloc p) := outputs_alloc y.tx
  rw [e, List.filter_map, List.map_map]
  refine if_congr Iff.rfl ?_ rfl
  have e2 : ((fun u : UTXO (ZMod p) G => !u.isDummy) ∘ UTXO.alloc p) = fun u : UTXO Nat G => !u.isDummy := rfl
  rw [e2]
  apply List.map_congr_left
  intro u hu
  simp only [Function.comp]
  rw [alloc_amount (h u (by simp [Tx.ios, (List.mem_filter.1 hu).1]))]
  rfl

theorem depositList_recorded (P : Params p G) (cv : Curve p q G) (r : ZMod p)
    (T : List (Tx Nat G)) (l : List (Pair q G)) (ins : List (Inputs p q G))
    (h : ins.map (fun y => (y.tx, y.senderPk, y.signature)) =
      (T.zip l).map (fun y => (y.1, y.2.1, y.2.2.getD (0, 0))))
    (hu : ∀ y ∈ ins, ∀ u ∈ y.tx.ios, u.amount < p) :
    depositList P (ins.map CInputs.alloc) = depositsBy P.contract (approvedTxs cv P.hs P.contract r T l) := by
  have e : depositList P (ins.map CInputs.alloc) =
      (ins.map (fun y => (y.tx, y.senderPk, y.signature))).flatMap
        (fun t => t.1.depositsOf P.contract t.2.1) := by
    unfold depositList
    rw [List.flatMap_map, List.flatMap_map]
    apply List.flatMap_congr
    intro y hy
    exact deposits_alloc P (hu y hy) y rfl
  rw [e, h, List.flatMap_map]
  unfold depositsBy approvedTxs
  rw [List.flatMap_map]
  apply flatMap_filter_nil
  intro y _ hy
  have : y.2.1 ≠ P.contract := by
    intro he; simp [Approves, he] at hy
  simp [Tx.depositsOf, this]

theorem withdrawalList_recorded (P : Params p G) (cv : Curve p q G) (r : ZMod p)
    (T : List (Tx Nat G)) (l : List (Pair q G)) (ins : List (Inputs p q G))
    (h : ins.map (fun y => (y.tx, y.senderPk, y.signature)) =
      (T.zip l).map (fun y => (y.1, y.2.1, y.2.2.getD (0, 0))))
    (hu : ∀ y ∈ ins, ∀ u ∈ y.tx.ios, u.amount < p)
    (hrej : ∀ y ∈ T.zip l, Approves cv P.hs P.contract r y.1 y.2 = false → y.1.withdrawn P.contract = 0) :
    withdrawalList P (ins.map CInputs.alloc) =
      withdrawalsBy P.contract (approvedTxs cv P.hs P.contract r T l) := by
  have e : withdrawalList P (ins.map CInputs.alloc) =
      (ins.map (fun y => (y.tx, y.senderPk, y.signature))).flatMap
        (fun t => t.1.withdrawalsOf P.contract t.2.1) := by
    unfold withdrawalList
    rw [List.flatMap_map, List.flatMap_map]
    apply List.flatMap_congr
    intro y hy
    have := withdrawn_alloc (tx := y.tx) P (hu y hy) y rfl
    simp only [this]
    rfl
  rw [e, h, List.flatMap_map]
  unfold withdrawalsBy approvedTxs
  rw [List.flatMap_map]
  apply flatMap_filter_nil
  intro y hm hy
  simp [Tx.withdrawalsOf, hrej y hm hy]

theorem shape_alloc (h : 0 < q) {y : Inputs p q G}
    (hd : ProofsShape (y.tx.inputs.toList.map (UTXO.alloc p)) y.dels)
    (ha : ProofsShape (y.tx.outputs.toList.map (UTXO.alloc p)) y.adds) (ht : y.txProof.length = 12)
    (hs : y.signerProof.length = 12) : Shape q (CInputs.alloc y) where
  sigS := natBits_length _ _
  sigE := natBits_length _ _
  dels := by
    have e : (CInputs.alloc y).tx.inputs.toList = y.tx.inputs.toList.map (UTXO.alloc p) := inputs_alloc y.tx
    rw [e]; exact hd
  adds := by
    have e : (CInputs.alloc y).tx.outputs.toList = y.tx.outputs.toList.map (UTXO.alloc p) := outputs_alloc y.tx
    rw [e]; exact ha
  tx := ht
  signer := hs

theorem ownedBy_alloc {k : G} {us : List (UTXO Nat G)} (h : OwnedBy k us) :
    OwnedBy k (us.map (UTXO.alloc p)) := by
  intro u hu hd
  obtain ⟨v, hv, rfl⟩ := List.mem_map.1 hu
  exact h v hv hd

/-- The inputs recorded in an epoch whose signer positions are free satisfy the circuit. -/
theorem honest_run (h : Sizes p q) (hpq : p ≤ q) {b : Build} (P : Params p G) (hfull : P.transferOnly = false)
    (cv : Curve p q G) {l : List (Pair q G)} {s s' : State p q G} {c c' : Nat → UTXO Nat G} {sc sc' : Nat → G}
    (hi : Inv cv P.hs s c sc)
    (hr : Runs b cv P.hs P.contract (txRoot cv P.hs s) 0 l s c sc s' c' sc')
    (hsg : s.signers = []) (hiv : s.ivcInputs = []) (hdep : s.deposits = []) (hwd : s.withdrawals = [])
    (hlen : l.length ≤ s.transactions.length)
    (hrest : ∀ (k : Nat) (tx : Tx Nat G), s.transactions[k]? = some tx → l.length ≤ k → tx = Tx.default)
    (hprop : ∀ y ∈ s.transactions.zip l, Proper cv P.hs P.contract (txRoot cv P.hs s) y.1 y.2)
    (hrej : ∀ y ∈ s.transactions.zip l,
      Approves cv P.hs P.contract (txRoot cv P.hs s) y.1 y.2 = false → y.1.withdrawn P.contract = 0)
    (hfree : ∀ (k : Nat) (tx : Tx Nat G) (x : Pair q G), s.transactions[k]? = some tx → l[k]? = some x →
      Approves cv P.hs P.contract (txRoot cv P.hs s) tx x = true → sc k = 0)
    (hu64 : ∀ tx ∈ s.transactions, tx.U64Amounts)
    (hsum : ∀ tx ∈ s.transactions, totalOf tx.inputs.toList = totalOf tx.outputs.toList)
    (hw : ∀ tx ∈ s.transactions, tx.withdrawn P.contract < U64) :
    ∃ z', stepBatch P cv (initState (merkleRoot (utxoCRH cv P.hs.crh) P.hs.h2 32 c)
        (merkleRoot (txCRH cv P.hs.crh) P.hs.h2 13 (fun _ => Tx.default)) (txRoot cv P.hs s)
        (merkleRoot (pkCRH cv P.hs.crh) P.hs.h2 13 sc)) (s'.ivcInputs.map CInputs.alloc) z' ∧
      z'.toList = [(s'.signers.length : ZMod p), merkleRoot (utxoCRH cv P.hs.crh) P.hs.h2 32 c',
        txRoot cv P.hs s, txRoot cv P.hs s, merkleRoot (pkCRH cv P.hs.crh) P.hs.h2 13 sc',
        chain (shaField p P.sha) (signerInput cv) 0 (s'.signers.map (·.getD 0)),
        chain (shaField p P.sha) (amountInput cv) 0 s'.deposits,
        chain (shaField p P.sha) (amountInput cv) 0 s'.withdrawals] := by
  have hU : U64 ≤ p := le_trans (by unfold U64; decide) h.large
  obtain ⟨ins, e1, e2, e3⟩ := hr.inputs
  rw [hiv, List.nil_append] at e1
  rw [List.drop_zero] at e2 e3
  obtain ⟨ins', g1, g2⟩ := runs_recorded h P cv hr (by rw [hsg]; rfl)
    (by rw [Nat.zero_add]; exact le_trans hlen hi.txCap)
    (fun k tx x ht hx => by
      rw [Nat.zero_add] at ht
      exact hprop (tx, x) (List.mem_iff_getElem?.2 ⟨k, by rw [List.getElem?_zip_eq_some]; exact ⟨ht, hx⟩⟩))
    (fun k tx x ht hx ha => by
      rw [Nat.zero_add] at ht ⊢
      exact hfree k tx x ht hx ha)
  rw [hiv, List.nil_append] at g1
  rw [e1] at g1
  subst g1
  have hl : ins.length = l.length := by
    have := congrArg List.length e2
    simp only [List.length_map, List.length_zip] at this
    omega
  have htx : ins.map (·.tx) = s.transactions.take l.length := by
    have := congrArg (List.map Prod.fst) e2
    rw [List.map_map, List.map_map] at this
    have t1 : (Prod.fst ∘ fun y : Inputs p q G => (y.tx, y.senderPk, y.signature)) = (·.tx) := rfl
    have t2 : (Prod.fst ∘ fun y : Tx Nat G × Pair q G => (y.1, y.2.1, y.2.2.getD (0, 0))) = Prod.fst := rfl
    rw [t1, t2] at this
    rw [this]
    apply List.ext_getElem?
    intro j
    rw [List.getElem?_map, List.getElem?_take]
    split
    · next hj =>
      have h1 : s.transactions[j]? = some (s.transactions[j]'(by omega)) := List.getElem?_eq_getElem (by omega)
      have h2 : l[j]? = some l[j] := List.getElem?_eq_getElem hj
      have h3 : (s.transactions.zip l)[j]? = some (s.transactions[j]'(by omega), l[j]) :=
        List.getElem?_zip_eq_some.2 ⟨h1, h2⟩
      rw [h3, h1]; rfl
    · next hj => rw [List.getElem?_eq_none (by rw [List.length_zip]; omega)]; rfl
  have hlist : listC Tx.default (s.transactions.take l.length) = listC Tx.default s.transactions := by
    funext j
    unfold listC
    rw [List.getElem?_take]
    split
    · rfl
    · next hj =>
      cases ht : s.transactions[j]? with
      | none => rfl
      | some tx => rw [hrest j tx ht (by omega)]; rfl
  have hmem : ∀ y ∈ ins, y.tx ∈ s.transactions := fun y hy => by
    have : y.tx ∈ s.transactions.take l.length := by rw [← htx]; exact List.mem_map.2 ⟨y, hy, rfl⟩
    exact List.mem_of_mem_take this
  have hpf : ∀ (k : Nat) (y : Inputs p q G), ins[k]? = some y →
      y.txProof = sibsOf (txTreeCfg cv P.hs) (listC Tx.default (s.transactions.take k)) k := by
    intro k y hk
    have hlt : k < ins.length := (List.getElem?_eq_some_iff.1 hk).1
    have := congrArg (·[k]?) e3
    simp only [List.getElem?_map, hk, Option.map_some] at this
    rw [List.getElem?_take_of_lt (by omega), hi.proofs k (by omega)] at this
    exact Option.some.inj this
  have hkey : ∀ y ∈ ins, ∃ x ∈ s.transactions.zip l, x.1 = y.tx ∧ x.2.1 = y.senderPk := by
    intro y hy
    have : (y.tx, y.senderPk, y.signature) ∈ ins.map (fun y => (y.tx, y.senderPk, y.signature)) :=
      List.mem_map.2 ⟨y, hy, rfl⟩
    rw [e2] at this
    obtain ⟨x, hx, hxe⟩ := List.mem_map.1 this
    simp only [Prod.mk.injEq] at hxe
    exact ⟨x, hx, hxe.1, hxe.2.1⟩
  have hsmall : ∀ y ∈ ins, ∀ u ∈ y.tx.ios, u.amount < p := fun y hy u hu =>
    lt_of_lt_of_le (hu64 _ (hmem y hy) u hu) hU
  have hshape : ∀ i ∈ ins.map (CInputs.alloc (p := p) (q := q) (G := G)), Shape q i := by
    intro i hm
    obtain ⟨y, hy, rfl⟩ := List.mem_map.1 hm
    obtain ⟨s1, s2, s3⟩ := g2.shapes y hy
    obtain ⟨k, hk⟩ := List.mem_iff_getElem?.1 hy
    exact shape_alloc h.pos s1 s2 (by rw [hpf k y hk, sibsOf_length]; rfl) s3
  have hT := tx_leads h cv P.hs (s.transactions.take l.length)
    (le_trans (by rw [List.length_take]; omega) hi.txCap) ins 0 (Nat.zero_le _) (by simpa using htx)
    (fun k y hk => by
      have hlt : k < ins.length := (List.getElem?_eq_some_iff.1 hk).1
      rw [Nat.zero_add, List.take_take, Nat.min_eq_left (by omega)]; exact hpf k y hk)
  rw [List.take_zero] at hT
  have hL := g2.ledger
  have hS := g2.signer
  rw [Nat.cast_zero] at hT hS
  have eu : ∀ d : Nat → UTXO Nat G, merkleRoot (utxoCRH cv P.hs.crh) P.hs.h2 32 d =
      merkleRoot (fun l => P.hs.crh (utxoEncVar cv l)) P.hs.h2 32 (fun j => (d j).alloc p) := by
    intro d; unfold merkleRoot; simp only [utxoEncVar_alloc]; rfl
  have et : ∀ d : Nat → Tx Nat G, merkleRoot (txCRH cv P.hs.crh) P.hs.h2 13 d =
      merkleRoot (fun l => P.hs.crh (txEncVar cv l)) P.hs.h2 13 (fun j => (d j).alloc p) := by
    intro d; unfold merkleRoot; simp only [txEncVar_alloc]; rfl
  have es : ∀ d : Nat → G, merkleRoot (pkCRH cv P.hs.crh) P.hs.h2 13 d =
      merkleRoot (fun l => P.hs.crh (pkEncVar cv l)) P.hs.h2 13 d := by
    intro d; unfold merkleRoot; simp only [pkEncVar_eq]; rfl
  have hrun := run_complete h P cv (initState (merkleRoot (utxoCRH cv P.hs.crh) P.hs.h2 32 c)
        (merkleRoot (txCRH cv P.hs.crh) P.hs.h2 13 (fun _ => Tx.default)) (txRoot cv P.hs s)
        (merkleRoot (pkCRH cv P.hs.crh) P.hs.h2 13 sc)) (ins.map CInputs.alloc)
      (fun j => (c j).alloc p) (fun j => (listC Tx.default ([] : List (Tx Nat G)) j).alloc p) sc hshape
      (fun i hm => by
        obtain ⟨y, hy, rfl⟩ := List.mem_map.1 hm
        obtain ⟨x, hx, x1, x2⟩ := hkey y hy
        have := (hprop x hx).owned
        rw [x1, x2] at this
        have e : (CInputs.alloc y).tx.inputs.toList = y.tx.inputs.toList.map (UTXO.alloc p) := inputs_alloc y.tx
        rw [e]; exact ownedBy_alloc this)
      (fun i hm => by
        obtain ⟨y, hy, rfl⟩ := List.mem_map.1 hm
        have e : (CInputs.alloc y).tx.inputs.toList = y.tx.inputs.toList.map (UTXO.alloc p) := inputs_alloc y.tx
        have e' : (CInputs.alloc y).tx.outputs.toList = y.tx.outputs.toList.map (UTXO.alloc p) := outputs_alloc y.tx
        rw [e, e', totalVal_alloc _ (fun u hu _ => hsmall y hy u (by simp [Tx.ios, hu])),
          totalVal_alloc _ (fun u hu _ => hsmall y hy u (by simp [Tx.ios, hu])), hsum _ (hmem y hy)])
      (fun i hm => sigDefined_of_le h hpq cv P.hs _ i (hshape i hm).sigE)
      (fun _ => ⟨fun i hm u hu => by
        obtain ⟨y, hy, rfl⟩ := List.mem_map.1 hm
        have e' : (CInputs.alloc y).tx.outputs.toList = y.tx.outputs.toList.map (UTXO.alloc p) := outputs_alloc y.tx
        rw [e'] at hu
        obtain ⟨v, hv, rfl⟩ := List.mem_map.1 hu
        have hvm : v ∈ y.tx.ios := by simp [Tx.ios, hv]
        rw [alloc_amount (hsmall y hy v hvm)]
        exact hu64 _ (hmem y hy) v hvm, fun i hm => by
        obtain ⟨y, hy, rfl⟩ := List.mem_map.1 hm
        rw [withdrawn_alloc P (hsmall y hy) y rfl]
        exact hw _ (hmem y hy)⟩)
      ⟨eu c, hL.legal, hL.honest⟩
      ⟨by
        unfold RootOf
        rw [listC_nil]
        exact et _, hT.legal, hT.honest⟩
      ⟨es sc, hS.legal, hS.honest⟩
  refine ⟨_, by rw [e1]; exact hrun, ?_⟩
  have lS := signerList_recorded h.pos P cv (txRoot cv P.hs s) _ _ _ e2
  have lD := depositList_recorded P cv (txRoot cv P.hs s) _ _ _ e2 hsmall
  have lW := withdrawalList_recorded P cv (txRoot cv P.hs s) _ _ _ e2 hsmall hrej
  have k1 : s'.signers.map (·.getD 0) = signerList P cv (txRoot cv P.hs s) (ins.map CInputs.alloc) := by
    rw [hr.signers, hsg, lS, List.nil_append, List.drop_zero, List.map_map]
    apply List.map_congr_left
    intro y _
    simp only [Function.comp]
    split <;> rfl
  have k2 : s'.deposits = depositList P (ins.map CInputs.alloc) := by
    rw [hr.deposits, hdep, lD, List.nil_append, List.drop_zero]
  have k3 : s'.withdrawals = withdrawalList P (ins.map CInputs.alloc) := by
    rw [hr.withdrawals (Or.inr hw), hwd, lW, List.nil_append, List.drop_zero]
  have k4 : s'.signers.length = (ins.map (CInputs.alloc (p := p) (q := q) (G := G))).length := by
    rw [hr.frame.2.2.2.2.1, hsg, List.length_map, hl]; simp
  rw [k1, k2, k3, k4]
  unfold finalState CState.toList
  simp only [initState, hfull, zero_add]
  rw [hL.final, hT.final, hS.final, hlist, ← eu, ← et, ← es]
  rfl

end PF.AggC
