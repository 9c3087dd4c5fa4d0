import Verif.Proof.AggregatorDemo
import Verif.Proof.AggregatorCalls

/-!
# What removes a UTXO from the aggregator; accepted transactions are valid
-/

set_option linter.unusedSectionVars false

namespace PF.Agg
open PF PF.MT PF.Spec
variable {p q : Nat} {G : Type} [AddCommGroup G] [Module (ZMod q) G] [DecidableEq G]
variable {b : Build} {cv : Curve p q G} {hs : Hashes p} {rollup : G} {r : ZMod p}

theorem Deleted.taken {us : List (UTXO Nat G)} {ds : List (ZMod p × List (ZMod p))}
    {c c' : Nat → UTXO Nat G} (h : Deleted cv hs rollup us ds c c') (j : Nat) (hj : c' j ≠ c j) :
    c j ∈ led rollup us := by
  induction us generalizing ds c with
  | nil => obtain ⟨_, rfl⟩ := h; exact absurd rfl hj
  | cons v us ih =>
    unfold Deleted at h
    by_cases hv : v.onLedger rollup = true
    · rw [if_pos hv] at h
      obtain ⟨idx, ds', h1, h2, _, h4⟩ := h
      rw [led_cons_pos hv]
      by_cases e : j = idx
      · subst e; rw [h2]; exact List.mem_cons_self
      · have hw : write c idx UTXO.dummy j = c j := by simp [write, e]
        have := ih h4 (by rw [hw]; exact hj)
        rw [hw] at this
        exact List.mem_cons_of_mem _ this
    · rw [if_neg hv] at h
      obtain ⟨ds', _, h4⟩ := h
      rw [led_cons_neg hv]
      exact ih h4 hj

theorem Step.taken {i : Nat} {x : Pair q G} {s s' : State p q G} {c c' : Nat → UTXO Nat G}
    {sc sc' : Nat → G} (h : Step b cv hs rollup r i x s c sc s' c' sc') (j : Nat) (hj : j < s.ledger.next)
    (hne : c' j ≠ c j) :
    ∃ tx, s.transactions[i]? = some tx ∧ Approves cv hs rollup r tx x = true ∧ c j ∈ tx.spends rollup := by
  cases h with
  | rej => exact absurd rfl hne
  | acc tx tp dels adds l' st c1 c2 w ht hp ha hd hadd hn hw1 hw2 =>
    rw [hadd.slots j hj] at hne
    exact ⟨tx, ht, ha, hd.taken j hne⟩

theorem Runs.taken {i : Nat} {l : List (Pair q G)} {s s' : State p q G} {c c' : Nat → UTXO Nat G}
    {sc sc' : Nat → G} (h : Runs b cv hs rollup r i l s c sc s' c' sc') (j : Nat) (hj : j < s.ledger.next)
    (hne : c' j ≠ c j) :
    ∃ k x tx, l[k]? = some x ∧ s.transactions[i + k]? = some tx ∧
      Approves cv hs rollup r tx x = true ∧ c j ∈ tx.spends rollup := by
  induction h with
  | nil => exact absurd rfl hne
  | cons i x l s s1 s2 c c1 c2 sc sc1 sc2 h1 h2 ih =>
    obtain ⟨f1, f2, f3, f4, f5, f6, f7⟩ := h1.frame
    by_cases e : c1 j = c j
    · obtain ⟨k, y, tx, k1, k2, k3, k4⟩ := ih (by omega) (by rw [e]; exact hne)
      refine ⟨k + 1, y, tx, by simpa using k1, ?_, k3, by rw [← e]; exact k4⟩
      rw [← f1, ← k2]; congr 1; omega
    · obtain ⟨tx, k1, k2, k3⟩ := h1.taken j hj e
      exact ⟨0, x, tx, rfl, k1, k2, k3⟩

/-- A slot that `process_signatures` empties was spent by an authorised transaction. -/
theorem sig_taken {s : State p q G} {c : Nat → UTXO Nat G} {sc : Nat → G} (h : Inv cv hs s c sc)
    {l : List (Pair q G)} (hf : (Op.signatures rollup l).Fits s) {s' : State p q G}
    {o : Outcome AggError Unit} (hr : processSignatures b cv hs rollup l s = (s', o)) (ho : o ≠ .panic)
    {c' : Nat → UTXO Nat G} (hc' : Represents cv hs s' c') (j : Nat) (hj : j < s.ledger.next)
    (hne : c' j ≠ c j) :
    ∃ (k : Nat) (x : Pair q G) (tx : Tx Nat G), l[k]? = some x ∧ s.transactions[k]? = some tx ∧
      Approves cv hs rollup (txRoot cv hs s) tx x = true ∧ c j ∈ tx.spends rollup := by
  rcases o with _ | e | _
  · obtain ⟨d, sd, k1, k2, _⟩ := sig_ok h hf hr
    rw [hc'.unique k2.represents] at hne
    obtain ⟨k, x, tx, h1, h2, h3⟩ := k1.taken j hj hne
    exact ⟨k, x, tx, h1, by simpa using h2, h3⟩
  · obtain ⟨done, x, rest, s1, c1, sc1, d, sd, e1, e2, e3, e4, e5, e6, e7⟩ := sig_err h hf hr
    rw [hc'.unique e7.represents] at hne
    obtain ⟨f1, f2, f3, f4, f5, f6⟩ := e5.frame
    by_cases e : c1 j = c j
    · obtain ⟨tx, us, u, vs, dels, l', st, g1, g2, g3, g4, g5⟩ := e6
      have := g4.taken j (by rw [e]; exact hne)
      refine ⟨done.length, x, tx, by rw [e1]; simp, by rw [← f1]; exact g1, g2, ?_⟩
      rw [e] at this
      unfold Tx.spends
      rw [g3, List.filter_append]
      exact List.mem_append_left _ this
    · obtain ⟨k, y, tx, h1, h2, h3⟩ := e5.taken j hj e
      refine ⟨k, y, tx, ?_, by simpa using h2, h3⟩
      rw [e1, List.getElem?_append_left (List.getElem?_eq_some_iff.1 h1).1]; exact h1
  · exact absurd rfl ho

theorem sig_transactions {s : State p q G} {c : Nat → UTXO Nat G} {sc : Nat → G} (h : Inv cv hs s c sc)
    {l : List (Pair q G)} (hf : (Op.signatures rollup l).Fits s) {s' : State p q G}
    {o : Outcome AggError Unit} (hr : processSignatures b cv hs rollup l s = (s', o)) (ho : o ≠ .panic) :
    s'.transactions = s.transactions := by
  rcases o with _ | e | _
  · obtain ⟨d, sd, k1, k2, _⟩ := sig_ok h hf hr
    exact k1.frame.1
  · obtain ⟨done, x, rest, s1, c1, sc1, d, sd, e1, e2, e3, e4, e5, e6, e7⟩ := sig_err h hf hr
    obtain ⟨tx, us, u, vs, dels, l', st, g⟩ := e6
    rw [g.2.2.2.2.2.2.2.2.2]; exact e5.frame.1
  · exact absurd rfl ho

/-- Transactions held by a reachable aggregator passed `is_valid` for some sender. -/
theorem reach_valid {s : State p q G} (h : Reach b cv hs s) :
    ∀ tx ∈ s.transactions, ∃ sender, tx.isValid b (some sender) = .ok () := by
  induction h with
  | new => intro tx h; cases h
  | call s op h hf hr ih =>
    obtain ⟨c, sc, hi⟩ := reach_inv h
    cases op with
    | newEpoch => intro tx h; cases h
    | transactions l =>
      obtain ⟨done, rest, t, prs, e1, e2, e3, o, e4, e5⟩ := processTransactions_spec (b := b) l _ hi hf
      intro tx htx
      simp only [Op.run, e4] at htx
      rcases List.mem_append.1 htx with h1 | h1
      · exact ih tx h1
      · obtain ⟨x, hx, rfl⟩ := List.mem_map.1 h1
        exact ⟨x.1, e2 x hx⟩
    | signatures rollup l =>
      rcases hres : processSignatures b cv hs rollup l s with ⟨s', o⟩
      simp only [Op.run, hres] at hr ⊢
      have ho : o ≠ .panic := by rintro rfl; exact hr rfl
      rw [sig_transactions hi hf hres ho]
      exact ih

theorem valid_owned {tx : Tx Nat G} {sender : G} (h : tx.isValid b (some sender) = .ok ()) :
    OwnedBy sender tx.inputs.toList := by
  rw [Props.C20_is_valid_decision] at h
  by_contra hc
  rw [if_pos hc] at h
  cases h

end PF.Agg
