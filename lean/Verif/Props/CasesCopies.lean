import Verif.Props.CasesEpoch
import Verif.Props.CasesOrder
import Verif.Props.Copies

/-!
# Concrete cases for C129
-/
set_option linter.unusedSectionVars false

namespace PF.CasesCopies
open PF PF.Spec PF.MT PF.AggC PF.Circuit PF.Contract PF.Agg PF.Props
open PF.Cases (F K k0 a b ha hb hab h0 ha0 hb0)
open PF.CasesEpoch (P zero_fails)

theorem gen2 : ((2 : Nat) : ZMod grumpkinQ) • (bnCurve.gen : K) = a := by
  show ((2 : Nat) : ZMod grumpkinQ) • (1 : K) = _
  rw [smul_eq_mul, mul_one]; rfl

/-- Cases for `C129_one_signature_many_payments`: three payments of 5, and as many as an epoch has room for. -/
example := @C129_one_signature_many_payments F grumpkinQ _ _ K _ _ _ grumpkinQ_fact sizes_bn254
  bn254_le .debug P rfl bnCurve ((2 : Nat) : ZMod grumpkinQ) b 5 3 (by show 2 * 3 ≤ 4096; omega) (by decide)
  (by rw [gen2]; exact ha) hb (by rw [gen2]; exact hab.symm) (zero_fails k0)
example := @C129_one_signature_many_payments F grumpkinQ _ _ K _ _ _ grumpkinQ_fact sizes_bn254
  bn254_le .debug P rfl bnCurve ((2 : Nat) : ZMod grumpkinQ) b 5 2048 (by show 2 * 2048 ≤ 4096; omega) (by decide)
  (by rw [gen2]; exact ha) hb (by rw [gen2]; exact hab.symm) (zero_fails k0)

/-- The three deposits of one epoch, each approved by the same answer. -/
theorem deposits : ∃ s1 : Agg.State F grumpkinQ K, Reach .debug bnCurve P.hs s1 ∧
    s1.transactions = List.replicate 3 (depositTx k0 a 5) ∧ (Op.signatures k0 (List.replicate 3 ((k0, none) : Pair grumpkinQ K))).Fits s1 ∧
    ∀ u, live s1 u = 0 := by
  obtain ⟨s1, -, a2, a3, -, -, a6, -, a7⟩ := listed (q := grumpkinQ) .debug bnCurve P.hs (List.replicate 3 (k0, depositTx k0 a 5))
    (by simp [TX_CAP]) (by intro x hx; rw [List.eq_of_mem_replicate hx]; exact depositTx_valid .debug k0 a 5 (by decide))
  exact ⟨s1, a2, by rw [a3, List.map_replicate], a7 k0 _ (by simp), a6⟩

/-- Case for `C129_all_copies` and `C129_same_verdict`: the three copies are executed with one and the same answer, each
recorded under the contract's key, and the user holds three UTXOs of 5. -/
example : ∃ s1 s2 : Agg.State F grumpkinQ K,
    processSignatures .debug bnCurve P.hs k0 (List.replicate 3 (k0, none)) s1 = (s2, .ok ()) ∧
    live s2 (UTXO.new a 5) = 3 ∧ s2.signers[s1.signers.length + 0]? = s2.signers[s1.signers.length + 2]? := by
  obtain ⟨s1, r1, t1, f1, l1⟩ := deposits
  have hsp : (depositTx k0 a 5).spends k0 = [] := depositTx_spends k0 a 5
  have hcr : (depositTx k0 a 5).creates k0 = [UTXO.new a 5] := Agg.depositTx_creates ha 5
  have hw : (depositTx k0 a 5).withdrawn k0 = 0 := Agg.depositTx_withdrawn ha 5
  obtain ⟨h1, h2⟩ := C129_all_copies .debug bnCurve P.hs s1 r1 k0 (depositTx k0 a 5) 3 (by omega) t1 (k0, none)
    (by simp [Approves]) f1 (by rw [hsp]; simp)
  have hok := h1.2 ⟨fun u => by rw [hsp]; simp, fun _ => by rw [hw]; decide⟩
  refine ⟨s1, _, Prod.ext rfl hok, ?_, (C129_same_verdict .debug bnCurve P.hs s1 _ r1 k0 _ f1 (Prod.ext rfl hok) 0 2
    (depositTx k0 a 5) (k0, none) (by rw [t1]; rfl) (by rw [t1]; rfl) rfl rfl).1⟩
  have := h2 hok (UTXO.new a 5) rfl
  rw [hsp, hcr, l1] at this
  simpa using this

end PF.CasesCopies
