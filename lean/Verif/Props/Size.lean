import Verif.Props.Program
import Verif.Proof.ProgramBill

/-!
# The size of the step circuits is a fixed part plus a fixed part per transaction
-/
set_option linter.unusedSectionVars false

namespace PF.Props
open PF PF.Circuit PF.AggC
open PF.Prog (Emits Instr rep calls)
open PF.Wit (Shaped UserShaped)

variable {p q : Nat} [Fact p.Prime] [NeZero q] {G : Type} [AddCommGroup G] [Module (ZMod q) G] [DecidableEq G]

/-- **C127** (aggregator): the shape of the program of a batch of any size is: eight allocations, then one and the same part per
transaction (its inputs), then one and the same part per transaction (its processing). -/
theorem C127_aggregator_layout (h : Sizes p q) (P : Params p G) (cv : Curve p q G) :
    ∃ alloc step : List (Instr p G), ∀ (z : CState p) (is : List (CInputs p G)) (prog out),
      Emits Prog.StateW.refs (Prog.aggregatorStep P cv z is) prog out →
      prog.map Instr.shape = rep 8 [⟨.allocField, [], 1⟩] ++ rep is.length alloc ++ rep is.length step := by
  have hmain := C119_aggregator_program h P cv
  have hd : Prog.aggregatorStep P cv ⟨0, 0, 0, 0, 0, 0, 0, 0⟩ [CInputs.alloc (Wit.defaultInputs p q G)] 0 ≠ none := by
    obtain ⟨prog, out, hp⟩ := hmain 1
    intro e
    refine ((hp _ _ rfl).2.1 e) ?_
    intro i hi
    rw [List.mem_singleton.1 hi]
    exact default_shaped
  obtain ⟨alloc, step, hr⟩ := Prog.aggregatorStep_rep P cv _ _ hd
  refine ⟨alloc, step, fun z is prog out he => ?_⟩
  have hs : ∀ i ∈ is, Shaped q i := by
    obtain ⟨prog', out', hp⟩ := hmain is.length
    by_contra hc
    have := (hp z is rfl).2.2 hc
    obtain ⟨a, o, e, -, -⟩ := he
    rw [this] at e
    cases e
  obtain ⟨a, o, e1, e2⟩ := hr z is fun i hi => by
    rw [lens_of_shaped (hs i hi), lens_of_shaped default_shaped]
  obtain ⟨a', o', e3, e4, -⟩ := he
  rw [e1] at e3
  cases e3
  rw [← e4, ← e2, List.map_map]
  rfl

theorem sum_rep (f : Instr p G → Nat) (n : Nat) (l : List (Instr p G)) : ((rep n l).map f).sum = n * (l.map f).sum := by
  induction n with
  | zero => simp [rep]
  | succ n ih => rw [Prog.rep_succ, List.map_append, List.sum_append, ih, Nat.add_one_mul, Nat.add_comm]

theorem sum_shape {f : Instr p G → Nat} (hf : ∀ i, f i.shape = f i) (l : List (Instr p G)) :
    (l.map f).sum = ((l.map Instr.shape).map f).sum := by
  rw [List.map_map]
  congr 1
  exact List.map_congr_left fun i _ => (hf i).symm

/-- **C127** (aggregator, sizes): any measure to which a gadget call contributes an amount that does not depend on the numbers of its variables is
affine in the batch size, with eight allocations as the constant part. -/
theorem C127_aggregator_size (h : Sizes p q) (P : Params p G) (cv : Curve p q G) (size : Instr p G → Nat)
    (hsize : ∀ i, size i.shape = size i) :
    ∃ per, ∀ (z : CState p) (is : List (CInputs p G)) (prog out),
      Emits Prog.StateW.refs (Prog.aggregatorStep P cv z is) prog out →
      (prog.map size).sum = 8 * size ⟨.allocField, [], 1⟩ + is.length * per := by
  obtain ⟨alloc, step, hl⟩ := C127_aggregator_layout h P cv
  refine ⟨(alloc.map size).sum + (step.map size).sum, fun z is prog out he => ?_⟩
  rw [sum_shape hsize, hl z is prog out he]
  simp only [List.map_append, List.sum_append, sum_rep, List.map_cons, List.map_nil, List.sum_cons, List.sum_nil, Nat.add_zero]
  rw [Nat.mul_add, Nat.add_assoc]

theorem modBits_ge (hp : 2 ^ 67 ≤ p) : UTXO_TREE_HEIGHT - 1 ≤ modBits p := by
  unfold modBits
  exact le_trans (by decide) (Nat.lt_size.2 hp).le

theorem calls_of_costs {α : Type} {vars : α → List (Prog.Ref (ZMod p))} {m : Prog.Tr p G α} {prog out} (he : Emits vars m prog out)
    (g : Prog.Gadget) {k : Nat} (hc : Prog.Costs (fun g' => if g' = g then 1 else 0) m k) : calls g prog = k := by
  obtain ⟨a, o, e1, e2, -⟩ := he
  rw [← hc _ _ _ e1, ← e2, calls, Prog.weigh]
  generalize o.log = l
  induction l with
  | nil => rfl
  | cons e l ih =>
    rw [List.map_cons, List.filter_cons, List.map_cons, List.sum_cons, ← ih]
    by_cases hg : e.gadget = g
    · simp only [Prog.Entry.instr, hg, decide_true, if_true, List.length_cons]
      omega
    · simp [Prog.Entry.instr, hg]

theorem heavy_one {g : Prog.Gadget} (hg : g = .hash ∨ g = .twoToOne ∨ g = .sha ∨ g = .scalarMul ∨ g = .pointAdd ∨ g = .condEnforceEq) :
    Prog.Heavy fun g' => if g' = g then 1 else 0 := by
  intro x h1 h2 h3 h4 h5 h6
  refine if_neg ?_
  rintro rfl
  rcases hg with e | e | e | e | e | e <;> contradiction

/-- **C127** (aggregator, exact bill): each transaction costs 21 sponge hashes, 544 two-to-one hashes, two scalar multiplications, one point
addition, 13 conditional equality constraints and one SHA-256 hash in transfer-only mode, six in full mode; there is nothing else of these, whatever
the batch. -/
theorem C127_aggregator_calls (h : Sizes p q) (P : Params p G) (cv : Curve p q G) (z : CState p) (is : List (CInputs p G))
    (prog out) (he : Emits Prog.StateW.refs (Prog.aggregatorStep P cv z is) prog out) :
    calls .hash prog = is.length * 21 ∧ calls .twoToOne prog = is.length * 544 ∧ calls .scalarMul prog = is.length * 2 ∧
    calls .pointAdd prog = is.length ∧ calls .condEnforceEq prog = is.length * 13 ∧
    calls .sha prog = is.length * (if P.transferOnly then 1 else 6) := by
  have key := fun g hg => calls_of_costs he g (Prog.costs_aggregatorStep (heavy_one hg) (modBits_ge h.large) P cv z is)
  refine ⟨?_, ?_, ?_, ?_, ?_, ?_⟩
  · rw [key .hash (by simp)]; simp [Prog.txBill, Prog.shaBill]
  · rw [key .twoToOne (by simp)]; simp [Prog.txBill, Prog.shaBill]
  · rw [key .scalarMul (by simp)]; simp [Prog.txBill, Prog.shaBill]
  · rw [key .pointAdd (by simp)]; simp [Prog.txBill, Prog.shaBill]
  · rw [key .condEnforceEq (by simp)]; simp [Prog.txBill, Prog.shaBill]
  · rw [key .sha (by simp)]
    cases ht : P.transferOnly <;> simp [Prog.txBill, Prog.shaBill, ht]

/-! ## Client -/

theorem default_userShaped (n : Nat) : UserShaped n (Client.UserAux.default p G n).alloc := by
  refine ⟨?_, List.length_replicate .., List.length_replicate .., ?_, ?_⟩
  · simp [Client.UserAux.alloc, Client.UserAux.default]
  · intro x hx
    rw [List.eq_of_mem_replicate hx]
    exact List.length_replicate ..
  · intro x hx
    rw [List.eq_of_mem_replicate hx]
    exact List.length_replicate ..

/-- **C127** (client): the shape of the program of a step for `n` transactions is made of fixed parts and of parts repeated `n` times
that do not depend on `n`: seven allocations, transaction paths, signer paths, block, transactions, key, a fixed part, and the loop. -/
theorem C127_client_layout (h : Client.FieldOk p) (hs : Hashes p) (A : Prog.AccKind) (cv : Curve p q G) :
    ∃ txPath signerPath tx fixed body : List (Instr p G), ∀ (n : Nat) (z : Client.UState p) (a : Client.UserAuxVar p G) (prog out),
      Emits Prog.UStateW.refs (Prog.clientStep hs A cv n z a) prog out →
      prog.map Instr.shape = rep 7 [⟨.allocField, [], 1⟩] ++ (rep n txPath ++ rep n signerPath ++ rep 4 [⟨.allocField, [], 1⟩] ++
        rep n tx ++ [⟨.allocPoint, [], 1⟩]) ++ (fixed ++ rep n body) := by
  have hmain := C119_client_program h hs A cv
  have hu : ∀ {n z a}, UserShaped n a → Prog.clientStep hs A cv n z a 0 ≠ none := by
    intro n z a hsh e
    obtain ⟨prog, out, hp⟩ := hmain n
    exact (hp z a).2.1 e hsh
  obtain ⟨a0, hd⟩ : ∃ a0 : Client.UserAuxVar p G, UserShaped 1 a0 := ⟨_, default_userShaped 1⟩
  obtain ⟨p1, p2, p3, fixed, body, hr⟩ := Prog.clientStep_rep hs A cv ⟨0, 0, 0, 0, 0, 0, 0⟩ a0 (hu hd) (TX_TREE_HEIGHT - 1) (SIGNER_TREE_HEIGHT - 1) hd.txs hd.txProofs
    hd.signerProofs hd.txPaths hd.signerPaths
  refine ⟨p1, p2, p3, fixed, body, fun n z a prog out he => ?_⟩
  have hsh : UserShaped n a := by
    obtain ⟨prog', out', hp⟩ := hmain n
    by_contra hc
    have := (hp z a).2.2 hc
    obtain ⟨a', o, e, -, -⟩ := he
    rw [this] at e
    cases e
  obtain ⟨r, o, e1, e2⟩ := hr z a n hsh.txs hsh.txProofs hsh.signerProofs hsh.txPaths hsh.signerPaths
  obtain ⟨a', o', e3, e4, -⟩ := he
  rw [e1] at e3
  cases e3
  rw [← e4, ← e2, List.map_map]
  rfl

/-- **C127** (client, sizes): any such measure is affine in the number of transactions per step. -/
theorem C127_client_size (h : Client.FieldOk p) (hs : Hashes p) (A : Prog.AccKind) (cv : Curve p q G) (size : Instr p G → Nat)
    (hsize : ∀ i, size i.shape = size i) :
    ∃ fixed per, ∀ (n : Nat) (z : Client.UState p) (a : Client.UserAuxVar p G) (prog out),
      Emits Prog.UStateW.refs (Prog.clientStep hs A cv n z a) prog out → (prog.map size).sum = fixed + n * per := by
  obtain ⟨p1, p2, p3, fixed, body, hl⟩ := C127_client_layout h hs A cv
  refine ⟨11 * size ⟨.allocField, [], 1⟩ + size ⟨.allocPoint, [], 1⟩ + (fixed.map size).sum,
    (p1.map size).sum + (p2.map size).sum + (p3.map size).sum + (body.map size).sum, fun n z a prog out he => ?_⟩
  rw [sum_shape hsize, hl n z a prog out he]
  simp only [List.map_append, List.sum_append, sum_rep, List.map_cons, List.map_nil, List.sum_cons, List.sum_nil, Nat.add_zero]
  ring

/-- **C127** (client, exact bill): a step for `n` transactions costs two sponge hashes and one call of the accumulator, and for each transaction, padding
included, three sponge hashes, 24 two-to-one hashes and 28 conditional equality constraints; no scalar multiplications. -/
theorem C127_client_calls (hs : Hashes p) (A : Prog.AccKind) (cv : Curve p q G) (n : Nat) (z : Client.UState p)
    (a : Client.UserAuxVar p G) (prog out) (he : Emits Prog.UStateW.refs (Prog.clientStep hs A cv n z a) prog out) :
    calls .hash prog = 2 + n * 3 ∧
    calls .twoToOne prog = (if A.isSha then 0 else 1) + n * 24 ∧
    calls .sha prog = (if A.isSha then 1 else 0) ∧
    calls .condEnforceEq prog = n * 28 ∧ calls .scalarMul prog = 0 ∧ calls .pointAdd prog = 0 := by
  have key := fun g hg => calls_of_costs he g (Prog.costs_clientStep (heavy_one hg) hs A cv n z a)
  refine ⟨?_, ?_, ?_, ?_, ?_, ?_⟩
  · rw [key .hash (by simp)]; cases A <;> simp [Prog.userTxBill, Prog.accBill, Prog.AccKind.isSha]
  · rw [key .twoToOne (by simp)]; cases A <;> simp [Prog.userTxBill, Prog.accBill, Prog.AccKind.isSha]
  · rw [key .sha (by simp)]; cases A <;> simp [Prog.userTxBill, Prog.accBill, Prog.AccKind.isSha]
  · rw [key .condEnforceEq (by simp)]; cases A <;> simp [Prog.userTxBill, Prog.accBill, Prog.AccKind.isSha]
  · rw [key .scalarMul (by simp)]; cases A <;> simp [Prog.userTxBill, Prog.accBill, Prog.AccKind.isSha]
  · rw [key .pointAdd (by simp)]; cases A <;> simp [Prog.userTxBill, Prog.accBill, Prog.AccKind.isSha]

end PF.Props
