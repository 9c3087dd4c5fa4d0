import Verif.Props.ProgramMeaning
import Verif.Props.ClientClaims

/-!
# C120, client: what any values assigned to the variables of the client's program can claim
-/

set_option linter.unusedSectionVars false

namespace PF.Props
open PF PF.Spec PF.AggC PF.Contract PF.Client
open PF.Prog (Emits Lib Assignment Satisfies Folded ForClient)

variable {p q : Nat} {G : Type} [AddCommGroup G] [Module (ZMod q) G] [DecidableEq G]

/-- **C120** (claims of a client): whatever values a prover assigns, if its run of the program of the set-up ends with
the accumulator that stands for the published blocks `bs`, it took one step per block, heights never decrease, and
balance and nonce changed by those of a selection of at most `n` countable transactions per block; or a hash function is
broken on explicit inputs. -/
theorem C120_client_claims (h : FieldOk p) (hs : Hashes p) (A : Prog.AccKind) (cv : Curve p q G) (L : Lib p q G)
    (hL : ForClient L hs A cv) (n : Nat) (z0 : UState p) (prog : List (Prog.Instr p G)) (out : List (Prog.Ref (ZMod p)))
    (hp : Emits Prog.UStateW.refs (Prog.clientStep hs A cv n z0 (UserAux.default p G n).alloc) prog out)
    (k : G) (z z' : UState p) (es : List (Assignment p G)) (hrun : Folded L prog 7 out es z.toList z'.toList)
    (hk : z.pkHash = hs.crh (pkEncVar cv k)) (bs : List (Published p G)) (hl : ∀ b ∈ bs, b.Lists cv hs)
    (hacc : z'.acc = accOf (A.params hs) z.acc bs) :
    (es.length = bs.length ∧ Rising z.prevBlockNumber bs ∧ ∃ sel, Selection cv hs n bs sel ∧
      z'.balance = z.balance + ((selected bs sel).map (delta k)).sum ∧
      (k ≠ 0 → z'.nonce = z.nonce + (signedBy k (selected bs sel) : Nat))) ∨
    ∃ as : List (UserAuxVar p G), as.length = es.length ∧ ClaimBreak (A.params hs) cv k z.acc as bs := by
  obtain ⟨as, h1, h2⟩ := (C120_client_folded h hs A cv L hL n es.length z0 prog out hp z z').1 ⟨es, rfl, hrun⟩
  rcases C111_claims h (A.params hs) cv n k z z' as h2 hk bs hl hacc with ⟨g1, g2, g3⟩ | g
  · exact Or.inl ⟨h1 ▸ g1, g2, g3⟩
  · exact Or.inr ⟨as, h1, g⟩

/-- **C120** (claims of a client, all of them possible): for every selection of at most `n` countable positions per
block, in any order and with any repetitions, some values for the variables of the program make it the claim. -/
theorem C120_client_every_selection (h : FieldOk p) (hs : Hashes p) (A : Prog.AccKind) (cv : Curve p q G) (L : Lib p q G)
    (hL : ForClient L hs A cv) (n : Nat) (z0 : UState p) (prog : List (Prog.Instr p G)) (out : List (Prog.Ref (ZMod p)))
    (hp : Emits Prog.UStateW.refs (Prog.clientStep hs A cv n z0 (UserAux.default p G n).alloc) prog out)
    (k : G) (hk0 : k ≠ 0) (z : UState p) (hk : z.pkHash = hs.crh (pkEncVar cv k)) (hz0 : z.prevTxIndex = 0)
    (bs : List (Published p G)) (hl : ∀ b ∈ bs, b.Lists cv hs) (hr : Rising z.prevBlockNumber bs)
    (hsize : CAP * (bs.length * (n + 1)) ≤ (p - 1) / 2) (sel : List (List Nat)) (hsel : Selection cv hs n bs sel) :
    ∃ (es : List (Assignment p G)) (z' : UState p), Folded L prog 7 out es z.toList z'.toList ∧
      z'.acc = accOf (A.params hs) z.acc bs ∧ z'.balance = z.balance + ((selected bs sel).map (delta k)).sum ∧
      z'.nonce = z.nonce + (signedBy k (selected bs sel) : Nat) ∧ z'.pkHash = z.pkHash := by
  obtain ⟨as, z', h1, -, h3, h4, h5, h6⟩ :=
    C111_every_selection h (A.params hs) cv n k hk0 z hk hz0 bs hl hr hsize sel hsel
  obtain ⟨es, -, g⟩ := (C120_client_folded h hs A cv L hL n as.length z0 prog out hp z z').2 ⟨as, rfl, h1⟩
  exact ⟨es, z', g, h3, h4, h5, h6⟩

end PF.Props
