import Verif.Spec.Contract

/-!
# Acceptable sequences of L1 calls, contracts that cannot be told apart
-/

namespace PF.Contract
open PF
variable {G : Type} [DecidableEq G]

/-- Every deposit comes from an account that has joined before; account 0 is the contract's own. -/
def JoinsFirst (cs : List (Call G)) : Prop :=
  ∀ pre i a, pre ++ [Call.deposit i a] <+: cs → 0 < i ∧ i ≤ (joinedBalances pre).length

/-- No account deposits more than it joined with. -/
def Covered (cs : List (Call G)) : Prop :=
  ∀ i bal, 0 < i → (0 :: joinedBalances cs)[i]? = some bal → depositedBy cs i ≤ bal

/-- What can be observed of the contract: the keys, the latest account of each key, balances, nonces, pending deposits. -/
def SameContract (s s' : State G) : Prop :=
  s.pks = s'.pks ∧ (∀ pk, s.pkIndices.get pk = s'.pkIndices.get pk) ∧ s.accounts = s'.accounts ∧ s.nonces = s'.nonces ∧
  ∀ pk, s.deposits.get pk = s'.deposits.get pk

end PF.Contract
