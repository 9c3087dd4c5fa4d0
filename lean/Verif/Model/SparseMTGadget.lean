import Verif.Model.SparseMT
import Verif.Model.Circuit

/-!
# Model of the sparse Merkle tree gadgets

`/repo/plasma-fold/src/primitives/sparsemt/constraints.rs`. `L` is the in-circuit leaf type; the
gadget configuration is the same record as the native one (`leafHash` is the gadget's leaf hash).
`assert_eq!(path.len(), HEIGHT-1)` panics during synthesis when violated; here it is a conjunct of the
relation (no satisfiable constraint system exists in that case).
-/

namespace PF.MT
open PF.Circuit
variable {L : Type} {p : Nat}

/-- Loop of `conditionally_check_membership`, constraints.rs:111-138: at each level an unconstrained
witness bit `previous_is_left`. -/
def memGadgetLoop (h2 : ZMod p → ZMod p → ZMod p) (enforce : Bool) (root : ZMod p) :
    List (ZMod p × ZMod p) → ZMod p → Prop
  | [], prev => condEq enforce root prev
  | (l, r) :: rest, prev =>
    (∃ isLeft : Bool, condEq enforce prev (select isLeft l r)) ∧
      memGadgetLoop h2 enforce root rest (h2 l r)

/-- `conditionally_check_membership`, constraints.rs:74-139. -/
def condCheckMembership (cfg : Config L (ZMod p)) (path : List (ZMod p × ZMod p)) (root : ZMod p)
    (leaf : L) (enforce : Bool) : Prop :=
  path.length = cfg.height - 1 ∧
  (∃ l r rest, path = (l, r) :: rest ∧
    ∃ leafIsLeft : Bool, condEq enforce (cfg.leafHash leaf) (select leafIsLeft l r)) ∧
  memGadgetLoop cfg.h2 enforce root path (cfg.leafHash leaf)

/-- `check_membership`, constraints.rs:52-71. -/
def checkMembership (cfg : Config L (ZMod p)) (path : List (ZMod p × ZMod p)) (root : ZMod p)
    (leaf : L) : Prop :=
  condCheckMembership cfg path root leaf true

/-- Loop of `conditionally_check_membership_with_index`, constraints.rs:187-205; `index_bits[i]` out
of bounds panics (`False`). -/
def memIdxGadgetLoop (h2 : ZMod p → ZMod p → ZMod p) (enforce : Bool) (root : ZMod p) :
    List (ZMod p × ZMod p) → List Bool → ZMod p → Prop
  | [], _, prev => condEq enforce root prev
  | _ :: _, [], _ => False
  | (l, r) :: rest, bit :: bits, prev =>
    condEq enforce prev (select (!bit) l r) ∧ memIdxGadgetLoop h2 enforce root rest bits (h2 l r)

/-- `conditionally_check_membership_with_index`, constraints.rs:164-206. -/
def condCheckMembershipIdx (cfg : Config L (ZMod p)) (path : List (ZMod p × ZMod p)) (root : ZMod p)
    (leaf : L) (index : ZMod p) (enforce : Bool) : Prop :=
  path.length = cfg.height - 1 ∧
  memIdxGadgetLoop cfg.h2 enforce root path (toBitsLe index) (cfg.leafHash leaf)

/-- `check_membership_with_index`, constraints.rs:142-161. -/
def checkMembershipIdx (cfg : Config L (ZMod p)) (path : List (ZMod p × ZMod p)) (root : ZMod p)
    (leaf : L) (index : ZMod p) : Prop :=
  condCheckMembershipIdx cfg path root leaf index true

/-- Loop of `update_root`, constraints.rs:262-282 (`zip` stops at the shorter list; the right input
is computed as `hash + neighbor - left`). -/
def updateRootLoop (h2 : ZMod p → ZMod p → ZMod p) :
    List (ZMod p) → List Bool → ZMod p → ZMod p → ZMod p × ZMod p
  | s :: rest, bit :: bits, o, n =>
    let ol := select bit s o
    let or := o + s - ol
    let nl := select bit s n
    let nr := n + s - nl
    updateRootLoop h2 rest bits (h2 ol or) (h2 nl nr)
  | _, _, o, n => (o, n)

/-- `update_root`, constraints.rs:236-284: the pair of roots (the length assertion is carried by the
callers' relations below). -/
def updateRoot (cfg : Config L (ZMod p)) (sibs : List (ZMod p)) (old new : L) (index : ZMod p) :
    ZMod p × ZMod p :=
  updateRootLoop cfg.h2 sibs (toBitsLe index) (cfg.leafHash old) (cfg.leafHash new)

/-- `conditionally_check_update`, constraints.rs:313-337. -/
def condCheckUpdate (cfg : Config L (ZMod p)) (sibs : List (ZMod p)) (oldRoot newRoot : ZMod p)
    (old new : L) (index : ZMod p) (enforce : Bool) : Prop :=
  sibs.length = cfg.height - 1 ∧
  condEq enforce oldRoot (updateRoot cfg sibs old new index).1 ∧
  condEq enforce newRoot (updateRoot cfg sibs old new index).2

/-- `check_update`, constraints.rs:287-310. -/
def checkUpdate (cfg : Config L (ZMod p)) (sibs : List (ZMod p)) (oldRoot newRoot : ZMod p)
    (old new : L) (index : ZMod p) : Prop :=
  condCheckUpdate cfg sibs oldRoot newRoot old new index true

end PF.MT
