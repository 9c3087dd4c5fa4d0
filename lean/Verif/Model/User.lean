import Verif.Model.Schnorr

/-!
# The user handle: creation, signing, in-circuit state

`/repo/plasma-fold/src/datastructures/user/mod.rs`, `user/constraints.rs`; spending and receiving are in
`Model/Data`.
-/

namespace PF
variable {p q : Nat} {G : Type} [AddCommGroup G] [Module (ZMod q) G]

/-- user/mod.rs:37-45 `User::new` with sampled secret `sk` (`acc` is kept apart, see `User.stateVar`). -/
def User.new (cv : Curve p q G) (sk : ZMod q) (id : Nat) : User (ZMod q) G where
  sk := (Schnorr.keyGen cv sk).1
  pk := (Schnorr.keyGen cv sk).2
  balance := 0
  nonce := 0
  id := id

/-- user/mod.rs:68-79 `sample_user` with sampled secret, id and nonce. -/
def User.sample (cv : Curve p q G) (sk : ZMod q) (id nonce : Nat) : User (ZMod q) G :=
  { User.new cv sk id with nonce := nonce }

/-- user/mod.rs:46-53 `User::sign`, keypair/mod.rs:20-32 `SecretKey::sign`. -/
def User.sign (cv : Curve p q G) (H : List (ZMod p) → ZMod p) (u : User (ZMod q) G) (m : List (ZMod p))
    (ks : List (ZMod q)) : Outcome Unit (Option (ZMod q × ZMod q)) := Schnorr.sign cv H u.sk m ks

/-- user/constraints.rs:12-30 allocation of `UserVar`: balance, nonce, accumulator, in the scalar field. -/
def User.stateVar (u : User (ZMod q) G) (acc : ZMod q) : List (ZMod q) :=
  [(u.balance : ZMod q), (u.nonce : ZMod q), acc]

end PF
