/-!
# Basic vocabulary shared by all models

`Outcome`: result of a Rust call that may return `Err` or panic.
`Build`: debug (overflow checks) or release (wrapping) arithmetic.
`BMap`: `std::collections::BTreeMap<u64, _>` as a key-sorted association list.
-/

namespace PF

/-- Result of a fallible Rust call: `Ok`, `Err`, or a panic (unwinding). -/
inductive Outcome (ε α : Type) where
  | ok (a : α)
  | err (e : ε)
  | panic
deriving DecidableEq, Repr

namespace Outcome
variable {ε α β : Type}

/-- Sequencing (`?` on `Result`, unwinding on panic).
E.g. sparsemt/mod.rs:272-545. -/
def bind (x : Outcome ε α) (f : α → Outcome ε β) : Outcome ε β :=
  match x with
  | ok a => f a
  | err e => err e
  | panic => panic

instance : Monad (Outcome ε) where
  pure := ok
  bind := bind

@[simp] theorem bind_ok (a : α) (f : α → Outcome ε β) : (ok a >>= f) = f a := rfl
@[simp] theorem bind_err (e : ε) (f : α → Outcome ε β) : (err e >>= f) = err e := rfl
@[simp] theorem bind_panic (f : α → Outcome ε β) : ((panic : Outcome ε α) >>= f) = panic := rfl
@[simp] theorem pure_eq (a : α) : (pure a : Outcome ε α) = ok a := rfl

/-- `Option::unwrap`.
Library function, used throughout, e.g. aggregator/src/lib.rs:86-111, sparsemt/mod.rs:272-362. -/
def unwrap : Option α → Outcome ε α
  | some a => ok a
  | none => panic

@[simp] theorem unwrap_some (a : α) : (unwrap (some a) : Outcome ε α) = ok a := rfl
@[simp] theorem unwrap_none : (unwrap (none : Option α) : Outcome ε α) = panic := rfl

end Outcome

/-- A `&mut self` method: it returns the state it leaves behind together with its outcome, also when
it fails.
E.g. aggregator/src/lib.rs:74-225. -/
abbrev SM (σ ε α : Type) := σ → σ × Outcome ε α

namespace SM
variable {σ ε α β : Type}

/-- Return without touching the state.
E.g. aggregator/src/lib.rs:113-225. -/
def pure (a : α) : SM σ ε α := fun s => (s, .ok a)

/-- Sequencing: a failure keeps the state reached so far.
E.g. aggregator/src/lib.rs:113-225. -/
def bind (m : SM σ ε α) (f : α → SM σ ε β) : SM σ ε β := fun s =>
  match m s with
  | (s', .ok a) => f a s'
  | (s', .err e) => (s', .err e)
  | (s', .panic) => (s', .panic)

theorem bind_of_ok {m : SM σ ε α} {s s' : σ} {a : α} (h : m s = (s', .ok a)) (f : α → SM σ ε β) :
    bind m f s = f a s' := by simp only [bind, h]

theorem bind_of_err {m : SM σ ε α} {s s' : σ} {e : ε} (h : m s = (s', .err e)) (f : α → SM σ ε β) :
    bind m f s = (s', .err e) := by simp only [bind, h]

theorem bind_of_panic {m : SM σ ε α} {s s' : σ} (h : m s = (s', .panic)) (f : α → SM σ ε β) :
    bind m f s = (s', .panic) := by simp only [bind, h]

theorem bind_of_panic_snd {m : SM σ ε α} {s : σ} (h : (m s).2 = .panic) (f : α → SM σ ε β) :
    bind m f s = ((m s).1, .panic) := by
  have : m s = ((m s).1, .panic) := by rw [← h]
  exact bind_of_panic this f

end SM

/-- Cargo profile: `debug` panics on integer overflow, `release` wraps.
/repo/Cargo.toml sets no profile, so these are the defaults of Cargo. -/
inductive Build where
  | debug
  | release
deriving DecidableEq, Repr

/-- 2^64, the size of the `u64` type.
E.g. transaction/mod.rs:97-105, user/mod.rs:50-70. -/
def U64 : Nat := 2 ^ 64

/-- `u64` addition under the given profile.
E.g. transaction/mod.rs:97-105, user/mod.rs:63-66. -/
def addU64 {ε : Type} (b : Build) (x y : Nat) : Outcome ε Nat :=
  if x + y < U64 then .ok (x + y)
  else match b with
    | .debug => .panic
    | .release => .ok ((x + y) % U64)

/-- `u64` subtraction under the given profile.
E.g. user/mod.rs:56-59. -/
def subU64 {ε : Type} (b : Build) (x y : Nat) : Outcome ε Nat :=
  if y ≤ x then .ok (x - y)
  else match b with
    | .debug => .panic
    | .release => .ok ((x + U64 - y) % U64)

/-- Association list sorted by key: model of `BTreeMap<u64, V>`.
Library type, used at sparsemt/mod.rs:52, 275, 283. -/
abbrev BMap (V : Type) := List (Nat × V)

namespace BMap
variable {V : Type}

/-- `BTreeMap::get`.
Library function, used in sparsemt/mod.rs:283-545. -/
def get : BMap V → Nat → Option V
  | [], _ => none
  | (k', v) :: t, k => if k = k' then some v else get t k

/-- `BTreeMap::insert` (replaces an existing value).
Library function, used in sparsemt/mod.rs:283-545. -/
def insert (k : Nat) (v : V) : BMap V → BMap V
  | [] => [(k, v)]
  | (k', v') :: t =>
    if k < k' then (k, v) :: (k', v') :: t
    else if k = k' then (k, v) :: t
    else (k', v') :: insert k v t

/-- `BTreeMap::keys`.
Library function, used in sparsemt/mod.rs:283-300. -/
def keys (m : BMap V) : List Nat := m.map (·.1)

theorem get_insert (m : BMap V) (k k' : Nat) (v : V) :
    get (insert k v m) k' = if k' = k then some v else get m k' := by
  induction m with
  | nil => simp [insert, get]
  | cons e t ih =>
    obtain ⟨k₀, v₀⟩ := e
    unfold insert
    split
    · simp [get]
    · split
      · subst_vars; simp only [get]; split <;> simp_all
      · simp only [get, ih]
        split
        · subst_vars; simp_all [eq_comm]
        · rfl

@[simp] theorem get_insert_self (m : BMap V) (k : Nat) (v : V) :
    get (insert k v m) k = some v := by simp [get_insert]

theorem mem_keys_insert (m : BMap V) (k k' : Nat) (v : V) :
    k' ∈ keys (insert k v m) ↔ k' = k ∨ k' ∈ keys m := by
  induction m with
  | nil => simp [insert, keys]
  | cons e t ih =>
    obtain ⟨k₀, v₀⟩ := e
    unfold insert
    simp only [keys] at ih ⊢
    split
    · simp
    · split
      · subst_vars; simp
      · simp only [List.map_cons, List.mem_cons, ih]
        constructor
        · rintro (h | h | h) <;> simp [h]
        · rintro (h | h | h) <;> simp [h]

theorem mem_keys_iff (m : BMap V) (k : Nat) : k ∈ keys m ↔ ∃ v, get m k = some v := by
  induction m with
  | nil => simp [keys, get]
  | cons e t ih =>
    obtain ⟨k₀, v₀⟩ := e
    simp only [keys, List.map_cons, List.mem_cons, get] at ih ⊢
    by_cases h : k = k₀
    · simp [h]
    · simp [h, ih]

theorem get_eq_none_iff (m : BMap V) (k : Nat) : get m k = none ↔ k ∉ keys m := by
  rw [mem_keys_iff]
  cases get m k <;> simp

end BMap

/-- `BTreeSet<u64>` as a sorted list without duplicates; `insert`.
sparsemt/mod.rs:300, 484. -/
def bsetInsert (k : Nat) : List Nat → List Nat
  | [] => [k]
  | k' :: t => if k < k' then k :: k' :: t else if k = k' then k' :: t else k' :: bsetInsert k t

theorem mem_bsetInsert (k k' : Nat) (s : List Nat) :
    k' ∈ bsetInsert k s ↔ k' = k ∨ k' ∈ s := by
  induction s with
  | nil => simp [bsetInsert]
  | cons a t ih =>
    unfold bsetInsert
    split
    · simp
    · split
      · subst_vars; simp
      · simp only [List.mem_cons, ih]
        constructor
        · rintro (h | h | h) <;> simp [h]
        · rintro (h | h | h) <;> simp [h]

/-- Collect a list of keys into a `BTreeSet`.
sparsemt/mod.rs:300, 484. -/
def bsetOf (l : List Nat) : List Nat := l.foldl (fun s k => bsetInsert k s) []

theorem mem_foldl_bsetInsert (l s : List Nat) (k : Nat) :
    k ∈ l.foldl (fun s k => bsetInsert k s) s ↔ k ∈ s ∨ k ∈ l := by
  induction l generalizing s with
  | nil => simp
  | cons a t ih =>
    simp only [List.foldl_cons, ih, mem_bsetInsert, List.mem_cons]
    constructor
    · rintro ((h | h) | h) <;> simp [h]
    · rintro (h | h | h) <;> simp [h]

theorem mem_bsetOf (l : List Nat) (k : Nat) : k ∈ bsetOf l ↔ k ∈ l := by
  simp [bsetOf, mem_foldl_bsetInsert]

end PF
