/-!
# Results that may also panic

Rust's `Result<T, E>` with panics made explicit: `unwrap`, `expect`, `assert!` and out-of-range indexing
produce `panic` in the model exactly where the code would panic.
-/

namespace Verif

inductive Res (ε α : Type) where
  | ok (a : α)
  | err (e : ε)
  | panic
deriving DecidableEq, Repr

namespace Res

variable {ε ε' α β : Type}

def bind (x : Res ε α) (f : α → Res ε β) : Res ε β :=
  match x with
  | ok a => f a
  | err e => err e
  | panic => panic

instance : Monad (Res ε) where
  pure := ok
  bind := bind

@[simp] theorem pure_def (a : α) : (Pure.pure a : Res ε α) = ok a := rfl
@[simp] theorem bind_ok (a : α) (f : α → Res ε β) : ((ok a : Res ε α) >>= f) = f a := rfl
@[simp] theorem bind_err (e : ε) (f : α → Res ε β) : ((err e : Res ε α) >>= f) = err e := rfl
@[simp] theorem bind_panic (f : α → Res ε β) : ((panic : Res ε α) >>= f) = panic := rfl

/-- `Result::map_err`. -/
def mapErr (f : ε → ε') : Res ε α → Res ε' α
  | ok a => ok a
  | err e => err (f e)
  | panic => panic

@[simp] theorem mapErr_ok (f : ε → ε') (a : α) : (ok a : Res ε α).mapErr f = ok a := rfl
@[simp] theorem mapErr_err (f : ε → ε') (e : ε) : (err e : Res ε α).mapErr f = err (f e) := rfl
@[simp] theorem mapErr_panic (f : ε → ε') : (panic : Res ε α).mapErr f = panic := rfl

/-- `Option::ok_or`. -/
def okOr (o : Option α) (e : ε) : Res ε α :=
  match o with
  | some a => ok a
  | none => err e

@[simp] theorem okOr_some (a : α) (e : ε) : okOr (some a) e = ok a := rfl
@[simp] theorem okOr_none (e : ε) : okOr (none : Option α) e = err e := rfl

/-- `Option::unwrap` / `Option::expect`. -/
def unwrap (o : Option α) : Res ε α :=
  match o with
  | some a => ok a
  | none => panic

@[simp] theorem unwrap_some (a : α) : (unwrap (some a) : Res ε α) = ok a := rfl
@[simp] theorem unwrap_none : (unwrap (none : Option α) : Res ε α) = panic := rfl

/-- `Result::unwrap`: an error becomes a panic. -/
def unwrapRes : Res ε α → Res ε' α
  | ok a => ok a
  | err _ => panic
  | panic => panic

@[simp] theorem unwrapRes_ok (a : α) : (unwrapRes (ok a : Res ε α) : Res ε' α) = ok a := rfl
@[simp] theorem unwrapRes_err (e : ε) : (unwrapRes (err e : Res ε α) : Res ε' α) = panic := rfl
@[simp] theorem unwrapRes_panic : (unwrapRes (panic : Res ε α) : Res ε' α) = panic := rfl

/-- `assert!`. -/
def assert (c : Bool) : Res ε Unit := if c then ok () else panic

@[simp] theorem assert_true : (assert true : Res ε Unit) = ok () := rfl
@[simp] theorem assert_false : (assert false : Res ε Unit) = panic := rfl

def isOk : Res ε α → Bool
  | ok _ => true
  | _ => false

@[simp] theorem isOk_ok (a : α) : (ok a : Res ε α).isOk = true := rfl
@[simp] theorem isOk_err (e : ε) : (err e : Res ε α).isOk = false := rfl
@[simp] theorem isOk_panic : (panic : Res ε α).isOk = false := rfl

theorem bind_eq_ok {x : Res ε α} {f : α → Res ε β} {b : β} :
    (x >>= f) = ok b ↔ ∃ a, x = ok a ∧ f a = ok b := by
  cases x <;> simp

theorem bind_eq_err {x : Res ε α} {f : α → Res ε β} {e : ε} :
    (x >>= f) = err e ↔ x = err e ∨ ∃ a, x = ok a ∧ f a = err e := by
  cases x <;> simp

theorem bind_eq_panic {x : Res ε α} {f : α → Res ε β} :
    (x >>= f) = panic ↔ x = panic ∨ ∃ a, x = ok a ∧ f a = panic := by
  cases x <;> simp

theorem mapErr_eq_ok {x : Res ε α} {f : ε → ε'} {a : α} : x.mapErr f = ok a ↔ x = ok a := by
  cases x <;> simp

theorem mapErr_eq_panic {x : Res ε α} {f : ε → ε'} : x.mapErr f = panic ↔ x = panic := by
  cases x <;> simp

theorem isOk_iff {x : Res ε α} : x.isOk = true ↔ ∃ a, x = ok a := by
  cases x <;> simp

theorem okOr_eq_ok {o : Option α} {e : ε} {a : α} : okOr o e = ok a ↔ o = some a := by
  cases o <;> simp

theorem okOr_ne_panic {o : Option α} {e : ε} : okOr o e ≠ panic := by
  cases o <;> simp

end Res

end Verif
