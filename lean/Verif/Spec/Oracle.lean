import Verif.Spec.SessionForger
import Mathlib.LinearAlgebra.Matrix.NonsingularInverse

/-!
# Questions for hashes and for discrete logarithms

Used by `Spec/Concurrent` and `Spec/Adaptive`. Something asks for hashes and for discrete logarithms of combinations of given
points, one after the other. The discrete logarithms of the points are the unknowns: a secret key and `2k` secret nonces.
With a hash that is asked for the first time something of a type `ν` is recorded. In the end there is a linear system for the
unknowns.
-/

namespace Verif.Concurrent

/-- The unknowns: the secret key, and for each of the `k` sessions the first (`false`) and second (`true`) secret nonce. -/
abbrev Unknown (k : ℕ) : Type := Option (Fin k × Bool)

/-- Something that asks for hashes and for discrete logarithms, one after the other, and then returns a result. -/
inductive Play (ν : Type) (k : ℕ) (α : Type) where
  | done (a : α)
  /-- Ask for the hash of `x`, and go on with what was recorded when it was first asked for, and the answer. -/
  | ask (x : Bytes) (n : ν) (next : ν → Arr 32 → Play ν k α)
  /-- Ask for the discrete logarithm of the combination with the coefficients `f` of the public key and public nonces. -/
  | dlog (f : Unknown k → MaybeScalar) (next : MaybeScalar → Play ν k α)

/-- The strings drawn so far, oldest first, with what was recorded and their answers. -/
abbrev Log (ν : Type) := List (Bytes × ν × Arr 32)

/-- The record of `x` in the log, if there is one. -/
def Log.find {ν : Type} (log : Log ν) (x : Bytes) : Option (ν × Arr 32) := (log.find? fun e => e.1 = x).map (·.2)

/-- The hash function of a log; it is `H` where nothing has been drawn. -/
def Log.hash {ν : Type} (H : Hash) (log : Log ν) : Hash := fun x =>
  match log.find x with
  | some e => e.2
  | none => H x

namespace Play

/-- What is returned if the unknowns are `y` and the answers of the hash function are `ω`: each new string gets the next
answer. -/
def run {ν : Type} {k : ℕ} {α : Type} (y : Unknown k → MaybeScalar) (ω : ℕ → Arr 32) : Play ν k α → Log ν → α × Log ν
  | .done a, log => (a, log)
  | .ask x n next, log =>
    match log.find x with
    | some e => run y ω (next e.1 e.2) log
    | none => run y ω (next n (ω log.length)) (log ++ [(x, n, ω log.length)])
  | .dlog f next, log => run y ω (next (∑ j, f j * y j)) log

/-- At most `m` discrete logarithms are asked for. -/
def DlogsAtMost {ν : Type} {k : ℕ} {α : Type} : ℕ → Play ν k α → Prop
  | _, .done _ => True
  | m, .ask _ _ next => ∀ n h, DlogsAtMost m (next n h)
  | m, .dlog _ next => ∃ m', m = m' + 1 ∧ ∀ z, DlogsAtMost m' (next z)

end Play

/-! ## The linear system -/

/-- A linear equation for the unknowns: the coefficients, and what the combination amounts to. -/
abbrev Equation (k : ℕ) : Type := (Unknown k → MaybeScalar) × MaybeScalar

/-- What remains of the coefficients of `f` after the first nonces have been eliminated with the equations `rows` of partial
signatures, where `rows i` is that of session `i` if it has been signed. -/
def reduced {k : ℕ} (rows : ℕ → Option (Equation k)) (f : Unknown k → MaybeScalar) : Unknown k → MaybeScalar
  | none => f none - ∑ i : Fin k, match rows i with
      | some row => f (some (i, false)) * row.1 none
      | none => 0
  | some (i, true) => f (some (i, true)) - match rows i with
      | some row => f (some (i, false)) * row.1 (some (i, true))
      | none => 0
  | some (i, false) => match rows i with
      | some _ => 0
      | none => f (some (i, false))

/-- All unknowns. -/
def unknowns (k : ℕ) : List (Unknown k) :=
  none :: (List.finRange k).map (fun i => some (i, false)) ++ (List.finRange k).map fun i => some (i, true)

/-- The equations that are known, each in the place of an unknown that it determines: the partial signatures for the first
nonces, and `f` for the unknown `p`. -/
def equations {k : ℕ} (rows : ℕ → Option (Equation k)) (f : Equation k) (p : Unknown k) (j : Unknown k) : Option (Equation k) :=
  if j = p then some f
  else match j with
    | some (i, false) => rows i
    | _ => none

/-- Ask for the unknowns in a list. -/
def askAll {ν : Type} {k : ℕ} {α : Type} : List (Unknown k) → (Unknown k → MaybeScalar) →
    ((Unknown k → MaybeScalar) → Play ν k α) → Play ν k α
  | [], v, next => next v
  | j :: l, v, next => .dlog (Pi.single j 1) fun z => askAll l (Function.update v j z) next

/-- The first of the equations `fs` that is not a combination of the rows, with an unknown that it determines. -/
def pivot {k : ℕ} (rows : ℕ → Option (Equation k)) (fs : List (Equation k)) : Option (Equation k × Unknown k) :=
  fs.findSome? fun f => ((unknowns k).find? fun j => reduced rows f.1 j ≠ 0).map fun p => (f, p)

/-- Take one of the equations `fs` beside the rows, ask for the unknowns that have no equation, and solve the linear
system. -/
noncomputable def solve {ν : Type} {k : ℕ} (rows : ℕ → Option (Equation k)) (fs : List (Equation k)) :
    Play ν k (Unknown k → MaybeScalar) :=
  match pivot rows fs with
  | none => .done 0
  | some (f, p) =>
    let eqn := equations rows f p
    askAll ((unknowns k).filter fun j => (eqn j).isNone) 0 fun v =>
      let M : Matrix (Unknown k) (Unknown k) MaybeScalar := fun j => match eqn j with
        | some e => e.1
        | none => Pi.single j 1
      .done (M⁻¹.mulVec fun j => match eqn j with
        | some e => e.2
        | none => v j)

end Verif.Concurrent
