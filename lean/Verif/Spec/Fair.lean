import Verif.Spec.World

/-!
# Infinite runs of a group of programs that may crash

Used by `Props/Fair`.
-/

namespace Verif

namespace MixedGroup

open Spec (Action World)

variable {H : Hash}

/-- The world after the first `n` actions of an infinite run. -/
def history (g : MixedGroup H) (T : MaybePoint) (msg : Bytes) (f : ℕ → ℕ × Action) : ℕ → World
  | 0 => g.initial
  | n + 1 => g.move T msg (g.history T msg f n) (f n)

/-- What is asked of an infinite run. Everything else is left to the schedule: the crashes before the time `t`, the order of all deliveries, and
the partial signatures that nobody sent. -/
structure Fair (g : MixedGroup H) (T : MaybePoint) (msg : Bytes) (f : ℕ → ℕ × Action) : Prop where
  /-- From some time on, the program of every honest member runs and does not crash, and it is not told to finalize the first round when nonces are
  missing. -/
  stable : ∀ i ∈ g.honest, ∃ t, (g.history T msg f t).programs i ≠ .stopped ∧ ∀ n ≥ t, f n ≠ (i, .start) ∧
    (f n = (i, .sign) → ∀ r, (g.history T msg f n).programs i = .first r → r.isComplete = true)
  /-- What was ever sent is delivered to every honest member after any time. -/
  delivers : ∀ i ∈ g.honest, ∀ n k, k < (g.history T msg f n).sent.length → ∃ m ≥ n, f m = (i, .deliver k)
  /-- A program that has all nonces does not wait forever for being told to finalize the first round. -/
  signs : ∀ i ∈ g.honest, ∀ n, ∃ m ≥ n, f m = (i, .sign) ∨
    ¬ ∃ r, (g.history T msg f m).programs i = .first r ∧ r.isComplete = true

end MixedGroup

end Verif
