import Verif.Spec.Forger

/-!
# Somebody who asks for hashes that are drawn while they are asked for

The hash function is given, but for the strings with the property `D`. Used by `Props/KeyCommit`.
-/

namespace Verif

/-- Somebody who asks for hashes, depending on the answers so far, and in the end has a result. -/
inductive Asker (α : Type) where
  | done (a : α)
  | ask (x : Bytes) (next : Arr 32 → Asker α)

namespace Asker

open Forger (Log)

/-- One after the other. -/
def bind {α β : Type} : Asker α → (α → Asker β) → Asker β
  | .done a, f => f a
  | .ask x next, f => .ask x fun a => bind (next a) f

/-- A run: a string that is drawn and that was not asked before gets the next answer. -/
def run {α : Type} (D : Bytes → Prop) [DecidablePred D] (H : Hash) (ω : ℕ → Arr 32) : Asker α → Log → α × Log
  | .done a, log => (a, log)
  | .ask x next, log =>
    if D x then
      match log.find x with
      | some d => run D H ω (next d) log
      | none => run D H ω (next (ω log.length)) (log ++ [(x, ω log.length)])
    else run D H ω (next (H x)) log

/-- At most `m` hashes are asked for that are drawn, and the result is as `post` says. -/
def AsksAtMost {α : Type} (D : Bytes → Prop) [DecidablePred D] (post : α → Prop) : ℕ → Asker α → Prop
  | _, .done a => post a
  | m, .ask x next => if D x then ∃ m', m = m' + 1 ∧ ∀ a, AsksAtMost D post m' (next a) else ∀ a, AsksAtMost D post m (next a)

/-- Ask for the hashes of several strings. -/
def askHashes {α : Type} : List Bytes → (List (Arr 32) → Asker α) → Asker α
  | [], next => next []
  | x :: xs, next => .ask x fun h => askHashes xs fun hs => next (h :: hs)

/-- A finite sequence of answers, continued somehow. -/
def draws {m : ℕ} (ω : Fin m → Arr 32) (i : ℕ) : Arr 32 := if h : i < m then ω ⟨i, h⟩ else zeroSeed

end Asker

end Verif
