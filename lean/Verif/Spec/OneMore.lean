import Verif.Spec.Adaptive
import Verif.Spec.Random

/-!
# The one-more discrete logarithm problem, and how nonces are made

In the one-more discrete logarithm problem `2k + 1` points are drawn, and their discrete logarithms have to be found with `2k`
questions for discrete logarithms of combinations of these points. Here the forgers of `Spec/Adaptive` are turned into solvers
of this problem. The secret key is drawn, and the secret nonces are drawn as with `SecNonce::random`, or made by
`SecNonceBuilder::build` from seeds that are drawn. Used by `Props/OneMore`.
-/

namespace Verif

open Forger (answers)
open Concurrent (Play Unknown)

/-- How often `S` finds the discrete logarithms of `2k + 1` points drawn independently and uniformly. It is given the points and
coins, and questions for discrete logarithms are answered. -/
noncomputable def Spec.oneMoreDlog {ν : Type} (k N : ℕ) (S : (Unknown k → Point) → Play ν k (Unknown k → MaybeScalar)) : ℚ :=
  Spec.chance fun p : (Unknown k → Scalar) × (Fin N → Arr 32) =>
    ((S fun j => mulG (p.1 j)).run (fun j => (p.1 j).1) (answers p.2) []).1 = fun j => (p.1 j).1

/-- What `SecNonceBuilder::build` hashes first: the seed. -/
def Spec.auxQuery (seed : Arr 32) : Bytes := Spec.taggedInput "MuSig/aux" seed.1

/-- `H` with the answers in a list. If a string is in the list more than once, then the last answer counts. -/
def Hash.answeringAll (H : Hash) (l : List (Bytes × Arr 32)) : Hash := l.foldl (fun H e => H.answering e.1 e.2) H

/-- What is drawn for the nonces of a session: the seed and its hash, and the hashes that are reduced to the first and second
secret nonce. -/
abbrev Spec.NonceDraw : Type := (Arr 32 × Arr 32) × Arr 32 × Arr 32

/-- The builder with another seed. -/
def Spec.seeded (b : SecNonceBuilder) (seed : Arr 32) : SecNonceBuilder := { b with nonceSeedBytes := seed }

/-- `H` with the hashes of the seeds of `k` sessions. -/
def Spec.seedHash {k : ℕ} (H : Hash) (d : Fin k → Spec.NonceDraw) : Hash :=
  H.answeringAll ((List.finRange k).map fun i : Fin k => (Spec.auxQuery (d i).1.1, (d i).1.2))

/-- `H` with the hashes that the builders `B i` make when they are given the seeds. -/
def Spec.nonceHash {k : ℕ} (H : Hash) (B : ℕ → SecNonceBuilder) (d : Fin k → Spec.NonceDraw) : Hash :=
  (Spec.seedHash H d).answeringAll ((List.finRange k).flatMap fun i : Fin k =>
    [(Spec.nonceQuery (Spec.seedHash H d) (Spec.seeded (B i) (d i).1.1) 0, (d i).2.1),
      (Spec.nonceQuery (Spec.seedHash H d) (Spec.seeded (B i) (d i).1.1) 1, (d i).2.2)])

/-- The nonces that the builders `B i` build with the seeds. -/
def Spec.builtNonce {k : ℕ} (H : Hash) (B : ℕ → SecNonceBuilder) (d : Fin k → Spec.NonceDraw) (i : ℕ) : SecNonce :=
  if h : i < k then (Spec.seeded (B i) (d ⟨i, h⟩).1.1).build (Spec.nonceHash H B d) else ⟨scalarOne, scalarOne⟩

namespace Adaptive

/-- The secret nonces among the unknowns. -/
def secretNonces {k : ℕ} (x : Unknown k → Scalar) (i : ℕ) : SecNonce :=
  if h : i < k then ⟨x (some (⟨i, h⟩, false)), x (some (⟨i, h⟩, true))⟩ else ⟨scalarOne, scalarOne⟩

/-- The public nonces among the points. -/
def publicNonces {k : ℕ} (X : Unknown k → Point) (i : ℕ) : PubNonce :=
  if h : i < k then ⟨X (some (⟨i, h⟩, false)), X (some (⟨i, h⟩, true))⟩ else ⟨mulG scalarOne, mulG scalarOne⟩

/-- The solver that runs the forger `A` once. The first of the points is the public key, which the forger is given, the others are public
nonces. -/
noncomputable def attack (k : ℕ) (H : Hash) (A : Point → Adversary) (X : Unknown k → Point) : Play Note k (Unknown k → MaybeScalar) :=
  solver k H (X none) (publicNonces X) (A (X none))

/-- The forger asks for at most `m` strings that are not drawn. -/
def Adversary.OthersAtMost : ℕ → Adversary → Prop
  | _, .submit _ _ _ _ _ => True
  | m, .ask x _ next =>
    (Drawn x → ∀ a, (next a).OthersAtMost m) ∧ (¬ Drawn x → ∃ m', m = m' + 1 ∧ ∀ a, (next a).OthersAtMost m')
  | m, .start _ next => ∀ pn, (next pn).OthersAtMost m
  | m, .sign _ _ _ _ _ _ next => ∀ s, (next s).OthersAtMost m

end Adaptive

end Verif
