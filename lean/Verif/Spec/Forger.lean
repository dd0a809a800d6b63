import Verif.Spec.Uniform

/-!
# Forgers in the random oracle model

A forger asks the hash function about byte strings of its choice, depending on the answers so far, and finally submits
a message and a signature. The hash function is given, but for the strings that begin with the tag of challenges: these
are drawn while the forger asks, the `i`-th new string being answered with the `i`-th of a sequence of answers. Used by
`Props/Forger`.
-/

namespace Verif

/-- A forger, as the tree of what it does next. -/
inductive Forger where
  /-- Submit a forgery. -/
  | submit (msg : Bytes) (sig : CompactSignature)
  /-- Ask for the hash of `x`, and go on with the answer. -/
  | ask (x : Bytes) (next : Arr 32 → Forger)

namespace Forger

/-- The string begins with the tag of challenges. -/
def Drawn (x : Bytes) : Prop := Spec.taggedInput "BIP0340/challenge" [] <+: x

instance : DecidablePred Drawn := fun x => inferInstanceAs (Decidable (_ <+: x))

/-- The forger asks for at most `q` challenges, whatever the answers, and as often as it likes for other hashes. -/
inductive AsksAtMost : ℕ → Forger → Prop where
  | submit (q : ℕ) (msg : Bytes) (sig : CompactSignature) : AsksAtMost q (.submit msg sig)
  | ask (q : ℕ) (x : Bytes) (next : Arr 32 → Forger) (h : ∀ a, AsksAtMost q (next a)) : AsksAtMost (q + 1) (.ask x next)
  | other (q : ℕ) (x : Bytes) (next : Arr 32 → Forger) (hx : ¬ Drawn x) (h : ∀ a, AsksAtMost q (next a)) :
      AsksAtMost q (.ask x next)

/-- The strings drawn so far, oldest first, with their answers. -/
abbrev Log := List (Bytes × Arr 32)

/-- The answer to `x` in the log, if there is one. -/
def Log.find (log : Log) (x : Bytes) : Option (Arr 32) := (log.find? fun e => e.1 = x).map (·.2)

/-- The log after `x` has been asked: a new string gets the next answer. -/
def Log.add (ω : ℕ → Arr 32) (log : Log) (x : Bytes) : Log :=
  match log.find x with
  | some _ => log
  | none => log ++ [(x, ω log.length)]

/-- The answer to `x`: the one in the log, or the next one. -/
def Log.answer (ω : ℕ → Arr 32) (log : Log) (x : Bytes) : Arr 32 :=
  (log.find x).getD (ω log.length)

/-- The hash function of a log; it is `H` where nothing has been drawn. -/
def Log.hash (H : Hash) (log : Log) : Hash := fun x => (log.find x).getD (H x)

/-- The outcome of a run. -/
structure Outcome where
  msg : Bytes
  sig : CompactSignature
  log : Log

/-- A run with the answers `ω`, starting from a log. In the end the string of the challenge of the forgery is asked, as
the verifier does. -/
def run (H : Hash) (P : Point) (ω : ℕ → Arr 32) : Forger → Log → Outcome
  | .submit msg sig, log => ⟨msg, sig, log.add ω (Spec.challengeQuery sig.rx.1 P msg)⟩
  | .ask x next, log =>
    if Drawn x then run H P ω (next (log.answer ω x)) (log.add ω x) else run H P ω (next (H x)) log

/-- A finite sequence of answers, continued with zeros. -/
def answers {q : ℕ} (ω : Fin q → Arr 32) (i : ℕ) : Arr 32 := if h : i < q then ω ⟨i, h⟩ else zeroSeed

/-- The forgery of the run with the answers `ω` is accepted by `verify_single` for the key `P`. -/
def Forges {q : ℕ} (H : Hash) (P : Point) (A : Forger) (ω : Fin q → Arr 32) : Prop :=
  let out := A.run H P (answers ω) []
  verifySingle (out.log.hash H) P out.sig out.msg = .ok ()

/-- When in the run the string of the challenge was asked. -/
def challengeIndex (P : Point) (out : Outcome) : ℕ :=
  out.log.findIdx fun e => e.1 = Spec.challengeQuery out.sig.rx.1 P out.msg

/-- The answers `ω` before the index `j`, and `ω'` from it on. -/
def rewind {q : ℕ} (j : ℕ) (ω ω' : Fin q → Arr 32) : Fin q → Arr 32 := fun i => if i.1 < j then ω i else ω' i

/-- The extractor: it runs the forger twice, the second time with new answers from the challenge on, and computes a
scalar from the two forgeries. It does not know any secret key. -/
def extract {q : ℕ} (H : Hash) (P : Point) (A : Forger) (ω ω' : Fin q → Arr 32) : MaybeScalar :=
  let out := A.run H P (answers ω) []
  let j := challengeIndex P out
  let out' := A.run H P (answers (rewind j ω ω')) []
  Spec.sgn P.1 * (out.sig.s - out'.sig.s) / (reduceFrom (answers ω j) - reduceFrom (answers ω' j))

end Forger

/-- The share of the elements of a finite type that satisfy `E`. -/
noncomputable def Spec.chance {Ω : Type} (E : Ω → Prop) : ℚ := ({ω | E ω}.ncard : ℚ) / Nat.card Ω

end Verif
