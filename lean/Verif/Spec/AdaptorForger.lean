import Verif.Spec.Cma

/-!
# Forgers that may ask for adaptor signatures

A forger asks the hash function about byte strings and the signer for adaptor signatures of messages and with adaptor
points of its choice, and finally submits a message and a signature. With the point at infinity an adaptor signature is a
signature. Strings that begin with the tag of challenges are drawn, as in `Spec/Cma`. Used by `Props/AdaptorForger`.
-/

namespace Verif

open Forger (Log Drawn answers rewind)
open CmaForger (nonceAnswering pairs)

/-- A forger that may ask for adaptor signatures, as the tree of what it does next. -/
inductive AdaptorForger where
  /-- Submit a forgery. -/
  | submit (msg : Bytes) (sig : CompactSignature)
  /-- Ask for the hash of `x`, and go on with the answer. -/
  | ask (x : Bytes) (next : Arr 32 → AdaptorForger)
  /-- Ask for an adaptor signature of `msg` with the adaptor point `T`, and go on with it. -/
  | sign (msg : Bytes) (T : MaybePoint) (next : AdaptorSignature → AdaptorForger)

namespace AdaptorForger

/-- The forger asks for at most `q` challenges and `s` adaptor signatures, whatever the answers, and as often as it likes for
other hashes. -/
inductive AsksAtMost : ℕ → ℕ → AdaptorForger → Prop where
  | submit (q s : ℕ) (msg : Bytes) (sig : CompactSignature) : AsksAtMost q s (.submit msg sig)
  | ask (q s : ℕ) (x : Bytes) (next : Arr 32 → AdaptorForger) (h : ∀ a, AsksAtMost q s (next a)) :
      AsksAtMost (q + 1) s (.ask x next)
  | other (q s : ℕ) (x : Bytes) (next : Arr 32 → AdaptorForger) (hx : ¬ Drawn x) (h : ∀ a, AsksAtMost q s (next a)) :
      AsksAtMost q s (.ask x next)
  | sign (q s : ℕ) (msg : Bytes) (T : MaybePoint) (next : AdaptorSignature → AdaptorForger) (h : ∀ sig, AsksAtMost q s (next sig)) :
      AsksAtMost q (s + 1) (.sign msg T next)

/-- An adaptor signature that was made, with its message and adaptor point. -/
structure Made where
  msg : Bytes
  T : MaybePoint
  sig : AdaptorSignature

/-- What has happened so far: the strings drawn for the forger, those drawn for the signer, and the adaptor signatures
made. -/
structure State where
  log : Log
  prog : Log
  signed : List Made

/-- Nothing has happened. -/
def State.init : State := ⟨[], [], []⟩

/-- The answer to `x`, if it has been drawn. -/
def State.find (st : State) (x : Bytes) : Option (Arr 32) := (st.prog.find x).or (st.log.find x)

/-- The hash function of a state; it is `H` where nothing has been drawn. -/
def State.hash (H : Hash) (st : State) : Hash := fun x => (st.find x).getD (H x)

/-- The state after the forger has asked for `x`. -/
def State.ask (ω : ℕ → Arr 32) (st : State) (x : Bytes) : State :=
  match st.prog.find x with
  | some _ => st
  | none => { st with log := st.log.add ω x }

/-- The answer the forger gets. -/
def State.answer (ω : ℕ → Arr 32) (st : State) (x : Bytes) : Arr 32 := (st.prog.find x).getD (st.log.answer ω x)

/-- The state after `x` has come up in signing, with the answer `e` if it is new. -/
def State.program (st : State) (x : Bytes) (e : Arr 32) : State :=
  match st.find x with
  | some _ => st
  | none => { st with prog := st.prog ++ [(x, e)] }

/-- The state after an adaptor signature has been made. -/
def State.record (st : State) (m : Made) : State := { st with signed := st.signed ++ [m] }

/-- The outcome of a run. -/
structure Outcome where
  msg : Bytes
  sig : CompactSignature
  state : State

/-- A run against the signer with the secret key `sk`. The `i`-th adaptor signature is made by `sign_solo_adaptor` with the seed
`seed i`, the nonce being hashed to `(κ i).1` and the challenge, if its string is new, to `(κ i).2`. -/
def run (H : Hash) (sk : Scalar) (seed : ℕ → Arr 32) (ω : ℕ → Arr 32) (κ : ℕ → Arr 32 × Arr 32) :
    AdaptorForger → State → Outcome
  | .submit msg sig, st => ⟨msg, sig, st.ask ω (Spec.challengeQuery sig.rx.1 (mulG sk) msg)⟩
  | .ask x next, st =>
    if Drawn x then run H sk seed ω κ (next (st.answer ω x)) (st.ask ω x) else run H sk seed ω κ (next (H x)) st
  | .sign msg T next, st =>
    let i := st.signed.length
    let R := (signSoloAdaptor (nonceAnswering H (κ i).1) sk msg (seed i) T).R
    let st' := st.program (Spec.challengeQuery (xonly (R + T)).1 (mulG sk) msg) (κ i).2
    let sig := signSoloAdaptor (nonceAnswering (st'.hash H) (κ i).1) sk msg (seed i) T
    run H sk seed ω κ (next sig) (st'.record ⟨msg, T, sig⟩)

/-- The signature submitted is an adaptor signature received that was completed: `reveal_secret` finds the discrete logarithm
of the adaptor point. -/
def Outcome.Completed (out : Outcome) : Prop :=
  ∃ m ∈ out.state.signed, m.msg = out.msg ∧ ∃ (L : LiftedSignature) (t : MaybeScalar),
    out.sig.liftNonce = some L ∧ m.sig.revealSecret L = some t ∧ t • G = m.T

/-- `verify_single` accepts the forgery for the key `P`, and it is not the completion of an adaptor signature received. -/
def Outcome.Wins (H : Hash) (P : Point) (out : Outcome) : Prop :=
  verifySingle (out.state.hash H) P out.sig out.msg = .ok () ∧ ¬ out.Completed

/-- The run against the signer is won. -/
def Forges {q s : ℕ} (H : Hash) (sk : Scalar) (seed : ℕ → Arr 32) (A : AdaptorForger)
    (p : (Fin q → Arr 32) × (Fin s → Arr 32 × Arr 32)) : Prop :=
  (A.run H sk seed (answers p.1) (pairs p.2) State.init).Wins H (mulG sk)

/-- A nonce, an answer and a scalar as in an accepted adaptor signature for `P` and `T`. They can be drawn without knowing a
secret key: draw a sign, `e` and `s` until the sign is right. -/
structure Transcript (P : Point) (T : MaybePoint) where
  R : Point
  e : Arr 32
  s : MaybeScalar
  eqn : s • G = Spec.sgn (R.1 + T) • R.1 + reduceFrom e • Spec.sgn P.1 • P.1

/-- A transcript that is not needed. -/
def Transcript.spare (P : Point) (T : MaybePoint) : Transcript P T where
  R := Gpt
  e := zeroSeed
  s := Spec.sgn (G + T)
  eqn := by
    have : reduceFrom zeroSeed = 0 := by decide +kernel
    rw [this, zero_smul, add_zero]
    rfl

/-- A finite sequence of transcripts, one for each adaptor point, continued with spare ones. -/
def transcripts {P : Point} {s : ℕ} (τ : Fin s → (T : MaybePoint) → Transcript P T) (i : ℕ) (T : MaybePoint) : Transcript P T :=
  if h : i < s then τ ⟨i, h⟩ T else Transcript.spare P T

/-- A run without the signer. Adaptor signatures are taken from given transcripts; the run is aborted if the string of the
challenge has been drawn before. -/
def simulate (H : Hash) (P : Point) (ω : ℕ → Arr 32) (τ : ℕ → (T : MaybePoint) → Transcript P T) :
    AdaptorForger → State → Option Outcome
  | .submit msg sig, st => some ⟨msg, sig, st.ask ω (Spec.challengeQuery sig.rx.1 P msg)⟩
  | .ask x next, st =>
    if Drawn x then simulate H P ω τ (next (st.answer ω x)) (st.ask ω x) else simulate H P ω τ (next (H x)) st
  | .sign msg T next, st =>
    let t := τ st.signed.length T
    let x := Spec.challengeQuery (Spec.xbytes (t.R.1 + T)) P msg
    let sig : AdaptorSignature := ⟨t.R.1, t.s⟩
    match st.find x with
    | some _ => none
    | none => simulate H P ω τ (next sig) ((st.program x t.e).record ⟨msg, T, sig⟩)

/-- When in the run the string of the challenge of the forgery was drawn. -/
def challengeIndex (P : Point) (out : Outcome) : ℕ :=
  out.state.log.findIdx fun e => e.1 = Spec.challengeQuery out.sig.rx.1 P out.msg

/-- The extractor: it runs the forger twice without the signer, with the same transcripts but new answers from the challenge
on, and computes a scalar from the two forgeries. It does not know any secret key. -/
def extract {q s : ℕ} (H : Hash) (P : Point) (A : AdaptorForger) (τ : Fin s → (T : MaybePoint) → Transcript P T)
    (ω ω' : Fin q → Arr 32) : MaybeScalar :=
  match A.simulate H P (answers ω) (transcripts τ) State.init with
  | none => 0
  | some out =>
    let j := challengeIndex P out
    match A.simulate H P (answers (rewind j ω ω')) (transcripts τ) State.init with
    | none => 0
    | some out' =>
      Spec.sgn P.1 * (out.sig.s - out'.sig.s) / (reduceFrom (answers ω j) - reduceFrom (answers ω' j))

end AdaptorForger

end Verif
