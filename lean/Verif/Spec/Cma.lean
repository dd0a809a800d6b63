import Verif.Spec.GroupForger
import Verif.Model.Bip340

/-!
# Forgers that may ask for signatures

A forger asks the hash function about byte strings and the signer for signatures of messages of its choice, and finally
submits a message and a signature. Strings that begin with the tag of challenges are drawn: those the forger asks for are
answered from one sequence, those that come up when the signer signs from another. Used by `Props/Cma`.
-/

namespace Verif

open Forger (Log Drawn answers rewind)

/-- A forger that may ask for signatures, as the tree of what it does next. -/
inductive CmaForger where
  /-- Submit a forgery. -/
  | submit (msg : Bytes) (sig : CompactSignature)
  /-- Ask for the hash of `x`, and go on with the answer. -/
  | ask (x : Bytes) (next : Arr 32 → CmaForger)
  /-- Ask for a signature of `msg`, and go on with it. -/
  | sign (msg : Bytes) (next : CompactSignature → CmaForger)

namespace CmaForger

/-- The forger asks for at most `q` challenges and `s` signatures, whatever the answers, and as often as it likes for other
hashes. -/
inductive AsksAtMost : ℕ → ℕ → CmaForger → Prop where
  | submit (q s : ℕ) (msg : Bytes) (sig : CompactSignature) : AsksAtMost q s (.submit msg sig)
  | ask (q s : ℕ) (x : Bytes) (next : Arr 32 → CmaForger) (h : ∀ a, AsksAtMost q s (next a)) :
      AsksAtMost (q + 1) s (.ask x next)
  | other (q s : ℕ) (x : Bytes) (next : Arr 32 → CmaForger) (hx : ¬ Drawn x) (h : ∀ a, AsksAtMost q s (next a)) :
      AsksAtMost q s (.ask x next)
  | sign (q s : ℕ) (msg : Bytes) (next : CompactSignature → CmaForger) (h : ∀ sig, AsksAtMost q s (next sig)) :
      AsksAtMost q (s + 1) (.sign msg next)

/-- What has happened so far: the strings drawn for the forger, those drawn for the signer, and the signatures made. -/
structure State where
  log : Log
  prog : Log
  signed : List (Bytes × CompactSignature)

/-- Nothing has happened. -/
def State.init : State := ⟨[], [], []⟩

/-- The answer to `x`, if it has been drawn. -/
def State.find (st : State) (x : Bytes) : Option (Arr 32) := (st.prog.find x).or (st.log.find x)

/-- The hash function of a state; it is `H` where nothing has been drawn. -/
def State.hash (H : Hash) (st : State) : Hash := fun x => (st.find x).getD (H x)

/-- The state after the forger has asked for `x`. -/
def State.ask (ω : ℕ → Arr 32) (st : State) (x : Bytes) : State :=
  match st.prog.find x with
  | some _ => st
  | none => { st with log := st.log.add ω x }

/-- The answer the forger gets. -/
def State.answer (ω : ℕ → Arr 32) (st : State) (x : Bytes) : Arr 32 := (st.prog.find x).getD (st.log.answer ω x)

/-- The state after `x` has come up in signing, with the answer `e` if it is new. -/
def State.program (st : State) (x : Bytes) (e : Arr 32) : State :=
  match st.find x with
  | some _ => st
  | none => { st with prog := st.prog ++ [(x, e)] }

/-- The state after `sig` has been made for `msg`. -/
def State.record (st : State) (msg : Bytes) (sig : CompactSignature) : State :=
  { st with signed := st.signed ++ [(msg, sig)] }

/-- The hash function that answers what begins with the tag of nonces of solo signing with `h`. -/
def nonceAnswering (H : Hash) (h : Arr 32) : Hash :=
  fun x => if Spec.taggedInput "BIP0340/nonce" [] <+: x then h else H x

/-- The hash function that answers what begins with the tag of challenges with `h`. -/
def challengeAnswering (H : Hash) (h : Arr 32) : Hash := fun x => if Drawn x then h else H x

/-- What `sign_solo` makes with the hash function `H`. -/
def signature (H : Hash) (sk : Scalar) (msg : Bytes) (seed : Arr 32) : CompactSignature :=
  match (signSolo H sk msg seed : Res Unit LiftedSignature) with
  | .ok sig => sig.compact
  | _ => ⟨zeroSeed, 0⟩

/-- The outcome of a run. -/
structure Outcome where
  msg : Bytes
  sig : CompactSignature
  state : State

/-- A run against the signer with the secret key `sk`. The `i`-th signature is made by `sign_solo` with the seed `seed i`,
the nonce being hashed to `(κ i).1` and the challenge, if its string is new, to `(κ i).2`. -/
def run (H : Hash) (sk : Scalar) (seed : ℕ → Arr 32) (ω : ℕ → Arr 32) (κ : ℕ → Arr 32 × Arr 32) :
    CmaForger → State → Outcome
  | .submit msg sig, st => ⟨msg, sig, st.ask ω (Spec.challengeQuery sig.rx.1 (mulG sk) msg)⟩
  | .ask x next, st =>
    if Drawn x then run H sk seed ω κ (next (st.answer ω x)) (st.ask ω x) else run H sk seed ω κ (next (H x)) st
  | .sign msg next, st =>
    let i := st.signed.length
    let R := (signSoloAdaptor (nonceAnswering H (κ i).1) sk msg (seed i) 0).R
    let st' := st.program (Spec.challengeQuery (xonly R).1 (mulG sk) msg) (κ i).2
    let sig := signature (nonceAnswering (st'.hash H) (κ i).1) sk msg (seed i)
    run H sk seed ω κ (next sig) (st'.record msg sig)

/-- The forgery is not one of the signatures received, and `verify_single` accepts it for the key `P`. -/
def Outcome.Wins (H : Hash) (P : Point) (out : Outcome) : Prop :=
  (out.msg, out.sig) ∉ out.state.signed ∧ verifySingle (out.state.hash H) P out.sig out.msg = .ok ()

/-- A finite sequence of pairs of answers, continued with zeros. -/
def pairs {s : ℕ} (κ : Fin s → Arr 32 × Arr 32) (i : ℕ) : Arr 32 × Arr 32 :=
  if h : i < s then κ ⟨i, h⟩ else (zeroSeed, zeroSeed)

/-- The run against the signer is won. -/
def Forges {q s : ℕ} (H : Hash) (sk : Scalar) (seed : ℕ → Arr 32) (A : CmaForger)
    (p : (Fin q → Arr 32) × (Fin s → Arr 32 × Arr 32)) : Prop :=
  (A.run H sk seed (answers p.1) (pairs p.2) State.init).Wins H (mulG sk)

/-- A nonce, an answer and a scalar as in an accepted signature for `P`. They can be drawn without knowing a secret key:
draw `e` and `s` until the nonce is even. -/
structure Transcript (P : Point) where
  R : Point
  e : Arr 32
  s : MaybeScalar
  even : Spec.has_even_y R.1 = true
  eqn : s • G = R.1 + reduceFrom e • Spec.sgn P.1 • P.1

/-- A transcript that is not needed. -/
def Transcript.spare (P : Point) : Transcript P where
  R := Gpt
  e := zeroSeed
  s := 1
  even := by
    change decide (((baseY : ℕ) : Fp).val % 2 = 0) = true
    rw [ZMod.val_natCast]
    decide +kernel
  eqn := by
    have : reduceFrom zeroSeed = 0 := by decide +kernel
    rw [this, one_smul, zero_smul, add_zero]
    rfl

/-- A finite sequence of transcripts, continued with spare ones. -/
def transcripts {P : Point} {s : ℕ} (τ : Fin s → Transcript P) (i : ℕ) : Transcript P :=
  if h : i < s then τ ⟨i, h⟩ else Transcript.spare P

/-- A run without the signer. Signatures are taken from given transcripts; the run is aborted if the string of the
challenge has been drawn before. -/
def simulate (H : Hash) (P : Point) (ω : ℕ → Arr 32) (τ : ℕ → Transcript P) : CmaForger → State → Option Outcome
  | .submit msg sig, st => some ⟨msg, sig, st.ask ω (Spec.challengeQuery sig.rx.1 P msg)⟩
  | .ask x next, st =>
    if Drawn x then simulate H P ω τ (next (st.answer ω x)) (st.ask ω x) else simulate H P ω τ (next (H x)) st
  | .sign msg next, st =>
    let t := τ st.signed.length
    let x := Spec.challengeQuery (Spec.xbytes t.R.1) P msg
    let sig : CompactSignature := ⟨xonly t.R.1, t.s⟩
    match st.find x with
    | some _ => none
    | none => simulate H P ω τ (next sig) ((st.program x t.e).record msg sig)

/-- When in the run the string of the challenge of the forgery was drawn. -/
def challengeIndex (P : Point) (out : Outcome) : ℕ :=
  out.state.log.findIdx fun e => e.1 = Spec.challengeQuery out.sig.rx.1 P out.msg

/-- The extractor: it runs the forger twice without the signer, with the same transcripts but new answers from the challenge
on, and computes a scalar from the two forgeries. It does not know any secret key. -/
def extract {q s : ℕ} (H : Hash) (P : Point) (A : CmaForger) (τ : Fin s → Transcript P) (ω ω' : Fin q → Arr 32) :
    MaybeScalar :=
  match A.simulate H P (answers ω) (transcripts τ) State.init with
  | none => 0
  | some out =>
    let j := challengeIndex P out
    match A.simulate H P (answers (rewind j ω ω')) (transcripts τ) State.init with
    | none => 0
    | some out' =>
      Spec.sgn P.1 * (out.sig.s - out'.sig.s) / (reduceFrom (answers ω j) - reduceFrom (answers ω' j))

end CmaForger

end Verif
