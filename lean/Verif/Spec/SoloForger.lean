import Verif.Spec.AdaptorForger

/-!
# Forgers that choose the seeds of the signer

As in `Spec/AdaptorForger` a forger asks for adaptor signatures, but it also chooses the seed of each, and the nonces are hashed
by the function that it may ask itself. Strings that begin with the tag of challenges or of nonces are drawn. Used by
`Props/SoloForger`.
-/

namespace Verif

open Forger (Log Drawn answers)
open CmaForger (pairs)

/-- A forger that asks for adaptor signatures with seeds of its choice, as the tree of what it does next. -/
inductive SoloForger where
  /-- Submit a forgery. -/
  | submit (msg : Bytes) (sig : CompactSignature)
  /-- Ask for the hash of `x`, and go on with the answer. -/
  | ask (x : Bytes) (next : Arr 32 → SoloForger)
  /-- Ask for an adaptor signature of `msg` with the seed `seed` and the adaptor point `T`, and go on with it. -/
  | sign (msg : Bytes) (seed : Arr 32) (T : MaybePoint) (next : AdaptorSignature → SoloForger)

namespace SoloForger

/-- The string begins with the tag of nonces of solo signing. -/
def NonceTag (x : Bytes) : Prop := Spec.taggedInput "BIP0340/nonce" [] <+: x

instance : DecidablePred NonceTag := fun x => inferInstanceAs (Decidable (_ <+: x))

/-- The forger asks for at most `q` challenges, `m` hashes of nonces and `s` adaptor signatures, whatever the answers, and as often
as it likes for other hashes. -/
inductive AsksAtMost : ℕ → ℕ → ℕ → SoloForger → Prop where
  | submit (q m s : ℕ) (msg : Bytes) (sig : CompactSignature) : AsksAtMost q m s (.submit msg sig)
  | ask (q m s : ℕ) (x : Bytes) (next : Arr 32 → SoloForger) (h : ∀ a, AsksAtMost q m s (next a)) :
      AsksAtMost (q + 1) m s (.ask x next)
  | nonce (q m s : ℕ) (x : Bytes) (next : Arr 32 → SoloForger) (hx : NonceTag x) (h : ∀ a, AsksAtMost q m s (next a)) :
      AsksAtMost q (m + 1) s (.ask x next)
  | other (q m s : ℕ) (x : Bytes) (next : Arr 32 → SoloForger) (hx : ¬ Drawn x) (hx' : ¬ NonceTag x)
      (h : ∀ a, AsksAtMost q m s (next a)) : AsksAtMost q m s (.ask x next)
  | sign (q m s : ℕ) (msg : Bytes) (seed : Arr 32) (T : MaybePoint) (next : AdaptorSignature → SoloForger)
      (h : ∀ sig, AsksAtMost q m s (next sig)) : AsksAtMost q m (s + 1) (.sign msg seed T next)

/-- The hash of a seed, which masks the secret key. -/
def mask (H : Hash) (seed : Arr 32) : Arr 32 := H (Spec.taggedInput "BIP0340/aux" seed.1)

/-- What is hashed to the nonce with the secret key `sk`: the key of the even point masked by `h`, the public key and the
message. -/
def nonceQuery (sk : Scalar) (h : Arr 32) (msg : Bytes) : Bytes :=
  Spec.taggedInput "BIP0340/nonce"
    (Spec.bytes_xor h.1 (Spec.bytes_from_int (Spec.sgn (mulG sk).1 * sk.1).val) ++ Spec.xbytes (mulG sk).1 ++ msg)

/-- What has happened so far: challenges drawn and adaptor signatures made as in `AdaptorForger.State`, the hashes of nonces
drawn for the forger and for the signer, and the strings of the nonces of the adaptor signatures with their adaptor
points. -/
structure State extends AdaptorForger.State where
  nlog : Log
  nprog : Log
  requests : List (Bytes × MaybePoint)

/-- Nothing has happened. -/
def State.init : State := ⟨AdaptorForger.State.init, [], [], []⟩

/-- The hash of a nonce, if it has been drawn. -/
def State.findNonce (st : State) (x : Bytes) : Option (Arr 32) := (st.nprog.find x).or (st.nlog.find x)

/-- The hash function of a state; it is `H` where nothing has been drawn. -/
def State.hash (H : Hash) (st : State) : Hash := fun x =>
  if NonceTag x then (st.findNonce x).getD (H x) else if Drawn x then st.toState.hash H x else H x

/-- The state after the forger has asked for the hash of a nonce. -/
def State.askNonce (ν : ℕ → Arr 32) (st : State) (x : Bytes) : State :=
  match st.nprog.find x with
  | some _ => st
  | none => { st with nlog := st.nlog.add ν x }

/-- The answer the forger gets. -/
def State.answerNonce (ν : ℕ → Arr 32) (st : State) (x : Bytes) : Arr 32 := (st.nprog.find x).getD (st.nlog.answer ν x)

/-- The state after the signer has hashed a nonce, with the answer `a` if it is new. -/
def State.programNonce (st : State) (x : Bytes) (a : Arr 32) : State :=
  match st.findNonce x with
  | some _ => st
  | none => { st with nprog := st.nprog ++ [(x, a)] }

/-- The outcome of a run. -/
structure Outcome where
  msg : Bytes
  sig : CompactSignature
  state : State

/-- A run against the signer with the secret key `sk`. Adaptor signatures are made by `sign_solo_adaptor` with the hash function
of the state. The `i`-th request draws `(κ i).1` for the nonce and `(κ i).2` for the challenge, as far as their
strings are new; a request with the nonce and the adaptor point of an earlier one draws nothing. -/
def run (H : Hash) (sk : Scalar) (ω ν : ℕ → Arr 32) (κ : ℕ → Arr 32 × Arr 32) : SoloForger → State → Outcome
  | .submit msg sig, st =>
    ⟨msg, sig, { st with toState := st.toState.ask ω (Spec.challengeQuery sig.rx.1 (mulG sk) msg) }⟩
  | .ask x next, st =>
    if NonceTag x then run H sk ω ν κ (next (st.answerNonce ν x)) (st.askNonce ν x)
    else if Drawn x then run H sk ω ν κ (next (st.toState.answer ω x)) { st with toState := st.toState.ask ω x }
    else run H sk ω ν κ (next (H x)) st
  | .sign msg seed T next, st =>
    let x := nonceQuery sk (mask H seed) msg
    if (x, T) ∈ st.requests then run H sk ω ν κ (next (signSoloAdaptor (st.hash H) sk msg seed T)) st
    else
      let i := st.signed.length
      let st₁ := st.programNonce x (κ i).1
      let R := (signSoloAdaptor (st₁.hash H) sk msg seed T).R
      let st₂ := { st₁ with
        toState := st₁.toState.program (Spec.challengeQuery (xonly (R + T)).1 (mulG sk) msg) (κ i).2 }
      let sig := signSoloAdaptor (st₂.hash H) sk msg seed T
      run H sk ω ν κ (next sig)
        { st₂ with toState := st₂.toState.record ⟨msg, T, sig⟩, requests := st.requests ++ [(x, T)] }

/-- The signer never used a nonce for two adaptor points. -/
def State.Careful (st : State) : Prop :=
  ∀ r ∈ st.requests, ∀ r' ∈ st.requests, r.1 = r'.1 → r.2 = r'.2

/-- `verify_single` accepts the forgery, it is not the completion of an adaptor signature received, and the signer never used a
nonce for two adaptor points. -/
def Outcome.Wins (H : Hash) (P : Point) (out : Outcome) : Prop :=
  verifySingle (out.state.hash H) P out.sig out.msg = .ok () ∧
    ¬ (⟨out.msg, out.sig, out.state.toState⟩ : AdaptorForger.Outcome).Completed ∧ out.state.Careful

/-- The run against the signer is won. -/
def Forges {q m s : ℕ} (H : Hash) (sk : Scalar) (A : SoloForger)
    (p : (Fin m → Arr 32) × (Fin q → Arr 32) × (Fin s → Arr 32 × Arr 32)) : Prop :=
  (A.run H sk (answers p.2.1) (answers p.1) (pairs p.2.2) State.init).Wins H (mulG sk)

/-- What the forger submits when all hashes are those of one function. -/
def play (H : Hash) (sk : Scalar) : SoloForger → Bytes × CompactSignature
  | .submit msg sig => (msg, sig)
  | .ask x next => play H sk (next (H x))
  | .sign msg seed T next => play H sk (next (signSoloAdaptor H sk msg seed T))

/-! ## A forger without seeds -/

/-- The secret key of the even one of `P` and `-P` that is masked by `h` in the string `x`, if it is. -/
def keyOf (P : Point) (h : Arr 32) (x : Bytes) : Option Scalar :=
  match parseScalar (Spec.bytes_xor h.1 ((x.drop 64).take 32)) with
  | some d => if d.1 • G = Spec.sgn P.1 • P.1 then some d else none
  | none => none

/-- With the secret key `d` of the even one of `P` and `-P`, forge a signature of a message that is longer than all of
`msgs`. -/
def cheat (P : Point) (d : Scalar) (msgs : List Bytes) : AdaptorForger :=
  let msg := 0 :: msgs.flatten
  .ask (Spec.challengeQuery (Spec.xbytes G) P msg) fun e => .submit msg ⟨xonly G, 1 + reduceFrom e * d.1⟩

/-- What `strip` keeps in mind: the hashes of nonces given, and the adaptor signatures received with the masks of their
seeds. -/
structure Memory where
  nlog : Log
  made : List (Arr 32 × AdaptorForger.Made)

/-- The messages of the adaptor signatures received. -/
def Memory.msgs (m : Memory) : List Bytes := m.made.map fun e => e.2.msg

/-- The forger run by one that knows no seeds. It draws hashes of nonces itself, from `ν`, and repeats adaptor signatures that it
has received. If the forger ever asks for the hash of a nonce of the signer, it finds the secret key there and forges. -/
def strip (H : Hash) (P : Point) (ν : ℕ → Arr 32) : SoloForger → Memory → AdaptorForger
  | .submit msg sig, _ => .submit msg sig
  | .ask x next, m =>
    if NonceTag x then
      match m.made.findSome? fun e => keyOf P e.1 x with
      | some d => cheat P d m.msgs
      | none => strip H P ν (next (m.nlog.answer ν x)) { m with nlog := m.nlog.add ν x }
    else .ask x fun a => strip H P ν (next a) m
  | .sign msg seed T next, m =>
    match m.made.find? fun e => e.1 = mask H seed ∧ e.2.msg = msg ∧ e.2.T = T with
    | some e => strip H P ν (next e.2.sig) m
    | none =>
      match m.nlog.findSome? fun e => keyOf P (mask H seed) e.1 with
      | some d => cheat P d m.msgs
      | none => .sign msg T fun sig =>
          strip H P ν (next sig) { m with made := m.made ++ [(mask H seed, ⟨msg, T, sig⟩)] }

end SoloForger

end Verif
