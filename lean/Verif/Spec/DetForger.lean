import Verif.Spec.SoloForger
import Verif.Model.Deterministic

/-!
# Forgers against deterministic signing

As in `Spec/AdaptorForger` a forger asks for adaptor signatures, but now they are made by `deterministic::adaptor::sign_solo`, which
takes all its randomness from the hash function. Strings that begin with the tag of challenges, and the strings that are
hashed on the way from the secret key and the message to the nonce, are drawn. Used by `Props/DetForger`.
-/

namespace Verif

open Forger (Log Drawn answers)
open AdaptorForger (Made)

namespace DetGame

/-- The forger asks for at most `q` challenges, `m` other hashes and `s` adaptor signatures, whatever the answers. -/
inductive AsksAtMost : ℕ → ℕ → ℕ → AdaptorForger → Prop where
  | submit (q m s : ℕ) (msg : Bytes) (sig : CompactSignature) : AsksAtMost q m s (.submit msg sig)
  | challenge (q m s : ℕ) (x : Bytes) (next : Arr 32 → AdaptorForger) (hx : Drawn x) (h : ∀ a, AsksAtMost q m s (next a)) :
      AsksAtMost (q + 1) m s (.ask x next)
  | other (q m s : ℕ) (x : Bytes) (next : Arr 32 → AdaptorForger) (hx : ¬ Drawn x) (h : ∀ a, AsksAtMost q m s (next a)) :
      AsksAtMost q (m + 1) s (.ask x next)
  | sign (q m s : ℕ) (msg : Bytes) (T : MaybePoint) (next : AdaptorSignature → AdaptorForger)
      (h : ∀ sig, AsksAtMost q m s (next sig)) : AsksAtMost q m (s + 1) (.sign msg T next)

/-- The inner string of HMAC with a key of 32 bytes. -/
def inner (K : Arr 32) (m : Bytes) : Bytes := (K.1 ++ List.replicate 32 0).map (· ^^^ 0x36) ++ m

/-- The outer string of HMAC with a key of 32 bytes. -/
def outer (K : Arr 32) (h : Arr 32) : Bytes := (K.1 ++ List.replicate 32 0).map (· ^^^ 0x5c) ++ h.1

/-- The strings hashed on the way from the secret key and the hash `h1` of the message to the nonce, where `v j` is the hash of the
`j`-th: five times HMAC as in RFC 6979, the hash of the seed, and the hash of the nonce. Each contains the hash before it. -/
def chain (sk : Scalar) (msg : Bytes) (h1 : Arr 32) (v : ℕ → Arr 32) : ℕ → Bytes
  | 0 => inner (rep32 0) ((rep32 1).1 ++ [0] ++ (serScalar sk.1).1 ++ h1.1)
  | 1 => outer (rep32 0) (v 0)
  | 2 => inner (v 1) (rep32 1).1
  | 3 => outer (v 1) (v 2)
  | 4 => inner (v 1) ((v 3).1 ++ [1] ++ (serScalar sk.1).1 ++ h1.1)
  | 5 => outer (v 1) (v 4)
  | 6 => inner (v 5) (v 3).1
  | 7 => outer (v 5) (v 6)
  | 8 => inner (v 5) (v 7).1
  | 9 => outer (v 5) (v 8)
  | 10 => Spec.taggedInput "BIP0340/aux" (v 9).1
  | _ => SoloForger.nonceQuery sk (v 10) msg

/-- What has happened so far: challenges drawn and adaptor signatures made as in `AdaptorForger.State`, the other strings that the
forger asked for or had signed, and the hashes drawn for the signer. -/
structure State extends AdaptorForger.State where
  asked : List Bytes
  table : Log

/-- Nothing has happened. -/
def State.init : State := ⟨AdaptorForger.State.init, [], []⟩

/-- The hash function of a state; it is `H` where nothing has been drawn. -/
def State.hash (H : Hash) (st : State) : Hash := fun x =>
  (st.table.find x).getD (if Drawn x then st.toState.hash H x else H x)

/-- The state after the hash of `x` was asked for by the forger, or `x` was hashed as a message. -/
def State.hears (ω : ℕ → Arr 32) (st : State) (x : Bytes) : State :=
  if Drawn x then { st with toState := st.toState.ask ω x } else { st with asked := st.asked ++ [x] }

/-- The state after the signer has hashed `x`, with the answer `a` if it is new. -/
def State.draw (st : State) (x : Bytes) (a : Arr 32) : State :=
  if x ∈ st.asked ∨ (st.table.find x).isSome then st else { st with table := st.table ++ [(x, a)] }

/-- The state after the signer has hashed the first strings of the chain, with the answers `d` where they are new; and the
hashes. -/
def State.derive (H : Hash) (sk : Scalar) (msg : Bytes) (h1 : Arr 32) (d : ℕ → Arr 32) (st : State) : ℕ → State × (ℕ → Arr 32)
  | 0 => (st, fun _ => zeroSeed)
  | j + 1 =>
    let p := derive H sk msg h1 d st j
    let x := chain sk msg h1 p.2 j
    let st' := p.1.draw x (d j)
    (st', Function.update p.2 j (st'.hash H x))

/-- How a run ends: the forger has broken the rule, the signer has needed a second candidate for its seed, or the forger has
submitted something. -/
inductive Ending where
  | lost
  | stuck
  | submitted (msg : Bytes) (sig : CompactSignature) (state : State)

/-- The answers for the `i`-th chain: `v i` and last `a`. -/
def drawsOf (v : ℕ → Arr 32) (a : Arr 32) (j : ℕ) : Arr 32 := if j = 11 then a else v j

/-- What the signer does when asked to sign: refuse because the forger has broken the rule, need a second candidate for its seed,
or give an adaptor signature. -/
inductive Reply where
  | lost
  | stuck
  | given (sig : AdaptorSignature) (state : State)

/-- The reply to a new request, when the hashes `d` of the chain have been drawn; the challenge is hashed to `e` if it is new. -/
def State.finish (H : Hash) (sk : Scalar) (e : Arr 32) (msg : Bytes) (T : MaybePoint) (d : ℕ → Arr 32) (st : State) : Reply :=
  match parseScalar (d 9).1, deterministicSignSoloAdaptor (st.hash H) sk msg T with
  | some _, some sig₁ =>
    let x := Spec.challengeQuery (xonly (sig₁.R + T)).1 (mulG sk) msg
    let st₂ := { st with toState := st.toState.program x e }
    match deterministicSignSoloAdaptor (st₂.hash H) sk msg T with
    | some sig => .given sig { st₂ with toState := st₂.toState.record ⟨msg, T, sig⟩ }
    | none => .stuck
  | _, _ => .stuck

/-- The reply of the signer with the secret key `sk`, who makes adaptor signatures with `deterministic::adaptor::sign_solo` and the
hash function of the state. A new request draws the hashes of the chain, from `v` and last `e.1`, and the challenge `e.2`, as far as
the strings are new. The rule is that no message is signed with two adaptor points. -/
def State.reply (H : Hash) (sk : Scalar) (v : ℕ → Arr 32) (e : Arr 32 × Arr 32) (msg : Bytes) (T : MaybePoint) (st : State) : Reply :=
  match st.signed.find? fun m => m.msg = msg ∧ m.T = T with
  | some _ =>
    match deterministicSignSoloAdaptor (st.hash H) sk msg T with
    | some sig => .given sig st
    | none => .stuck
  | none =>
    match st.signed.find? fun m => m.msg = msg with
    | some _ => .lost
    | none =>
      let p := st.derive H sk msg (st.hash H msg) (drawsOf v e.1) 12
      p.1.finish H sk e.2 msg T p.2

/-- A run against the signer with the secret key `sk`. The `i`-th new request for an adaptor signature draws `v i` and `κ i`. -/
def run (H : Hash) (sk : Scalar) (ω : ℕ → Arr 32) (v : ℕ → ℕ → Arr 32) (κ : ℕ → Arr 32 × Arr 32) : AdaptorForger → State → Ending
  | .submit msg sig, st =>
    .submitted msg sig { st with toState := st.toState.ask ω (Spec.challengeQuery sig.rx.1 (mulG sk) msg) }
  | .ask x next, st => run H sk ω v κ (next ((st.hears ω x).hash H x)) (st.hears ω x)
  | .sign msg T next, st =>
    match (st.hears ω msg).reply H sk (v st.signed.length) (κ st.signed.length) msg T with
    | .lost => .lost
    | .stuck => .stuck
    | .given sig st' => run H sk ω v κ (next sig) st'

/-- The run is won: `verify_single` accepts what is submitted, and it is not the completion of an adaptor signature received. Runs in
which the signer needs a second candidate are counted as won too. -/
def Ending.Wins (H : Hash) (P : Point) : Ending → Prop
  | .lost => False
  | .stuck => True
  | .submitted msg sig st =>
    verifySingle (st.hash H) P sig msg = .ok () ∧ ¬ (⟨msg, sig, st.toState⟩ : AdaptorForger.Outcome).Completed

/-- Finitely many draws, continued with zeros. -/
def blocks {s : ℕ} (v : Fin s → Fin 11 → Arr 32) (i : ℕ) : ℕ → Arr 32 := if h : i < s then answers (v ⟨i, h⟩) else fun _ => zeroSeed

/-- The run against the signer is won. -/
def Forges {q s : ℕ} (H : Hash) (sk : Scalar) (A : AdaptorForger)
    (p : (Fin s → Fin 11 → Arr 32) × (Fin q → Arr 32) × (Fin s → Arr 32 × Arr 32)) : Prop :=
  (run H sk (answers p.2.1) (blocks p.1) (CmaForger.pairs p.2.2) A State.init).Wins H (mulG sk)

/-- What the forger submits when all hashes are those of one function. -/
def play (H : Hash) (sk : Scalar) : AdaptorForger → Option (Bytes × CompactSignature)
  | .submit msg sig => some (msg, sig)
  | .ask x next => play H sk (next (H x))
  | .sign msg T next =>
    match deterministicSignSoloAdaptor H sk msg T with
    | some sig => play H sk (next sig)
    | none => none

/-! ## A forger against a signer with random nonces -/

/-- The secret key of `P` at the place in `x` where it is in the first string of a chain, if it is; with the sign that makes the
point even. -/
def keyAt (P : Point) (x : Bytes) : Option Scalar :=
  match parseScalar ((x.drop 97).take 32) with
  | some d => if d.1 • G = P.1 then some (d.negIf (isOdd P.1)) else none
  | none => none

/-- The forger run by one against a signer with random nonces. It repeats adaptor signatures that it has received. If the
forger ever hashes the secret key as in the first string of a chain, it forges with it. -/
def strip (P : Point) : AdaptorForger → List Made → AdaptorForger
  | .submit msg sig, _ => .submit msg sig
  | .ask x next, made =>
    match keyAt P x with
    | some d => SoloForger.cheat P d (made.map Made.msg)
    | none => .ask x fun a => strip P (next a) made
  | .sign msg T next, made =>
    match keyAt P msg with
    | some d => SoloForger.cheat P d (made.map Made.msg)
    | none => .ask msg fun _ =>
      match made.find? fun m => m.msg = msg ∧ m.T = T with
      | some m => strip P (next m.sig) made
      | none => .sign msg T fun sig => strip P (next sig) (made ++ [⟨msg, T, sig⟩])

end DetGame

end Verif
