import Verif.Spec.Oracle
import Verif.Spec.Claims
import Verif.Spec.Rogue

/-!
# Forgers that take part in many sessions at once

A forger asks the hash function about byte strings, opens any number of sessions with a signer, and asks for partial
signatures in any order. The signer is a member of groups with the numbers `0, 1, …`, which may have the same members and
differ in tweaks; the forger chooses the group of a session when it asks for the partial signature. The adaptor point of a session is fixed when it is opened, before the signer sends its public nonce.
Strings that begin with the tags of challenges and of nonce coefficients are drawn, from one sequence of answers. The forger
is algebraic: when it asks for a challenge it says how the nonce is a combination of the points it has seen.

The secret key and the `2k` secret nonces are unknowns. The solver plays the signer by asking for discrete logarithms of
combinations of the public key and public nonces, and if the forger succeeds it learns all unknowns with `2k` such questions
(the one-more discrete logarithm problem). Used by `Props/Concurrent`.
-/

namespace Verif

open Forger (Drawn answers)
open Asking (DrawnNonce)

namespace Concurrent

/-- The combination of `G`, the signer's key and its public nonces with the coefficients `g`, `p` and `r i`, where `i` counts
the sessions. -/
structure Combination where
  g : MaybeScalar
  p : MaybeScalar
  r : ℕ → MaybeScalar × MaybeScalar

/-- A combination that says nothing. -/
def Combination.zero : Combination := ⟨0, 0, fun _ => (0, 0)⟩

/-- What the signer has done in a session. -/
structure Signed where
  /-- The number of the group. -/
  group : ℕ
  aggnonce : AggNonce
  message : Bytes
  /-- The hash of the nonce coefficient. -/
  hb : Arr 32
  /-- The hash of the challenge. -/
  he : Arr 32
  sig : MaybeScalar

/-- A session: its adaptor point, and what the signer has done in it. -/
structure Session where
  point : MaybePoint
  signed : Option Signed

/-- What is recorded when a string is asked for the first time: the combination, and the sessions that have been opened. -/
structure Note where
  combination : Combination
  sessions : List Session

/-- The coefficients of the nonces of session `i`; only those of sessions that have been opened count. -/
def Note.coef (n : Note) (i : ℕ) : MaybeScalar × MaybeScalar :=
  if i < n.sessions.length then n.combination.r i else (0, 0)

/-- The point that is described. -/
def Note.value (n : Note) (P : Point) (pn : ℕ → PubNonce) : MaybePoint :=
  n.combination.g • G + n.combination.p • P.1
    + ∑ i ∈ Finset.range n.sessions.length, ((n.coef i).1 • (pn i).R1.1 + (n.coef i).2 • (pn i).R2.1)

/-- A forger, as the tree of what it does next. -/
inductive Adversary where
  /-- Submit a forgery for the key of group `g`. The combination is that of the nonce, in case its challenge has not been asked for. -/
  | submit (g : ℕ) (msg : Bytes) (sig : CompactSignature) (c : Combination)
  /-- Ask for the hash of `x`, and go on with the answer. If it is a challenge, then the combination is that of the nonce. -/
  | ask (x : Bytes) (c : Combination) (next : Arr 32 → Adversary)
  /-- Open a session with the adaptor point `T`, and go on with the public nonce of the signer. -/
  | start (T : MaybePoint) (next : PubNonce → Adversary)
  /-- Ask for the partial signature of group `g` in session `i`. -/
  | sign (i g : ℕ) (an : AggNonce) (msg : Bytes) (next : MaybeScalar → Adversary)

/-- The forger asks for at most `q` challenges and nonce coefficients and opens at most `k` sessions. It may ask as often as
it likes for other hashes. In each session it receives only one partial signature. -/
inductive Adversary.AsksAtMost : ℕ → ℕ → Adversary → Prop where
  | submit (q k g : ℕ) (msg : Bytes) (sig : CompactSignature) (c : Combination) : AsksAtMost q k (.submit g msg sig c)
  | ask (q k : ℕ) (x : Bytes) (c : Combination) (next : Arr 32 → Adversary) (h : ∀ a, AsksAtMost q k (next a)) :
      AsksAtMost (q + 1) k (.ask x c next)
  | other (q k : ℕ) (x : Bytes) (c : Combination) (next : Arr 32 → Adversary) (hx : ¬ (Drawn x ∨ DrawnNonce x))
      (h : ∀ a, AsksAtMost q k (next a)) : AsksAtMost q k (.ask x c next)
  | start (q k : ℕ) (T : MaybePoint) (next : PubNonce → Adversary) (h : ∀ pn, AsksAtMost q k (next pn)) :
      AsksAtMost q (k + 1) (.start T next)
  | sign (q k i g : ℕ) (an : AggNonce) (msg : Bytes) (next : MaybeScalar → Adversary) (h : ∀ s, AsksAtMost q k (next s)) :
      AsksAtMost q k (.sign i g an msg next)

/-! ## The game -/

/-- What comes out of a game: the forgery, the record and the hash of its challenge, and the sessions. -/
structure Outcome where
  group : ℕ
  msg : Bytes
  sig : CompactSignature
  note : Note
  he : Arr 32
  sessions : List Session

/-- The game for the keys `Q g` of groups, with public nonces `pn`. Partial signatures are made by `sign` from the number of
the session, the number of the group, the reply of the forger and the hashes of the nonce coefficient and the challenge. -/
def game {k : ℕ} {α : Type} (H : Hash) (Q : ℕ → Point) (pn : ℕ → PubNonce)
    (sign : ℕ → ℕ → Spec.Reply → Arr 32 → Arr 32 → (MaybeScalar → Play Note k α) → Play Note k α) (submit : Outcome → Play Note k α) :
    Adversary → List Session → Play Note k α
  | .submit g msg sig c, ss =>
    .ask (Spec.challengeQuery sig.rx.1 (Q g) msg) ⟨c, ss⟩ fun n he => submit ⟨g, msg, sig, n, he, ss⟩
  | .ask x c next, ss =>
    if Drawn x ∨ DrawnNonce x then .ask x ⟨c, ss⟩ fun _ h => game H Q pn sign submit (next h) ss
    else game H Q pn sign submit (next (H x)) ss
  | .start T next, ss => game H Q pn sign submit (next (pn ss.length)) (ss ++ [⟨T, none⟩])
  | .sign i g an msg next, ss =>
    match ss[i]? with
    | some ⟨T, none⟩ =>
      .ask (Spec.noncecoefQuery an (Q g) msg) ⟨.zero, ss⟩ fun _ hb =>
        .ask (Spec.challengeQuery (Spec.xbytes ((⟨an, T, msg⟩ : Spec.Reply).nonce hb)) (Q g) msg) ⟨.zero, ss⟩ fun _ he =>
          sign i g ⟨an, T, msg⟩ hb he fun s =>
            game H Q pn sign submit (next s) (ss.set i ⟨T, some ⟨g, an, msg, hb, he, s⟩⟩)
    | _ => game H Q pn sign submit (next 0) ss

/-- The game against the signer who has the secret key `sk` in the groups `ctx g` and uses the nonces `sn i` in session `i`. -/
def signerGame (k : ℕ) (H : Hash) (ctx : ℕ → KeyAggContext) (sk : Scalar) (sn : ℕ → SecNonce) (A : Adversary) : Play Note k Outcome :=
  game H (fun g => (ctx g).aggregatedPubkey) (fun i => (sn i).publicNonce)
    (fun i g r hb he next => next (SessionForger.partialSignature H (ctx g) sk (sn i) r hb he)) .done A []

/-- The unknowns of the game against the signer. -/
def secrets (k : ℕ) (sk : Scalar) (sn : ℕ → SecNonce) : Unknown k → MaybeScalar
  | none => sk.1
  | some (i, false) => (sn i).k1.1
  | some (i, true) => (sn i).k2.1

/-- The nonce, with the adaptor point, that a session with the aggregated key `Q` is about: the hash function is `O`. -/
def _root_.Verif.Spec.sessionNonce (O : Hash) (Q : Point) (r : Spec.Reply) : MaybePoint :=
  r.nonce (O (Spec.noncecoefQuery r.aggnonce Q r.message))

/-- No session was about the message, the x-only key and the x-only nonce of the signature, `verify_single` accepts it, and the
combination recorded for its challenge was right. -/
def Wins (H : Hash) (Q : ℕ → Point) (P : Point) (pn : ℕ → PubNonce) (out : Outcome × Log Note) : Prop :=
  (∀ s ∈ out.1.sessions, ∀ r, s.signed = some r →
      ¬ (r.message = out.1.msg ∧ Spec.xbytes (Q r.group).1 = Spec.xbytes (Q out.1.group).1 ∧
        Spec.xbytes ((⟨r.aggnonce, s.point, r.message⟩ : Spec.Reply).nonce r.hb) = out.1.sig.rx.1)) ∧
    verifySingle (out.2.hash H) (Q out.1.group) out.1.sig out.1.msg = .ok () ∧ xonly (out.1.note.value P pn) = out.1.sig.rx

/-- The game against the signer is won. -/
def Forges (k : ℕ) {N : ℕ} (H : Hash) (ctx : ℕ → KeyAggContext) (sk : Scalar) (sn : ℕ → SecNonce) (A : Adversary)
    (ω : Fin N → Arr 32) : Prop :=
  Wins H (fun g => (ctx g).aggregatedPubkey) (mulG sk) (fun i => (sn i).publicNonce)
    ((signerGame k H ctx sk sn A).run (secrets k sk sn) (answers ω) [])

/-! ## The solver -/

/-- What the solver knows: the key `P` of the signer, and for each group its context, the signer's coefficient `a`, and `A`,
`B` with `Q = A·G + B·P`. -/
structure Public where
  H : Hash
  P : Point
  ctx : ℕ → KeyAggContext
  a : ℕ → MaybeScalar
  A : ℕ → MaybeScalar
  B : ℕ → MaybeScalar

/-- What is known about groups whose keys `K` are the combinations `α K · G + β K · P`. -/
def publicOf (H : Hash) (ctx : ℕ → KeyAggContext) (P : Point) (α β : Point → MaybeScalar) (a : ℕ → MaybeScalar) : Public where
  H := H
  P := P
  ctx := ctx
  a := a
  A := fun g => (if (ctx g).parityAcc then -1 else 1) * Spec.weighted H (ctx g).pubkeys α + (ctx g).tweakAcc
  B := fun g => (if (ctx g).parityAcc then -1 else 1) * Spec.weighted H (ctx g).pubkeys β

/-- The sign of the nonce of a session. -/
def nonceSign (r : Spec.Reply) (hb : Arr 32) : MaybeScalar := Spec.sgn (r.nonce hb)

/-- The coefficients of the unknowns in the partial signature of group `g` in session `i`, before its sign is changed. -/
def signatureRow (k : ℕ) (pub : Public) (i g : ℕ) (r : Spec.Reply) (hb he : Arr 32) : Unknown k → MaybeScalar
  | none => nonceSign r hb * reduceFrom he * (pub.a g * Spec.keySign (pub.ctx g))
  | some (j, false) => if j.1 = i then 1 else 0
  | some (j, true) => if j.1 = i then reduceFrom hb else 0

/-- The row of session `i`, if it has been signed. -/
def Outcome.signatureRow (k : ℕ) (pub : Public) (out : Outcome) (i : ℕ) : Option (Equation k) :=
  match out.sessions[i]? with
  | some ⟨T, some r⟩ => some (Concurrent.signatureRow k pub i r.group ⟨r.aggnonce, T, r.message⟩ r.hb r.he,
      nonceSign ⟨r.aggnonce, T, r.message⟩ r.hb * r.sig)
  | _ => none

/-- The coefficients of the unknowns in the forged signature. -/
def Outcome.forgedRow (k : ℕ) (pub : Public) (pn : ℕ → PubNonce) (out : Outcome) : Unknown k → MaybeScalar
  | none => Spec.sgn (out.note.value pub.P pn) * out.note.combination.p
      + reduceFrom out.he * Spec.sgn (pub.ctx out.group).aggregatedPubkey.1 * pub.B out.group
  | some (j, false) => Spec.sgn (out.note.value pub.P pn) * (out.note.coef j).1
  | some (j, true) => Spec.sgn (out.note.value pub.P pn) * (out.note.coef j).2

/-- What the combination of the unknowns in the forged signature amounts to. -/
def Outcome.forgedValue (pub : Public) (pn : ℕ → PubNonce) (out : Outcome) : MaybeScalar :=
  out.sig.s - Spec.sgn (out.note.value pub.P pn) * out.note.combination.g
    - reduceFrom out.he * Spec.sgn (pub.ctx out.group).aggregatedPubkey.1 * pub.A out.group

/-- The solver after the game, with the equations of the partial signatures and of the forged signature. -/
noncomputable def finish (k : ℕ) (pub : Public) (pn : ℕ → PubNonce) (out : Outcome) : Play Note k (Unknown k → MaybeScalar) :=
  solve (out.signatureRow k pub) [(out.forgedRow k pub pn, out.forgedValue pub pn)]

/-- The solver: it plays the signer by asking for a discrete logarithm for each partial signature. It is given public
data only. -/
noncomputable def solver (k : ℕ) (pub : Public) (pn : ℕ → PubNonce) (A : Adversary) : Play Note k (Unknown k → MaybeScalar) :=
  game pub.H (fun g => (pub.ctx g).aggregatedPubkey) pn
    (fun i g r hb he next => .dlog (signatureRow k pub i g r hb he) fun z => next (nonceSign r hb * z)) (finish k pub pn) A []

end Concurrent

end Verif
