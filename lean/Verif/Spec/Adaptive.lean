import Verif.Spec.Concurrent
import Verif.Spec.Session

/-!
# Forgers that make up the groups during the game

As in `Spec/Concurrent`, a forger takes part in any number of sessions at once, with adaptor points fixed when a session is
opened. Here it sends the keys and tweaks of the group with the request for a partial signature, and with the forgery, so it
may choose them when it has seen hashes, public nonces and partial signatures. The strings that key aggregation hashes are drawn
as well as those of challenges and nonce coefficients.

The forger is algebraic: it says how the keys in a list are combinations of `G` and the signer's key, how an aggregated key
in a challenge or nonce coefficient is such a combination, and how a nonce is a combination of the points it has seen. Used
by `Props/Adaptive`.
-/

namespace Verif

/-- What key aggregation hashes first: the list of the keys. -/
def Spec.listQuery (keys : List Point) : Bytes :=
  Spec.taggedInput "KeyAgg list" (keys.map fun K => Spec.cbytes K.1).flatten

/-- What key aggregation hashes to the coefficient of `K` in the list with the hash `h`. -/
def Spec.coefString (h : Arr 32) (K : Point) : Bytes := Spec.taggedInput "KeyAgg coefficient" (h.1 ++ Spec.cbytes K.1)

namespace Concurrent

/-- First the one, then the other. -/
def Play.bind {ν : Type} {k : ℕ} {α β : Type} : Play ν k α → (α → Play ν k β) → Play ν k β
  | .done a, f => f a
  | .ask x n next, f => .ask x n fun n h => (next n h).bind f
  | .dlog c next, f => .dlog c fun z => (next z).bind f

end Concurrent

namespace Adaptive

open Forger (answers)
open Concurrent (Combination Play Log Unknown Equation Public publicOf nonceSign secrets)

/-- The string begins with a tag of challenges, nonce coefficients or key aggregation. -/
def Drawn (x : Bytes) : Prop :=
  ∃ t ∈ ["BIP0340/challenge", "MuSig/noncecoef", "KeyAgg list", "KeyAgg coefficient"], Spec.taggedInput t [] <+: x

instance : DecidablePred Drawn := fun _ => List.decidableBEx _ _

/-- What a forger says with a string it asks for: how the nonce in it is a combination, `(A, B)` if the aggregated key in it
is `A·G + B·P` up to its sign, and `reps K = (α, β)` if the key `K` in it is `α·G + β·P`. -/
structure Data where
  combination : Combination
  key : MaybeScalar × MaybeScalar
  reps : Point → MaybeScalar × MaybeScalar

/-- What is recorded when a string is asked for the first time: what the forger says, and the adaptor points of the sessions
that have been opened. -/
structure Note where
  data : Data
  points : List MaybePoint

/-- The part about the nonce. -/
def Note.nonce (n : Note) : Concurrent.Note := ⟨n.data.combination, n.points.map fun T => ⟨T, none⟩⟩

/-- The coefficient of `G` in the key `K` of a list. -/
def Note.alpha (P : Point) (n : Note) (K : Point) : MaybeScalar := if K = P then 0 else (n.data.reps K).1

/-- The coefficient of the signer's key `P` in the key `K` of a list. -/
def Note.beta (P : Point) (n : Note) (K : Point) : MaybeScalar := if K = P then 1 else (n.data.reps K).2

/-- The aggregated key that is described, up to its sign. -/
def Note.keyPoint (P : Point) (n : Note) : MaybePoint := n.data.key.1 • G + n.data.key.2 • P.1

/-- A group: its keys and tweaks, the context and the hash function it was made with, and what was recorded about the keys. -/
structure Group where
  keys : List Point
  tweaks : List (Scalar × Bool)
  hash : Hash
  ctx : KeyAggContext
  note : Note

/-- What is known about a group that the owner of `P` is a member of. -/
def Group.known (P : Point) (g : Group) : Public :=
  publicOf g.hash (fun _ => g.ctx) P (g.note.alpha P) (g.note.beta P) fun _ => Spec.keyCoeff g.hash g.ctx.pubkeys P

/-- The coefficients of `G` and `P` in the aggregated key. -/
def Group.rep (P : Point) (g : Group) : MaybeScalar × MaybeScalar := ((g.known P).A 0, (g.known P).B 0)

/-- What was recorded about the keys of the group was right. -/
def Group.Right (P : Point) (g : Group) : Prop := ∀ K ∈ g.keys, K.1 = g.note.alpha P K • G + g.note.beta P K • P.1

/-- What the signer has done in a session. -/
structure Signed where
  group : Group
  aggnonce : AggNonce
  message : Bytes
  /-- What was recorded with the nonce coefficient. -/
  note : Note
  /-- The hash of the nonce coefficient. -/
  hb : Arr 32
  /-- The hash of the challenge. -/
  he : Arr 32
  sig : MaybeScalar

/-- A session: its adaptor point, and what the signer has done in it. -/
structure Session where
  point : MaybePoint
  signed : Option Signed

/-- A forger, as the tree of what it does next. -/
inductive Adversary where
  /-- Submit a forgery for the key of a group. -/
  | submit (keys : List Point) (tweaks : List (Scalar × Bool)) (msg : Bytes) (sig : CompactSignature) (d : Data)
  /-- Ask for the hash of `x`, and go on with the answer. -/
  | ask (x : Bytes) (d : Data) (next : Arr 32 → Adversary)
  /-- Open a session with the adaptor point `T`, and go on with the public nonce of the signer. -/
  | start (T : MaybePoint) (next : PubNonce → Adversary)
  /-- Ask for the partial signature of a group in session `i`. -/
  | sign (i : ℕ) (keys : List Point) (tweaks : List (Scalar × Bool)) (an : AggNonce) (msg : Bytes) (d : Data)
      (next : MaybeScalar → Adversary)

/-- At most `q` strings are drawn, those that the signer and the verifier hash included, and at most `k` sessions are opened. Other
strings may be asked for as often as the forger likes. In each session it receives only one partial signature. -/
inductive Adversary.AsksAtMost : ℕ → ℕ → Adversary → Prop where
  | submit (q k : ℕ) (keys : List Point) (tweaks : List (Scalar × Bool)) (msg : Bytes) (sig : CompactSignature) (d : Data) :
      AsksAtMost (q + keys.length + 2) k (.submit keys tweaks msg sig d)
  | ask (q k : ℕ) (x : Bytes) (d : Data) (next : Arr 32 → Adversary) (h : ∀ a, AsksAtMost q k (next a)) :
      AsksAtMost (q + 1) k (.ask x d next)
  | other (q k : ℕ) (x : Bytes) (d : Data) (next : Arr 32 → Adversary) (hx : ¬ Drawn x) (h : ∀ a, AsksAtMost q k (next a)) :
      AsksAtMost q k (.ask x d next)
  | start (q k : ℕ) (T : MaybePoint) (next : PubNonce → Adversary) (h : ∀ pn, AsksAtMost q k (next pn)) :
      AsksAtMost q (k + 1) (.start T next)
  | sign (q k i : ℕ) (keys : List Point) (tweaks : List (Scalar × Bool)) (an : AggNonce) (msg : Bytes) (d : Data)
      (next : MaybeScalar → Adversary) (h : ∀ s, AsksAtMost q k (next s)) :
      AsksAtMost (q + keys.length + 3) k (.sign i keys tweaks an msg d next)

/-! ## The game -/

/-- `new` with the keys, then `with_tweaks`. -/
def makeContext (H : Hash) (keys : List Point) (tweaks : List (Scalar × Bool)) : Option KeyAggContext :=
  match KeyAggContext.new H keys with
  | .ok ctx => match ctx.withTweaks tweaks with
    | .ok ctx' => some ctx'
    | _ => none
  | _ => none

/-- Ask for the coefficients of keys in the list with the hash `h`, and return `H` with the answers. -/
def askCoefs {k : ℕ} (h : Arr 32) (n : Note) : List Point → Hash → Play Note k Hash
  | [], H => .done H
  | K :: keys, H => .ask (Spec.coefString h K) n fun _ c => askCoefs h n keys (H.answering (Spec.coefString h K) c)

/-- Make a group. It must have the signer's key `P` in it. -/
def makeGroup {k : ℕ} (H : Hash) (P : Point) (keys : List Point) (tweaks : List (Scalar × Bool)) (n : Note) :
    Play Note k (Option Group) :=
  if P ∈ keys then
    .ask (Spec.listQuery keys) n fun n' h =>
      (askCoefs h n keys (H.answering (Spec.listQuery keys) h)).bind fun H' =>
        .done ((makeContext H' keys tweaks).map fun ctx => ⟨keys, tweaks, H', ctx, n'⟩)
  else .done none

/-- What comes out of a game: the forgery, the record and the hash of its challenge, and the sessions. -/
structure Outcome where
  group : Group
  msg : Bytes
  sig : CompactSignature
  note : Note
  he : Arr 32
  sessions : List Session

/-- The game for the signer's key `P`, with public nonces `pn`. Partial signatures are made by `sign` from the number of the
session, the group, the reply of the forger and the hashes of the nonce coefficient and the challenge. -/
def game {k : ℕ} (H : Hash) (P : Point) (pn : ℕ → PubNonce)
    (sign : ℕ → Group → Spec.Reply → Arr 32 → Arr 32 → Play Note k MaybeScalar) :
    Adversary → List Session → Play Note k (Option Outcome)
  | .submit keys tweaks msg sig d, ss =>
    (makeGroup H P keys tweaks ⟨d, ss.map (·.point)⟩).bind fun
      | none => .done none
      | some g => .ask (Spec.challengeQuery sig.rx.1 g.ctx.aggregatedPubkey msg) ⟨{ d with key := g.rep P }, ss.map (·.point)⟩
          fun n he => .done (some ⟨g, msg, sig, n, he, ss⟩)
  | .ask x d next, ss =>
    if Drawn x then .ask x ⟨d, ss.map (·.point)⟩ fun _ h => game H P pn sign (next h) ss
    else game H P pn sign (next (H x)) ss
  | .start T next, ss => game H P pn sign (next (pn ss.length)) (ss ++ [⟨T, none⟩])
  | .sign i keys tweaks an msg d next, ss =>
    match ss[i]? with
    | some ⟨T, none⟩ =>
      (makeGroup H P keys tweaks ⟨d, ss.map (·.point)⟩).bind fun
        | none => game H P pn sign (next 0) ss
        | some g =>
          let n : Note := ⟨{ d with combination := .zero, key := g.rep P }, ss.map (·.point)⟩
          .ask (Spec.noncecoefQuery an g.ctx.aggregatedPubkey msg) n fun nb hb =>
            .ask (Spec.challengeQuery (Spec.xbytes ((⟨an, T, msg⟩ : Spec.Reply).nonce hb)) g.ctx.aggregatedPubkey msg) n fun _ he =>
              (sign i g ⟨an, T, msg⟩ hb he).bind fun s =>
                game H P pn sign (next s) (ss.set i ⟨T, some ⟨g, an, msg, nb, hb, he, s⟩⟩)
    | _ => game H P pn sign (next 0) ss

/-- The game against the signer who has the secret key `sk` and uses the nonces `sn i` in session `i`. -/
def signerGame (k : ℕ) (H : Hash) (sk : Scalar) (sn : ℕ → SecNonce) (A : Adversary) : Play Note k (Option Outcome) :=
  game H (mulG sk) (fun i => (sn i).publicNonce)
    (fun i g r hb he => .done (SessionForger.partialSignature g.hash g.ctx sk (sn i) r hb he)) A []

/-- The forgery is for a group with the key `P`. No session was about the message, the x-only key and the x-only nonce of the signature,
`verify_single` accepts it, and what was recorded about its nonce, about the keys of its group and those of the sessions, and about the aggregated keys,
was right. -/
def Wins (H : Hash) (P : Point) (pn : ℕ → PubNonce) : Option Outcome × Log Note → Prop
  | (none, _) => False
  | (some out, log) =>
    (∀ s ∈ out.sessions, ∀ r, s.signed = some r → ¬ (r.message = out.msg ∧
        Spec.xbytes r.group.ctx.aggregatedPubkey.1 = Spec.xbytes out.group.ctx.aggregatedPubkey.1 ∧
        Spec.xbytes ((⟨r.aggnonce, s.point, r.message⟩ : Spec.Reply).nonce r.hb) = out.sig.rx.1)) ∧
      verifySingle (log.hash H) out.group.ctx.aggregatedPubkey out.sig out.msg = .ok () ∧
      xonly (out.note.nonce.value P pn) = out.sig.rx ∧
      out.group.Right P ∧ xonly (out.note.keyPoint P) = xonly out.group.ctx.aggregatedPubkey.1 ∧
      ∀ s ∈ out.sessions, ∀ r, s.signed = some r →
        r.group.Right P ∧ xonly (r.note.keyPoint P) = xonly r.group.ctx.aggregatedPubkey.1

/-- The game against the signer is won. -/
def Forges (k : ℕ) {N : ℕ} (H : Hash) (sk : Scalar) (sn : ℕ → SecNonce) (A : Adversary) (ω : Fin N → Arr 32) : Prop :=
  Wins H (mulG sk) (fun i => (sn i).publicNonce) ((signerGame k H sk sn A).run (secrets k sk sn) (answers ω) [])

/-! ## The solver -/

/-- The row of session `i`, if it has been signed. -/
def Outcome.signatureRow (k : ℕ) (P : Point) (out : Outcome) (i : ℕ) : Option (Equation k) :=
  match out.sessions[i]? with
  | some ⟨T, some r⟩ => some (Concurrent.signatureRow k (r.group.known P) i 0 ⟨r.aggnonce, T, r.message⟩ r.hb r.he,
      nonceSign ⟨r.aggnonce, T, r.message⟩ r.hb * r.sig)
  | _ => none

/-- Two representations of the same x-only key are an equation for the secret key. -/
def keyRow (k : ℕ) (P : Point) (g : Group) (n : Note) : Equation k :=
  (fun | none => Spec.sgn (n.keyPoint P) * n.data.key.2 - Spec.sgn g.ctx.aggregatedPubkey.1 * (g.rep P).2
       | some _ => 0,
    Spec.sgn g.ctx.aggregatedPubkey.1 * (g.rep P).1 - Spec.sgn (n.keyPoint P) * n.data.key.1)

/-- The forgery in the form of `Spec/Concurrent`. -/
def Outcome.forgery (out : Outcome) : Concurrent.Outcome := ⟨0, out.msg, out.sig, out.note.nonce, out.he, []⟩

/-- The equations beside those of the partial signatures: those of the aggregated keys, and that of the forged signature. -/
def Outcome.candidates (k : ℕ) (P : Point) (pn : ℕ → PubNonce) (out : Outcome) : List (Equation k) :=
  out.sessions.filterMap (fun s => s.signed.map fun r => keyRow k P r.group r.note)
    ++ [keyRow k P out.group out.note,
      (out.forgery.forgedRow k (out.group.known P) pn, out.forgery.forgedValue (out.group.known P) pn)]

/-- The solver: it plays the signer by asking for a discrete logarithm for each partial signature. It is given public
data only. -/
noncomputable def solver (k : ℕ) (H : Hash) (P : Point) (pn : ℕ → PubNonce) (A : Adversary) :
    Play Note k (Unknown k → MaybeScalar) :=
  (game H P pn (fun i g r hb he => .dlog (Concurrent.signatureRow k (g.known P) i 0 r hb he) fun z => .done (nonceSign r hb * z))
    A []).bind fun
    | none => .done 0
    | some out => Concurrent.solve (out.signatureRow k P) (out.candidates k P pn)

end Adaptive

end Verif
