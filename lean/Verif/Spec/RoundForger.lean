import Verif.Spec.Opener
import Verif.Model.Rounds

/-!
# Forgers against somebody who uses the rounds

The signer runs `FirstRound` and `SecondRound`, or `FirstRound` with an aggregator, in any number of sessions at once. A forger chooses the
groups, the position of the signer in them, the spices, the order in which nonces arrive, and the messages. It also decides when the program
of the signer crashes: a session that has not signed can be started again from the seed. Used by `Props/RoundForger`.
-/

namespace Verif

open Adaptive (Data makeContext Outcome Note)
open Concurrent (Log)

/-- A forger, as the tree of what it does next. -/
inductive RoundForger where
  /-- Submit a forgery for the key of a group. -/
  | submit (keys : List Point) (tweaks : List (Scalar × Bool)) (msg : Bytes) (sig : CompactSignature) (d : Data)
  /-- Ask for the hash of `x`, and go on with the answer. -/
  | ask (x : Bytes) (d : Data) (next : Arr 32 → RoundForger)
  /-- Open a session of a group with the adaptor point `T`, and go on with the public nonce of the signer. The forger has asked for the hashes
  of the group, and knows its aggregated key `Q`. The signer is the one with the number `index`, and has the spices `spices sk` if
  `sk` is their secret key. -/
  | start (keys : List Point) (tweaks : List (Scalar × Bool)) (Q : Point) (T : MaybePoint) (index : ℕ) (spices : Scalar → SecNonceSpices)
      (next : PubNonce → RoundForger)
  /-- Deliver a nonce to session `i`, and go on with the result, if there is such a first round. -/
  | deliver (i index : ℕ) (pn : PubNonce) (next : Option (Res RoundContributionError Unit) → RoundForger)
  /-- Have the first round of session `i` finalized, and go on with the signer's partial signature, if there is one. -/
  | finalize (i : ℕ) (msg : Bytes) (d : Data) (next : Option MaybeScalar → RoundForger)
  /-- Have a partial signature made for an aggregator that sends the aggregated nonce `an`, in session `i`. -/
  | aggregator (i : ℕ) (an : AggNonce) (msg : Bytes) (d : Data) (next : Option MaybeScalar → RoundForger)
  /-- Let the signer lose the first round of session `i`, and make it again with the same seed, unless there is a partial signature. -/
  | restart (i : ℕ) (next : RoundForger)

/-- A session of the signer: its adaptor point, its group, the first round as `FirstRound::new` returns it, each time it is called
for this session, the first round as it is now, whether it has not been used up, and what the partial signature was about, if there is one. -/
structure RoundSession where
  point : MaybePoint
  keys : List Point
  tweaks : List (Scalar × Bool)
  first : FirstRound
  round : FirstRound
  live : Bool
  about : Option (KeyAggContext × Bytes × MaybePoint)

namespace RoundSession

/-- The aggregated nonce and the partial signature of the second round. -/
def finalized (O : Hash) (sk : Scalar) (msg : Bytes) (r : RoundSession) : Option (AggNonce × MaybeScalar) :=
  match r.round.finalizeAdaptor O sk r.point msg with
  | .ok r2 => match (r2.ourSignature : Res Unit PartialSignature) with
    | .ok s => some (r2.aggregatedNonce, s)
    | _ => none
  | _ => none

/-- The same for an aggregator. -/
def aggregated (O : Hash) (sk : Scalar) (an : AggNonce) (msg : Bytes) (r : RoundSession) : Option (AggNonce × MaybeScalar) :=
  match r.round.signForAggregatorAdaptor O sk r.point msg an with
  | .ok s => some (an, s)
  | _ => none

/-- The signer starts again, unless there is a partial signature. -/
def restarted (r : RoundSession) : RoundSession :=
  match r.about with
  | none => { r with round := r.first, live := true }
  | some _ => r

/-- The round is used up, whether there is a partial signature or not. -/
def after (O : Hash) (msg : Bytes) (x : Option (AggNonce × MaybeScalar)) (r : RoundSession) : RoundSession :=
  { r with
    live := false
    about := x.map fun y =>
      (r.round.keyAggCtx, msg, Spec.sessionNonce O r.round.keyAggCtx.aggregatedPubkey ⟨y.1, r.point, msg⟩) }

end RoundSession

namespace RoundForger

/-- The session with the number `i`, if its first round has not been used up. -/
def running (rs : List RoundSession) (i : ℕ) : Option RoundSession := rs[i]?.filter (·.live)

/-- The forger succeeds against the code with the hash function `O`. The seeds of the signer are `s 0`, `s 1`, …. The verdict is whether
`verify_single` accepts a signature for a group with the signer's key, and no session was about the message, the x-only key and the x-only
nonce. A forger that is wrong about an aggregated key, or names no member or spices that are too long, has lost. -/
def Accepted (O : Hash) (sk : Scalar) : RoundForger → (ℕ → Arr 32) → List RoundSession → Prop
  | .submit keys tweaks msg sig _, _, rs => mulG sk ∈ keys ∧ ∃ ctx, makeContext O keys tweaks = some ctx ∧
      (∀ r ∈ rs, ∀ c m R, r.about = some (c, m, R) →
        ¬ (m = msg ∧ Spec.xbytes c.aggregatedPubkey.1 = Spec.xbytes ctx.aggregatedPubkey.1 ∧ Spec.xbytes R = sig.rx.1)) ∧
      verifySingle O ctx.aggregatedPubkey sig msg = .ok ()
  | .ask x _ next, s, rs => Accepted O sk (next (O x)) s rs
  | .start keys tweaks Q T index spices next, s, rs => ∃ ctx r, makeContext O keys tweaks = some ctx ∧ ctx.aggregatedPubkey = Q ∧
      FirstRound.new O ctx (s 0) index (spices sk) = .ok r ∧
      Accepted O sk (next r.ourPublicNonce) (fun i => s (i + 1)) (rs ++ [⟨T, keys, tweaks, r, r, true, none⟩])
  | .deliver i index pn next, s, rs => match running rs i with
    | some r => Accepted O sk (next (some (r.round.receiveNonce index pn).2)) s
        (rs.set i { r with round := (r.round.receiveNonce index pn).1 })
    | none => Accepted O sk (next none) s rs
  | .finalize i msg _ next, s, rs => match running rs i with
    | some r => Accepted O sk (next ((r.finalized O sk msg).map (·.2))) s (rs.set i (r.after O msg (r.finalized O sk msg)))
    | none => Accepted O sk (next none) s rs
  | .aggregator i an msg _ next, s, rs => match running rs i with
    | some r => Accepted O sk (next ((r.aggregated O sk an msg).map (·.2))) s (rs.set i (r.after O msg (r.aggregated O sk an msg)))
    | none => Accepted O sk (next none) s rs
  | .restart i next, s, rs => Accepted O sk next s (rs.modify i RoundSession.restarted)

/-- At most `q` strings are drawn, those that the verifier hashes and those that the signer hashes for partial signatures included, and at
most `k` sessions are opened, after some sessions of groups of sizes `ns`. -/
inductive AsksAtMost : ℕ → ℕ → List ℕ → RoundForger → Prop where
  | submit (q k : ℕ) (ns : List ℕ) (keys : List Point) (tweaks : List (Scalar × Bool)) (msg : Bytes) (sig : CompactSignature) (d : Data) :
      AsksAtMost (q + keys.length + 2) k ns (.submit keys tweaks msg sig d)
  | ask (q k : ℕ) (ns : List ℕ) (x : Bytes) (d : Data) (next : Arr 32 → RoundForger) (h : ∀ a, AsksAtMost q k ns (next a)) :
      AsksAtMost (q + 1) k ns (.ask x d next)
  | other (q k : ℕ) (ns : List ℕ) (x : Bytes) (d : Data) (next : Arr 32 → RoundForger) (hx : ¬ Opener.Drawn x)
      (h : ∀ a, AsksAtMost q k ns (next a)) : AsksAtMost q k ns (.ask x d next)
  | start (q k : ℕ) (ns : List ℕ) (keys : List Point) (tweaks : List (Scalar × Bool)) (Q : Point) (T : MaybePoint) (index : ℕ)
      (spices : Scalar → SecNonceSpices) (next : PubNonce → RoundForger) (h : ∀ pn, AsksAtMost q k (ns ++ [keys.length]) (next pn)) :
      AsksAtMost q (k + 1) ns (.start keys tweaks Q T index spices next)
  | deliver (q k : ℕ) (ns : List ℕ) (i index : ℕ) (pn : PubNonce) (next : Option (Res RoundContributionError Unit) → RoundForger)
      (h : ∀ x, AsksAtMost q k ns (next x)) : AsksAtMost q k ns (.deliver i index pn next)
  | finalize (q k : ℕ) (ns : List ℕ) (i : ℕ) (msg : Bytes) (d : Data) (next : Option MaybeScalar → RoundForger)
      (h : ∀ x, AsksAtMost q k ns (next x)) : AsksAtMost (q + ns.getD i 0 + 3) k ns (.finalize i msg d next)
  | aggregator (q k : ℕ) (ns : List ℕ) (i : ℕ) (an : AggNonce) (msg : Bytes) (d : Data) (next : Option MaybeScalar → RoundForger)
      (h : ∀ x, AsksAtMost q k ns (next x)) : AsksAtMost (q + ns.getD i 0 + 3) k ns (.aggregator i an msg d next)
  | restart (q k : ℕ) (ns : List ℕ) (i : ℕ) (next : RoundForger) (h : AsksAtMost q k ns next) : AsksAtMost q k ns (.restart i next)

/-! ## The same forger against `sign_partial` -/

/-- What the forger knows about a session: the group, the nonces at first and those that have been delivered, whether the first round is
not used up, and whether there is a partial signature. -/
structure Known where
  keys : List Point
  tweaks : List (Scalar × Bool)
  first : Slots PubNonce
  slots : Slots PubNonce
  live : Bool
  signed : Bool

/-- The signer starts again, unless there is a partial signature. -/
def Known.restarted (r : Known) : Known := if r.signed then r else { r with slots := r.first, live := true }

/-- The builder of the signer's nonce. -/
def setup (keys : List Point) (Q : Point) (index : ℕ) (spices : SecNonceSpices) : SecNonceBuilder :=
  match keys[index]? with
  | some P => match (FirstRound.builder zeroSeed P Q index spices : Res SignerIndexError SecNonceBuilder) with
    | .ok b => b
    | _ => .new zeroSeed
  | none => .new zeroSeed

/-- The forger of `Spec/Opener` that does the same, keeping account of the rounds of the owner of `P`. -/
def opener (P : Point) : RoundForger → List Known → Opener
  | .submit keys tweaks msg sig d, _ => .submit keys tweaks msg sig d
  | .ask x d next, ks => .ask x d fun h => opener P (next h) ks
  | .start keys tweaks Q T index spices next, ks => .start T (fun sk => setup keys Q index (spices sk)) fun pn =>
      let slots := ((Slots.new keys.length).place pn index).1
      opener P (next pn) (ks ++ [⟨keys, tweaks, slots, slots, true, false⟩])
  | .deliver i index pn next, ks => match ks[i]?.filter (·.live) with
    | some r => opener P (next (some (r.slots.place pn index).2)) (ks.set i { r with slots := (r.slots.place pn index).1 })
    | none => opener P (next none) ks
  | .finalize i msg d next, ks => match ks[i]?.filter (·.live) with
    | some r => match r.slots.finalize with
      | .ok pns => if P ∈ r.keys then
            .sign i r.keys r.tweaks (AggNonce.sum pns) msg d fun s => opener P (next (some s)) (ks.set i { r with live := false, signed := true })
          else opener P (next none) (ks.set i { r with live := false })
      | _ => opener P (next none) (ks.set i { r with live := false })
    | none => opener P (next none) ks
  | .aggregator i an msg d next, ks => match ks[i]?.filter (·.live) with
    | some r => if P ∈ r.keys then
          .sign i r.keys r.tweaks an msg d fun s => opener P (next (some s)) (ks.set i { r with live := false, signed := true })
        else opener P (next none) (ks.set i { r with live := false })
    | none => opener P (next none) ks
  | .restart i next, ks => opener P next (ks.modify i Known.restarted)

/-- What was recorded about the nonce of the forgery, about the keys of its group and those of the sessions, and about the aggregated keys, was
right. -/
def Represented (P : Point) (pn : ℕ → PubNonce) : Option Outcome × Log Note → Prop
  | (none, _) => False
  | (some out, _) =>
    xonly (out.note.nonce.value P pn) = out.sig.rx ∧
      out.group.Right P ∧ xonly (out.note.keyPoint P) = xonly out.group.ctx.aggregatedPubkey.1 ∧
      ∀ s ∈ out.sessions, ∀ r, s.signed = some r →
        r.group.Right P ∧ xonly (r.note.keyPoint P) = xonly r.group.ctx.aggregatedPubkey.1

/-- The forger succeeds against the rounds when the secret key, the seeds and the hashes are drawn, and was right in what it said about keys and
nonces. It is given the public key. -/
def Forges {k m : ℕ} (H : Hash) (A : Point → RoundForger) (p : Scalar × (Fin k → Arr 32) × (Fin m → Arr 32)) : Prop :=
  let B := (A (mulG p.1)).opener (mulG p.1) []
  Accepted (Opener.drawnHash H B p) p.1 (A (mulG p.1)) (Outsider.extend zeroSeed p.2.1) [] ∧
    (Opener.play (Represented (mulG p.1)) k H p.1 B [] [] []).OnLibrary Opener.Drawn H p.2

end RoundForger

end Verif
