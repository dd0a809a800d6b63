import Verif.Spec.OwnKey
import Verif.Spec.RoundForger

/-!
# Forgers of signatures of the own key of somebody who uses the rounds

The forgers are those of `Spec/RoundForger`. Here what they submit is not read as a signature of a group, but as one of the signer's own key
with an offset, the sum of the tweaks. The list of keys of the submission does not matter. Used by `Props/OwnRounds`.
-/

namespace Verif

open Concurrent (Play Log)
open Adaptive (Data Note Session Signed makeContext)
open Opener (Drawn hashes record nonceOf signature CodeSession rename)

/-- The sum of the tweaks. -/
def Spec.offset (tweaks : List (Scalar × Bool)) : MaybeScalar := (tweaks.map (·.1.1)).sum

namespace OwnRounds

/-- The game of `Opener.play`, with another end: the forgery is one of the key of the signer, with an offset. -/
def play (V : (ℕ → PubNonce) → Option OwnForger.Outcome × Log Note → Prop) (k : ℕ) (H : Hash) (sk : Scalar) :
    Opener → List Session → List SecNonce → Log Note → NonceUser
  | .submit _ tweaks msg sig d, ss, sns, log =>
    hashes (OwnForger.finish (k := k) (mulG sk) (Spec.offset tweaks) msg sig d ss) log fun out log =>
      .done (V (fun i => (nonceOf sns i).publicNonce) (out, log))
  | .ask x d next, ss, sns, log => .ask x fun h =>
    play V k H sk (next h) ss sns (if Drawn x then record log x ⟨d, ss.map (·.point)⟩ h else log)
  | .start T b next, ss, sns, log => .nonce (b sk) fun sn => play V k H sk (next sn.publicNonce) (ss ++ [⟨T, none⟩]) (sns ++ [sn]) log
  | .sign i keys tweaks an msg d next, ss, sns, log =>
    match ss[i]? with
    | some ⟨T, none⟩ =>
      hashes (signature (k := k) H sk (nonceOf sns i) keys tweaks ⟨an, T, msg⟩ d ss) log fun
        | none, log => play V k H sk (next 0) ss sns log
        | some r, log => play V k H sk (next r.sig) (ss.set i ⟨T, some r⟩) sns log
    | _ => play V k H sk (next 0) ss sns log

/-- The game, where the verdict is whether the forger wins. -/
abbrev game (k : ℕ) (H : Hash) (sk : Scalar) : Opener → List Session → List SecNonce → Log Note → NonceUser :=
  play (OwnForger.Wins H (mulG sk)) k H sk

/-- The hash function after the game, with all that has been drawn. -/
def drawnHash {k m : ℕ} (H : Hash) (A : Opener) (p : Scalar × (Fin k → Arr 32) × (Fin m → Arr 32)) : Hash :=
  (((game k H p.1 A [] [] []).library H (Outsider.extend zeroSeed p.2.1)).run Drawn H (Asker.draws p.2.2) []).2.hash H

/-- The forger succeeds against the code with the hash function `O`. As in `RoundForger.Accepted`, but the verdict is whether `verify_single`
accepts a signature for the signer's key with the offset, and no session was about the message, this x-only key and the x-only nonce. -/
def Accepted (O : Hash) (sk : Scalar) : RoundForger → (ℕ → Arr 32) → List RoundSession → Prop
  | .submit _ tweaks msg sig _, _, rs => ∃ Y, Spec.offsetKey (mulG sk) (Spec.offset tweaks) = some Y ∧
      (∀ r ∈ rs, ∀ c m R, r.about = some (c, m, R) →
        ¬ (m = msg ∧ Spec.xbytes c.aggregatedPubkey.1 = Spec.xbytes Y.1 ∧ Spec.xbytes R = sig.rx.1)) ∧
      verifySingle O Y sig msg = .ok ()
  | .ask x _ next, s, rs => Accepted O sk (next (O x)) s rs
  | .start keys tweaks Q T index spices next, s, rs => ∃ ctx r, makeContext O keys tweaks = some ctx ∧ ctx.aggregatedPubkey = Q ∧
      FirstRound.new O ctx (s 0) index (spices sk) = .ok r ∧
      Accepted O sk (next r.ourPublicNonce) (fun i => s (i + 1)) (rs ++ [⟨T, keys, tweaks, r, r, true, none⟩])
  | .deliver i index pn next, s, rs => match RoundForger.running rs i with
    | some r => Accepted O sk (next (some (r.round.receiveNonce index pn).2)) s
        (rs.set i { r with round := (r.round.receiveNonce index pn).1 })
    | none => Accepted O sk (next none) s rs
  | .finalize i msg _ next, s, rs => match RoundForger.running rs i with
    | some r => Accepted O sk (next ((r.finalized O sk msg).map (·.2))) s (rs.set i (r.after O msg (r.finalized O sk msg)))
    | none => Accepted O sk (next none) s rs
  | .aggregator i an msg _ next, s, rs => match RoundForger.running rs i with
    | some r => Accepted O sk (next ((r.aggregated O sk an msg).map (·.2))) s (rs.set i (r.after O msg (r.aggregated O sk an msg)))
    | none => Accepted O sk (next none) s rs
  | .restart i next, s, rs => Accepted O sk next s (rs.modify i RoundSession.restarted)

/-- What was recorded about the nonce of the forgery, about its key, about the keys of the groups of the sessions, and about their aggregated
keys, was right. -/
def Represented (P : Point) (pn : ℕ → PubNonce) : Option OwnForger.Outcome × Log Note → Prop
  | (none, _) => False
  | (some out, _) =>
    xonly (out.note.nonce.value P pn) = out.sig.rx ∧ xonly (out.note.keyPoint P) = xonly out.key.1 ∧
      ∀ s ∈ out.sessions, ∀ r, s.signed = some r →
        r.group.Right P ∧ xonly (r.note.keyPoint P) = xonly r.group.ctx.aggregatedPubkey.1

/-- The forger succeeds against the rounds when the secret key, the seeds and the hashes are drawn, and was right in what it said about keys and
nonces. It is given the public key. -/
def Forges {k m : ℕ} (H : Hash) (A : Point → RoundForger) (p : Scalar × (Fin k → Arr 32) × (Fin m → Arr 32)) : Prop :=
  let B := (A (mulG p.1)).opener (mulG p.1) []
  Accepted (drawnHash H B p) p.1 (A (mulG p.1)) (Outsider.extend zeroSeed p.2.1) [] ∧
    (play (Represented (mulG p.1)) k H p.1 B [] [] []).OnLibrary Drawn H p.2

/-! ## The same forger against random nonces -/

/-- The forger of `Spec/OwnKey` that does the same, as in `Opener.plain`. -/
def plain : Opener → OwnForger
  | .submit _ tweaks msg sig d => .submit (Spec.offset tweaks) msg sig d
  | .ask x d next => .ask (rename x) d fun h => plain (next h)
  | .start T _ next => .start T fun pn => plain (next pn)
  | .sign i keys tweaks an msg d next => .sign i keys tweaks an msg d fun s => plain (next s)

/-- The same game as `Accepted` against a signer who calls `SecNonceBuilder::build` and `sign_partial`. -/
def AcceptedByCode (O : Hash) (sk : Scalar) : Opener → (ℕ → Arr 32) → List CodeSession → List SecNonce → Prop
  | .submit _ tweaks msg sig _, _, ss, _ => ∃ Y, Spec.offsetKey (mulG sk) (Spec.offset tweaks) = some Y ∧
      (∀ e ∈ ss, ∀ c m R, e.2 = some (c, m, R) →
        ¬ (m = msg ∧ Spec.xbytes c.aggregatedPubkey.1 = Spec.xbytes Y.1 ∧ Spec.xbytes R = sig.rx.1)) ∧
      verifySingle O Y sig msg = .ok ()
  | .ask x _ next, s, ss, sns => AcceptedByCode O sk (next (O x)) s ss sns
  | .start T b next, s, ss, sns =>
    let sn := (Spec.seeded (b sk) (s 0)).build O
    AcceptedByCode O sk (next sn.publicNonce) (fun i => s (i + 1)) (ss ++ [(T, none)]) (sns ++ [sn])
  | .sign i keys tweaks an msg _ next, s, ss, sns =>
    match ss[i]? with
    | some (T, none) =>
      match makeContext O keys tweaks with
      | some ctx => match signPartialAdaptor O ctx sk (nonceOf sns i) an T msg with
        | .ok sig => AcceptedByCode O sk (next sig) s (ss.set i (T, some (ctx, msg, Spec.sessionNonce O ctx.aggregatedPubkey ⟨an, T, msg⟩))) sns
        | _ => AcceptedByCode O sk (next 0) s ss sns
      | none => AcceptedByCode O sk (next 0) s ss sns
    | _ => AcceptedByCode O sk (next 0) s ss sns

end OwnRounds

end Verif
