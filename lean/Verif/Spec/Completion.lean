import Verif.Spec.OneMore
import Verif.Spec.Claims

/-!
# What a session still needs

When a member of a group has sent their partial signature, the others have to add theirs, and the adaptor secret. Used by
`Props/Completion`.
-/

namespace Verif

/-- `s·G` for the signature `s` that a session of the aggregated key `Q` leads to. -/
def Spec.whole (O : Hash) (Q : Point) (r : Spec.Reply) : MaybePoint :=
  let N := Spec.sessionNonce O Q r
  Spec.sgn N • N + Spec.challenge O N Q.1 r.message • (Spec.sgn Q.1 • Q.1)

/-- `s·G` for the partial signature `s` of the member with the key `P` and the public nonce `pn`. -/
def Spec.part (O : Hash) (ctx : KeyAggContext) (r : Spec.Reply) (P : Point) (pn : PubNonce) : MaybePoint :=
  let N := Spec.sessionNonce O ctx.aggregatedPubkey r
  Spec.sgn N • (pn.R1.1 + reduceFrom (O (Spec.noncecoefQuery r.aggnonce ctx.aggregatedPubkey r.message)) • pn.R2.1)
    + (Spec.challenge O N ctx.aggregatedPubkey.1 r.message * Spec.keySign ctx * Spec.keyCoeff O ctx.pubkeys P) • P.1

/-- What the session needs beside the partial signature of the member with the key `P` and the public nonce `pn`. -/
def Spec.owed (O : Hash) (ctx : KeyAggContext) (r : Spec.Reply) (P : Point) (pn : PubNonce) : MaybePoint :=
  Spec.whole O ctx.aggregatedPubkey r - Spec.part O ctx r P pn

/-- The part of the signature that comes from tweaks of the group. -/
def Spec.tweakPart (O : Hash) (ctx : KeyAggContext) (r : Spec.Reply) : MaybeScalar :=
  Spec.challenge O (Spec.sessionNonce O ctx.aggregatedPubkey r) ctx.aggregatedPubkey.1 r.message
    * Spec.sgn ctx.aggregatedPubkey.1 * ctx.tweakAcc

namespace Adaptive

open Concurrent (Log Play Unknown secrets)
open Forger (answers)

/-- The signature that was submitted completes session `i`: it is about the same message and x-only key, and less the partial signature of the
session it is the discrete logarithm of what was owed. -/
def Completes (O : Hash) (P : Point) (pn : ℕ → PubNonce) (out : Outcome) (i : ℕ) : Prop :=
  ∃ T r, out.sessions[i]? = some ⟨T, some r⟩ ∧ r.message = out.msg ∧
    Spec.xbytes r.group.ctx.aggregatedPubkey.1 = Spec.xbytes out.group.ctx.aggregatedPubkey.1 ∧
    (out.sig.s - r.sig) • G = Spec.owed O r.group.ctx ⟨r.aggnonce, T, r.message⟩ P (pn i)

/-- The forgery is for a group with the key `P`, and `verify_single` accepts it, though it does not complete a session. What was recorded
about its nonce, about the keys of its group and those of the sessions, and about the aggregated keys, was right. -/
def WinsUncompleted (H : Hash) (P : Point) (pn : ℕ → PubNonce) : Option Outcome × Log Note → Prop
  | (none, _) => False
  | (some out, log) =>
    (¬ ∃ i, Completes (log.hash H) P pn out i) ∧
      verifySingle (log.hash H) out.group.ctx.aggregatedPubkey out.sig out.msg = .ok () ∧
      xonly (out.note.nonce.value P pn) = out.sig.rx ∧
      out.group.Right P ∧ xonly (out.note.keyPoint P) = xonly out.group.ctx.aggregatedPubkey.1 ∧
      ∀ s ∈ out.sessions, ∀ r, s.signed = some r →
        r.group.Right P ∧ xonly (r.note.keyPoint P) = xonly r.group.ctx.aggregatedPubkey.1

/-- The game against the signer ends with such a signature. -/
def ForgesUncompleted (k : ℕ) {N : ℕ} (H : Hash) (sk : Scalar) (sn : ℕ → SecNonce) (A : Adversary) (ω : Fin N → Arr 32) : Prop :=
  WinsUncompleted H (mulG sk) (fun i => (sn i).publicNonce) ((signerGame k H sk sn A).run (secrets k sk sn) (answers ω) [])

end Adaptive

end Verif
