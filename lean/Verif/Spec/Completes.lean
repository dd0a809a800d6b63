import Verif.Spec.HonestSession
import Verif.Spec.Uniform
import Verif.Spec.Forger
import Verif.Spec.Claims

/-!
# Sessions that end well

What it means that every member of an honest group ends with the same valid signature, and the hash function with the answers
for one nonce and for the nonce coefficient of the session drawn anew.
-/

namespace Verif

/-- All members end with the same adaptor signature whatever the order of the messages: there are partial signatures and one
adaptor signature, valid for `t·G`, that every member's rounds lead to. Adapting it with `t` gives a valid signature, which
reveals `t`. -/
def HonestGroup.EndsWell {H : Hash} (g : HonestGroup H) (t : MaybeScalar) (msg : Bytes) : Prop :=
  ∃ (psigs : ℕ → PartialSignature) (sig : AdaptorSignature) (f : LiftedSignature),
    verifySingleAdaptor H g.ctx.aggregatedPubkey sig msg (t • G) = .ok () ∧ sig.adapt t = some f ∧
    verifySingleLifted H g.ctx.aggregatedPubkey f msg = .ok () ∧ sig.revealSecret f = some t ∧
    ∀ i (hi : i < g.sks.length) calls, g.NonceSchedule i calls →
      ∃ r2, ((g.rounds i).run calls).1.finalizeAdaptor H g.sks[i] (t • G) msg = .ok r2 ∧
        (∀ ε, (r2.ourSignature : Res ε _) = .ok (psigs i)) ∧
        ∀ scalls, g.SignatureSchedule psigs i scalls →
          (r2.run H scalls).1.isComplete = true ∧ (r2.run H scalls).1.finalizeAdaptor H = .ok sig

/-- The same for `finalize` and plain signatures. -/
def HonestGroup.EndsWellPlain {H : Hash} (g : HonestGroup H) (msg : Bytes) : Prop :=
  ∃ (psigs : ℕ → PartialSignature) (sig : LiftedSignature),
    verifySingleLifted H g.ctx.aggregatedPubkey sig msg = .ok () ∧
    ∀ i (hi : i < g.sks.length) calls, g.NonceSchedule i calls →
      ∃ r2, ((g.rounds i).run calls).1.finalize H g.sks[i] msg = .ok r2 ∧
        (∀ ε, (r2.ourSignature : Res ε _) = .ok (psigs i)) ∧
        ∀ scalls, g.SignatureSchedule psigs i scalls →
          (r2.run H scalls).1.isComplete = true ∧ (r2.run H scalls).1.finalize H = .ok sig

namespace Spec

/-- The public nonces of the first rounds of the members `0, …, n - 1`. -/
def roundNonces (H : Hash) (ctx : KeyAggContext) (n : ℕ) (seeds : ℕ → Arr 32) (spices : ℕ → SecNonceSpices) : List PubNonce :=
  (List.range n).filterMap fun j =>
    match FirstRound.new H ctx (seeds j) j (spices j) with
    | .ok r => some r.ourPublicNonce
    | _ => none

/-- `H` with the answer for the second secret nonce of member `i` drawn anew. -/
def nonceDrawn (H : Hash) (ctx : KeyAggContext) (seeds : ℕ → Arr 32) (spices : ℕ → SecNonceSpices) (i : ℕ) (h : Arr 32) : Hash :=
  H.answering (Spec.taggedInput "MuSig/nonce" ((roundNonceInputs H ctx (seeds i) i (spices i)).bytes ++ [1])) h

/-- `H` with two answers drawn anew: the one for the second secret nonce of member `i`, and then the one for the nonce
coefficient of the session. -/
def sessionDrawn (H : Hash) (ctx : KeyAggContext) (n : ℕ) (seeds : ℕ → Arr 32) (spices : ℕ → SecNonceSpices) (i : ℕ) (msg : Bytes)
    (h : Arr 32 × Arr 32) : Hash :=
  (nonceDrawn H ctx seeds spices i h.1).answering
    (Spec.noncecoefQuery (AggNonce.sum (roundNonces (nonceDrawn H ctx seeds spices i h.1) ctx n seeds spices))
      ctx.aggregatedPubkey msg) h.2

/-- `H` with two answers drawn anew: the one for the coefficient of the first key of the group, and then the one for the
taproot tweak. -/
def keyDrawn (H : Hash) (keys : List Point) (root : Arr 32) (h : Arr 32 × Arr 32) : Hash :=
  match keys with
  | [] => H
  | P :: _ =>
    let H1 := H.answering (Spec.coeffQuery H keys P) h.1
    match KeyAggContext.new H1 keys with
    | .ok ctx => H1.answering (Spec.taptweakQuery ctx.aggregatedPubkey root.1) h.2
    | _ => H1

/-- The context of a taproot output: the keys are aggregated and tweaked. -/
def taprootCtx (H : Hash) (keys : List Point) (root : Arr 32) : Option KeyAggContext :=
  match KeyAggContext.new H keys with
  | .ok ctx =>
    match ctx.withTaprootTweak H root with
    | .ok ctx' => some ctx'
    | _ => none
  | _ => none

/-- `H` with four answers drawn anew: the two of `keyDrawn` and, if they make a context, the two of `sessionDrawn`. -/
def allDrawn (H : Hash) (keys : List Point) (root : Arr 32) (seeds : ℕ → Arr 32) (spices : ℕ → SecNonceSpices) (i : ℕ)
    (msg : Bytes) (h : (Arr 32 × Arr 32) × Arr 32 × Arr 32) : Hash :=
  match taprootCtx (keyDrawn H keys root h.1) keys root with
  | some ctx => sessionDrawn (keyDrawn H keys root h.1) ctx keys.length seeds spices i msg h.2
  | none => keyDrawn H keys root h.1

end Spec

end Verif
