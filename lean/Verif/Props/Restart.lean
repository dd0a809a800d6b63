import Verif.Lemmas.Props.Restart
import Verif.Lemmas.Props.Forger
import Verif.Lemmas.Props.Ros

/-!
# Property C148: a session that has signed must not be started again

`FirstRound::new` is a function of its arguments. Who calls it again with the same seed, after a crash say, and has signed before with the round
that was lost, signs twice with one secret nonce. C147 covers sessions that are started again before they have signed.
-/

namespace Verif

open Restart

/-- **C148**, two lives. A session signs, and is started again with the same seed. The nonces and the message are as before, but the adaptor point is
another one. Whatever hash the new challenge has, but for two of `2^256` values, the secret key is computed from both partial
signatures. -/
theorem C148_two_lives_reveal_key (H : Hash) (hH : TagsAgree H) (ctx : KeyAggContext) (hc : Reachable H ctx) (seed : Arr 32) (i : ℕ)
    (spices : SecNonceSpices) (r : FirstRound) (hr : FirstRound.new H ctx seed i spices = .ok r) (sk : Scalar) (a : MaybeScalar)
    (ha : (ctx.keyCoefficient (mulG sk) : Res Unit _) = .ok (some a)) (ha0 : a ≠ 0) (an : AggNonce) (T T' : MaybePoint) (msg : Bytes)
    (hT : Spec.xbytes ((an.finalNonce (an.nonceCoefficient H ctx.aggregatedPubkey msg)).1 + T)
      ≠ Spec.xbytes ((an.finalNonce (an.nonceCoefficient H ctx.aggregatedPubkey msg)).1 + T')) :
    let R := (an.finalNonce (an.nonceCoefficient H ctx.aggregatedPubkey msg)).1 + T'
    let H' := fun h => H.answering (Spec.challengeQuery (Spec.xbytes R) ctx.aggregatedPubkey msg) h
    (∀ h, ∃ s s', Spec.GivesPartial (H' h) r sk an T msg s ∧ Spec.GivesPartial (H' h) r sk an T' msg s') ∧
    Spec.prob (fun h => ∃ s s', Spec.GivesPartial (H' h) r sk an T msg s ∧ Spec.GivesPartial (H' h) r sk an T' msg s' ∧
      Spec.keyOfTwo ctx a (Spec.observe (H' h) ctx.aggregatedPubkey an T msg) (Spec.observe (H' h) ctx.aggregatedPubkey an T' msg) s s' ≠ sk.1)
      ≤ 2 / 2 ^ 256 := by
  intro R H'
  have hH' : ∀ h, TagsAgree (H' h) := fun h => tagsAgree_challenge hH _ _ _ h
  have hc' : ∀ h, Reachable (H' h) ctx := fun h => (sameKeys_challenge H _ _ _ h).reachable hc
  obtain ⟨hi, hctx⟩ := new_inv hc hr
  have hi' : ∀ h, r.Inv (H' h) := fun h => ⟨hctx ▸ hc' h, hi.own, hi.slots, hi.len, hi.mine⟩
  refine ⟨fun h => ?_, ?_⟩
  · obtain ⟨s, hs⟩ := gives_member (hi' h) (hctx ▸ ha) an T msg
    obtain ⟨s', hs'⟩ := gives_member (hi' h) (hctx ▸ ha) an T' msg
    exact ⟨s, s', hs, hs'⟩
  · have ho : ∀ h, Spec.observe (H' h) ctx.aggregatedPubkey an T msg = Spec.observe H ctx.aggregatedPubkey an T msg := fun h =>
      observe_other hH _ _ _ _ _ _ h fun e => hT (by
        rw [spec_xbytes, spec_xbytes] at e
        rw [spec_xbytes, spec_xbytes, (Forger.challengeQuery_inj e).1])
    have ho' : ∀ h, Spec.observe (H' h) ctx.aggregatedPubkey an T' msg = _ := fun h => observe_answering hH _ _ _ _ h
    have key : ∀ h, (∃ s s', Spec.GivesPartial (H' h) r sk an T msg s ∧ Spec.GivesPartial (H' h) r sk an T' msg s' ∧
        Spec.keyOfTwo ctx a (Spec.observe (H' h) ctx.aggregatedPubkey an T msg) (Spec.observe (H' h) ctx.aggregatedPubkey an T' msg) s s'
          ≠ sk.1) → (Spec.observe H ctx.aggregatedPubkey an T msg).e = Spec.sgn R * reduceFrom h := by
      rintro h ⟨s, s', hs, hs', hk⟩
      have h1 := givesPartial (hi' h) hs
      have h2 := givesPartial (hi' h) hs'
      rw [hctx] at h1 h2
      by_contra hne
      refine hk (C64_two_signatures_reveal (H' h) (hH' h) ctx (hc' h) sk r.secnonce an an T T' msg msg s s' a h1 h2 ha ha0 ?_ ?_).symm
      · rfl
      · rw [ho, ho']
        exact hne
    refine prob_le_two fun h h' e e' => ?_
    exact mul_left_cancel₀ (sgn_ne_zero R) ((key h e).symm.trans (key h' e'))

/-- **C148**, three lives. A session signs three times with the same seed, for any nonces, adaptor points and messages. The first two have different
coefficients, and the third has another challenge than the first two. Whatever hash the third challenge has, but for two of `2^256`
values, the secret key is computed from the three partial signatures. -/
theorem C148_three_lives_reveal_key (H : Hash) (hH : TagsAgree H) (ctx : KeyAggContext) (hc : Reachable H ctx) (seed : Arr 32) (i : ℕ)
    (spices : SecNonceSpices) (r : FirstRound) (hr : FirstRound.new H ctx seed i spices = .ok r) (sk : Scalar) (a : MaybeScalar)
    (ha : (ctx.keyCoefficient (mulG sk) : Res Unit _) = .ok (some a)) (ha0 : a ≠ 0) (an : Fin 3 → AggNonce) (T : Fin 3 → MaybePoint)
    (msg : Fin 3 → Bytes)
    (hb : (Spec.observe H ctx.aggregatedPubkey (an 0) (T 0) (msg 0)).b ≠ (Spec.observe H ctx.aggregatedPubkey (an 1) (T 1) (msg 1)).b)
    (hT : ∀ j, j ≠ 2 → msg j = msg 2 →
      Spec.xbytes (((an j).finalNonce ((an j).nonceCoefficient H ctx.aggregatedPubkey (msg j))).1 + T j)
        ≠ Spec.xbytes (((an 2).finalNonce ((an 2).nonceCoefficient H ctx.aggregatedPubkey (msg 2))).1 + T 2)) :
    let R := ((an 2).finalNonce ((an 2).nonceCoefficient H ctx.aggregatedPubkey (msg 2))).1 + T 2
    let H' := fun h => H.answering (Spec.challengeQuery (Spec.xbytes R) ctx.aggregatedPubkey (msg 2)) h
    let o := fun h j => Spec.observe (H' h) ctx.aggregatedPubkey (an j) (T j) (msg j)
    (∀ h, ∃ s : Fin 3 → PartialSignature, ∀ j, Spec.GivesPartial (H' h) r sk (an j) (T j) (msg j) (s j)) ∧
    Spec.prob (fun h => ∃ s : Fin 3 → PartialSignature, (∀ j, Spec.GivesPartial (H' h) r sk (an j) (T j) (msg j) (s j)) ∧
      Spec.keyOfThree ctx a (o h 0) (o h 1) (o h 2) (s 0) (s 1) (s 2) ≠ sk.1) ≤ 2 / 2 ^ 256 := by
  intro R H' o
  have hH' : ∀ h, TagsAgree (H' h) := fun h => tagsAgree_challenge hH _ _ _ h
  have hc' : ∀ h, Reachable (H' h) ctx := fun h => (sameKeys_challenge H _ _ _ h).reachable hc
  obtain ⟨hi, hctx⟩ := new_inv hc hr
  have hi' : ∀ h, r.Inv (H' h) := fun h => ⟨hctx ▸ hc' h, hi.own, hi.slots, hi.len, hi.mine⟩
  refine ⟨fun h => ?_, ?_⟩
  · choose s hs using fun j => gives_member (hi' h) (hctx ▸ ha) (an j) (T j) (msg j)
    exact ⟨s, hs⟩
  · have ho : ∀ h j, j ≠ 2 → o h j = Spec.observe H ctx.aggregatedPubkey (an j) (T j) (msg j) := fun h j hj =>
      observe_other hH _ _ _ _ _ _ h fun e => by
        rw [spec_xbytes, spec_xbytes] at e
        obtain ⟨e1, e2⟩ := Forger.challengeQuery_inj e
        exact hT j hj e2 (by rw [spec_xbytes, spec_xbytes, e1])
    have ho' : ∀ h, o h 2 = _ := fun h => observe_answering hH _ _ _ _ h
    set p := Spec.observe H ctx.aggregatedPubkey (an 0) (T 0) (msg 0)
    set q := Spec.observe H ctx.aggregatedPubkey (an 1) (T 1) (msg 1)
    set b := (Spec.observe H ctx.aggregatedPubkey (an 2) (T 2) (msg 2)).b
    have key : ∀ h, (∃ s : Fin 3 → PartialSignature, (∀ j, Spec.GivesPartial (H' h) r sk (an j) (T j) (msg j) (s j)) ∧
        Spec.keyOfThree ctx a (o h 0) (o h 1) (o h 2) (s 0) (s 1) (s 2) ≠ sk.1) →
        (Spec.sgn R * reduceFrom h - p.e) * (q.b - p.b) + (p.e - q.e) * (b - p.b) = 0 := by
      rintro h ⟨s, hs, hk⟩
      have h1 := fun j => givesPartial (hi' h) (hs j)
      rw [hctx] at h1
      by_contra hne
      refine hk (C64_three_signatures_reveal (H' h) (hH' h) ctx (hc' h) sk r.secnonce _ _ _ _ _ _ _ _ _ _ _ _ a (h1 0) (h1 1) (h1 2) ha ?_).symm
      change a * (((o h 2).e - (o h 0).e) * ((o h 1).b - (o h 0).b) + ((o h 0).e - (o h 1).e) * ((o h 2).b - (o h 0).b)) ≠ 0
      rw [ho h 0 (by decide), ho h 1 (by decide), ho']
      exact mul_ne_zero ha0 hne
    refine prob_le_two fun h h' e e' => ?_
    have e1 := key h e
    have e2 := key h' e'
    refine mul_left_cancel₀ (sgn_ne_zero R) (mul_right_cancel₀ (sub_ne_zero.2 hb.symm) ?_)
    linear_combination e1 - e2

/-- **C148**, the coefficients. Two lives that differ in the aggregated nonce or in the message have different coefficients, whatever hash the
second coefficient is made from, but for two of `2^256` values. So the hypothesis of the third life is met. -/
theorem C148_coefficients_differ (H : Hash) (Q : Point) (an an' : AggNonce) (T T' : MaybePoint) (msg msg' : Bytes)
    (hne : (an, msg) ≠ (an', msg')) :
    Spec.prob (fun h => (Spec.observe (H.answering (Spec.noncecoefQuery an' Q msg') h) Q an T msg).b
      = (Spec.observe (H.answering (Spec.noncecoefQuery an' Q msg') h) Q an' T' msg').b) ≤ 2 / 2 ^ 256 := by
  have key : ∀ h, (Spec.observe (H.answering (Spec.noncecoefQuery an' Q msg') h) Q an T msg).b
      = (Spec.observe (H.answering (Spec.noncecoefQuery an' Q msg') h) Q an' T' msg').b →
      an.nonceCoefficient H Q msg = reduceFrom h := by
    intro h e
    rw [← nonceCoefficient_answering H an' Q msg' h]
    refine Eq.trans ?_ e
    change _ = an.nonceCoefficient _ Q msg
    rw [(C66_what_is_hashed _).2.2.1, (C66_what_is_hashed _).2.2.1]
    congr 1
    refine (Hash.answering_of_ne H h fun e => hne ?_).symm
    obtain ⟨rfl, rfl⟩ := noncecoefQuery_inj e
    rfl
  exact prob_le_two fun h h' e e' => (key h e).symm.trans (key h' e')

/-- **C148**, the same again. A session that has signed may be started again to sign with the same aggregated nonce, adaptor point and message,
in either protocol flow and in whatever order the nonces arrive: the partial signature is the one that was given before. -/
theorem C148_replay_gives_nothing_new (H : Hash) (ctx : KeyAggContext) (hc : Reachable H ctx) (seed : Arr 32) (i : ℕ) (spices : SecNonceSpices)
    (r r' : FirstRound) (hr : FirstRound.new H ctx seed i spices = .ok r) (hr' : FirstRound.new H ctx seed i spices = .ok r') (sk : Scalar)
    (an : AggNonce) (T : MaybePoint) (msg : Bytes) (s s' : PartialSignature) (hs : Spec.GivesPartial H r sk an T msg s)
    (hs' : Spec.GivesPartial H r' sk an T msg s') : s = s' := by
  obtain rfl : r = r' := Res.ok.inj (hr.symm.trans hr')
  have hi := (new_inv hc hr).1
  exact Res.ok.inj ((givesPartial hi hs).symm.trans (givesPartial hi hs'))

/-! ### Concrete sessions -/

/-- The hypotheses can be met: the second member of a group of two signs for an aggregator. -/
example (seed : Arr 32) (spices : SecNonceSpices) (hs : spices.extraInputs.flatten.length + 4 ≤ u32Max) (an : AggNonce) (T : MaybePoint)
    (msg : Bytes) : ∃ r s, FirstRound.new lastByteHash lastCtx seed 1 spices = .ok r ∧
      Spec.GivesPartial lastByteHash r ⟨2, two_ne_zero_scalar⟩ an T msg s := by
  obtain ⟨r, hr⟩ := new_ok (H := lastByteHash) (ctx := lastCtx) seed (i := 1) (by decide) spices hs
  obtain ⟨hi, hctx⟩ := new_inv lastCtx_reachable hr
  obtain ⟨s, h⟩ := gives_member hi (hctx ▸ last_keyCoefficient) an T msg
  exact ⟨r, s, hr, h⟩

/-- The hypothesis of the coefficients can be met: the same nonce, and two messages. -/
example : ((⟨G, 0⟩, [1]) : AggNonce × Bytes) ≠ (⟨G, 0⟩, [2]) := by
  intro h
  exact absurd (congrArg Prod.snd h) (by decide)

/-- The hypotheses of the first can be met: the second member of a group of two, the aggregated nonce `(G, 0)`, at first no adaptor point, and
then `G`. -/
example (seed : Arr 32) (spices : SecNonceSpices) (hs : spices.extraInputs.flatten.length + 4 ≤ u32Max) (msg : Bytes) :
    ∃ r, FirstRound.new lastByteHash lastCtx seed 1 spices = .ok r ∧ TagsAgree lastByteHash ∧ Reachable lastByteHash lastCtx ∧
      (lastCtx.keyCoefficient (mulG ⟨2, two_ne_zero_scalar⟩) : Res Unit _) = .ok (some 1) ∧
      let R := ((⟨G, 0⟩ : AggNonce).finalNonce ((⟨G, 0⟩ : AggNonce).nonceCoefficient lastByteHash lastCtx.aggregatedPubkey msg)).1
      Spec.xbytes (R + 0) ≠ Spec.xbytes (R + G) := by
  obtain ⟨r, hr⟩ := new_ok (H := lastByteHash) (ctx := lastCtx) seed (i := 1) (by decide) spices hs
  refine ⟨r, hr, lastByteHash_tagsAgree, lastCtx_reachable, last_keyCoefficient, ?_⟩
  intro R
  have hR : R = G := by
    change ((⟨Gpt.1, 0⟩ : AggNonce).finalNonce _).1 = Gpt.1
    exact last_finalNonce Gpt _
  rw [hR, spec_xbytes, spec_xbytes, add_zero]
  intro h
  have h1 : ∀ x : MaybeScalar, x • G = 0 → x = 0 := fun x hx => smul_G_eq_zero.1 hx
  rcases xonly_eq_iff.1 (Subtype.ext h) with e | e
  · refine one_ne_zero (α := MaybeScalar) (h1 1 ?_)
    rw [one_smul]
    exact left_eq_add.1 e
  · refine natCast_scalar_ne_zero (k := 3) (by norm_num) (by norm_num) (h1 _ ?_)
    rw [Nat.cast_ofNat, show (3 : MaybeScalar) = 1 + (1 + 1) by norm_num, add_smul, add_smul, one_smul]
    nth_rewrite 1 [e]
    abel

/-- The hypotheses of the second can be met: three messages that end in `1, 2, 3`. -/
example (T : Fin 3 → MaybePoint) :
    let msg : Fin 3 → Bytes := ![[1], [2], [3]]
    (Spec.observe lastByteHash lastCtx.aggregatedPubkey ⟨G, 0⟩ (T 0) (msg 0)).b
      ≠ (Spec.observe lastByteHash lastCtx.aggregatedPubkey ⟨G, 0⟩ (T 1) (msg 1)).b ∧ ∀ j, j ≠ 2 → msg j ≠ msg 2 := by
  refine ⟨?_, by decide⟩
  have h1 := congrArg Spec.Observed.b (last_observe Gpt [] 1)
  have h2 := congrArg Spec.Observed.b (last_observe Gpt [] 2)
  intro h
  have h3 : ((1 : UInt8).toNat : MaybeScalar) = ((2 : UInt8).toNat : MaybeScalar) := h1.symm.trans (h.trans h2)
  refine one_ne_zero (α := MaybeScalar) ?_
  have h4 : ((1 : ℕ) : MaybeScalar) = ((2 : ℕ) : MaybeScalar) := h3
  push_cast at h4
  linear_combination -h4

end Verif
