import Verif.Lemmas.Props.Sharp

/-!
# Properties C12, C29, C39, C42, C59 (exact behaviour)

These properties are false of the code as stated; each theorem here says for exactly which inputs the code behaves as
the property wants, and what it does for the other ones.
-/

namespace Verif

/-! ## C12 -/

/-- **C12**, the exact behaviour: the byte strings that decode to a context are its encoding and the 63 strings which
differ from it in the six high bits of the header byte only. -/
theorem C12_accepted_encodings_exact (H : Hash) (ctx : KeyAggContext) (hc : Reachable H ctx) (b : Bytes) :
    KeyAggContext.fromBytes H b = .ok ctx ↔ ∃ hd rest, b = hd :: rest ∧ ctx.toBytes = (hd &&& 3) :: rest := by
  constructor
  · intro h
    obtain ⟨hd, rest, h1, h2, -⟩ := C12_context_canonical_partial H b ctx h
    exact ⟨hd, rest, h1, h2⟩
  · rintro ⟨hd, rest, rfl, h⟩
    rw [fromBytes_header, ← h]
    exact C10_context_roundtrip H ctx hc

example : Reachable sha256 exCtx := exCtx_reachable

/-! ## C29 -/

/-- **C29**, the exact behaviour: verified partial signatures aggregate exactly if `R1 + b·R2` is finite. -/
theorem C29_aggregates_iff (H : Hash) (hH : TagsAgree H) (ctx : KeyAggContext) (hc : Reachable H ctx)
    (pubnonces : List PubNonce) (sigs : List PartialSignature) (msg : Bytes)
    (h : AllVerified H ctx 0 pubnonces sigs msg) :
    (∃ sig, aggregatePartialSignatures H ctx (AggNonce.sum pubnonces) sigs msg = .ok sig) ↔
      (AggNonce.sum pubnonces).R1 + (AggNonce.sum pubnonces).nonceCoefficient H ctx.aggregatedPubkey msg
        • (AggNonce.sum pubnonces).R2 ≠ 0 := by
  constructor
  · rintro ⟨sig, hs⟩ hR
    rw [C29_degenerate_always_fails H ctx hc pubnonces sigs msg h hR] at hs
    cases hs
  · intro hR
    obtain ⟨sig, hs, -⟩ := C29_verified_partials_valid_partial H hH ctx hc pubnonces sigs msg h hR
    exact ⟨sig, hs⟩

/-- Both cases occur: in the example group every list of two nonces has verified partial signatures, and the sum of the
nonces may be infinity. -/
example (msg : Bytes) (pubnonces : List PubNonce) (h : pubnonces.length = 2) :
    ∃ sigs, AllVerified sha256 exCtx 0 pubnonces sigs msg :=
  allVerified_exists exCtx_reachable.inv 0 pubnonces h msg

/-! ## C39 -/

/-- **C39**, the exact behaviour: the secret is revealed exactly if the nonce of the adaptor signature is finite or the
adapted nonce has even Y; in the other case the negated secret is returned. -/
theorem C39_reveal_iff (sig : AdaptorSignature) (t : MaybeScalar) (f : LiftedSignature) (h : sig.adapt t = some f) :
    (sig.revealSecret f = some t ↔ sig.R ≠ 0 ∨ isOdd (sig.R + t • G) = false) ∧
    (sig.revealSecret f = some t ∨ sig.revealSecret f = some (-t)) := by
  have h0 := reveal_of_adapt h
  refine ⟨⟨fun hr => ?_, C39_reveal_partial sig t f h⟩, ?_⟩
  · by_contra hn
    rw [not_or, not_not, Bool.not_eq_false] at hn
    obtain ⟨hz, ho⟩ := hn
    obtain ⟨R, s⟩ := sig
    simp only at hz
    subst hz
    rw [zero_add] at ho
    obtain ⟨f', h1, h2, h3⟩ := C39_negated_secret_revealed s t ho
    rw [h] at h1
    cases h1
    rw [h2, Option.some.injEq] at hr
    exact h3 hr
  · rw [h0]
    split_ifs
    · exact Or.inr rfl
    · exact Or.inl rfl

/-- Both cases occur. -/
example : (∃ f, (⟨G, 5⟩ : AdaptorSignature).adapt 0 = some f) ∧ ∃ f, (⟨0, 5⟩ : AdaptorSignature).adapt 1 = some f := by
  refine ⟨⟨_, adapt_zero Gpt 5⟩, ?_⟩
  cases h : (⟨0, 5⟩ : AdaptorSignature).adapt 1 with
  | some f => exact ⟨f, rfl⟩
  | none =>
    have := adapt_eq_none.1 h
    simp only [zero_add, one_smul] at this
    exact absurd this G_ne_zero

/-! ## C42 -/

/-- **C42**, the exact behaviour: encrypting a valid adaptor signature again gives one that is valid for the sum of the
adaptor points exactly if `R + T` has even Y; otherwise it is rejected. -/
theorem C42_stacking_iff (H : Hash) (P : Point) (sig : AdaptorSignature) (msg : Bytes) (T : MaybePoint) (t : Scalar)
    (h : verifySingleAdaptor H P sig msg T = .ok ()) :
    (verifySingleAdaptor H P (sig.encrypt t) msg (T + t.1 • G) = .ok () ↔ isOdd (sig.R + T) = false) ∧
    (verifySingleAdaptor H P (sig.encrypt t) msg (T + t.1 • G) = .err .badSignature ↔ isOdd (sig.R + T) = true) := by
  cases ho : isOdd (sig.R + T) with
  | false =>
    have := C42_stacking_partial H P sig msg T t h ho
    rw [this]
    simp
  | true =>
    have := C42_stacking_fails_odd H P sig msg T t h ho
    rw [this]
    simp

/-- There are valid adaptor signatures with `R + T` even, and some with `R + T` odd. -/
example (H : Hash) (sk : Scalar) (msg : Bytes) :
    (∃ sig T, verifySingleAdaptor H (mulG sk) sig msg T = .ok () ∧ isOdd (sig.R + T) = false) ∧
    ∃ sig T, verifySingleAdaptor H (mulG sk) sig msg T = .ok () ∧ isOdd (sig.R + T) = true := by
  obtain ⟨s, hs⟩ := valid_adaptor_exists H sk 1 0 msg
  obtain ⟨s', hs'⟩ := valid_adaptor_exists H sk (-1) 0 msg
  refine ⟨⟨_, 0, hs, ?_⟩, ⟨_, 0, hs', ?_⟩⟩ <;> simp only [add_zero]
  · rw [one_smul, isOdd_G]
  · rw [neg_smul, one_smul, isOdd_neg G_ne_zero, isOdd_G]; rfl

/-! ## C59 -/

/-- **C59**, when a first round is finalized: exactly complete rounds with the key of some member. -/
theorem C59_finalizes_iff (H : Hash) (ctx : KeyAggContext) (hc : Reachable H ctx) (seed : Arr 32) (i : ℕ)
    (spices : SecNonceSpices) (r : FirstRound) (h : FirstRound.new H ctx seed i spices = .ok r)
    (calls : List (ℕ × PubNonce)) (sk : Scalar) (T : MaybePoint) (msg : Bytes) :
    (∃ r2, (r.run calls).1.finalizeAdaptor H sk T msg = .ok r2) ↔
      (r.run calls).1.isComplete = true ∧ mulG sk ∈ ctx.pubkeys := by
  obtain ⟨h1, h2, h3⟩ := C57_first_round_finalize H ctx hc seed i spices r h calls sk T msg
  constructor
  · rintro ⟨r2, hr2⟩
    have hcomp : (r.run calls).1.isComplete = true := by
      by_contra hb
      rw [Bool.not_eq_true] at hb
      rw [h1.2 hb] at hr2
      cases hr2
    refine ⟨hcomp, ?_⟩
    by_contra hn
    rw [h2.2 ⟨hcomp, hn⟩] at hr2
    cases hr2
  · rintro ⟨hcomp, hm⟩
    obtain ⟨r2, -, -, hr2, -⟩ := h3 hcomp hm
    exact ⟨r2, hr2⟩

/-- **C59**, how a wrong key is caught later. Suppose the signer finalized the first round with the secret key `sk`,
possibly of another member, and `P` is the key in the signer's own place. The others accept the resulting partial
signature exactly if the two effective public keys are equal (which includes the right key) or the challenge is zero.
In the other cases the signer's own second round, once complete, fails with an invalid aggregated signature. -/
theorem C59_wrong_key_outcome (H : Hash) (hH : TagsAgree H) (r : FirstRound) (hr : FirstRound.Reachable H r)
    (sk : Scalar) (T : MaybePoint) (msg : Bytes) (r2 : SecondRound) (h : r.finalizeAdaptor H sk T msg = .ok r2)
    (P : Point) (hP : r.keyAggCtx.pubkeys[r.signerIndex]? = some P) (X X' : MaybePoint)
    (hX : (r.keyAggCtx.effectivePubkey P : Res Unit _) = .ok (some X))
    (hX' : (r.keyAggCtx.effectivePubkey (mulG sk) : Res Unit _) = .ok (some X'))
    (R : MaybePoint) (hR : R = r2.aggregatedNonce.R1
      + r2.aggregatedNonce.nonceCoefficient H r.keyAggCtx.aggregatedPubkey msg • r2.aggregatedNonce.R2) (hR0 : R ≠ 0)
    (calls : List (ℕ × PartialSignature)) (hcomp : (r2.run H calls).1.isComplete = true) :
    let e := Spec.challenge H (R + T) r.keyAggCtx.aggregatedPubkey.1 msg
    (∀ s, (r2.ourSignature : Res Unit _) = .ok s →
      (verifyPartialAdaptor H r.keyAggCtx s r2.aggregatedNonce T P r.ourPublicNonce msg = .ok () ↔ e = 0 ∨ X = X')) ∧
    ((∃ sig, (r2.run H calls).1.finalizeAdaptor H = .ok sig) ↔ e = 0 ∨ X = X') ∧
    ((r2.run H calls).1.finalizeAdaptor H = .err (.invalidAggregatedSignature .badSignature) ↔ e ≠ 0 ∧ X ≠ X') := by
  intro e
  obtain ⟨f1, f2, f3, f4, hm, hpn, s, hst, hour, hsig⟩ := finalized_fields hr h
  have hc := hr.inv.ctx
  have hinv2 := SecondRound.inv_finalize hr.inv h
  have hRs : (r2.aggregatedNonce.finalNonce
      (r2.aggregatedNonce.nonceCoefficient H r.keyAggCtx.aggregatedPubkey msg)).1 = R := by
    rw [hR]; exact finalNonce_eq_of_ne (by rw [hR] at hR0; exact hR0)
  have hown := (C27_signer_produces_it H r.keyAggCtx hc r2.aggregatedNonce T sk hm r.secnonce msg s).2 hsig
  have key : verifyPartialAdaptor H r.keyAggCtx s r2.aggregatedNonce T P r.ourPublicNonce msg = .ok () ↔
      e = 0 ∨ X = X' := by
    have := C87_binds_key H hH r.keyAggCtx hc s r2.aggregatedNonce T (mulG sk) P r.ourPublicNonce msg X' X hown hX' hX
    rw [hRs] at this
    exact this
  obtain ⟨hrun, g1, g2, g3, g4, g5, g6⟩ := hinv2.run calls
  obtain ⟨ss, hss⟩ := hrun.isComplete_iff.1 hcomp
  obtain ⟨hl, hst'⟩ := (hrun.slots_finalize ss).1 hss
  rw [g1, f1] at hl hst'
  have hin : r.signerIndex < r.keyAggCtx.pubkeys.length := (List.getElem?_eq_some_iff.1 hP).1
  have hsi : ss[r.signerIndex]? = some s := by
    rw [← hst' _ hin, hinv2.stored_run calls _ (by rw [f1]; exact hin), hst]
    rfl
  have hag : r2.aggregatedNonce = AggNonce.sum r2.pubnonces := hinv2.agg
  have hlast := C91_last_signer H hH r.keyAggCtx hc T r2.pubnonces ss msg r.signerIndex P r.ourPublicNonce hP hpn
    (by rw [hinv2.nonces, f1]) hl (fun j Q qn w hj hQ hqn hw => by
      have hjl := (List.getElem?_eq_some_iff.1 hQ).1
      have hstj := (hst' j hjl).trans hw
      obtain ⟨P', n', h1, h2, h3⟩ := hrun.valid j w (by rw [g6, f2]; exact hj) hstj
      rw [g1, f1, hQ] at h1
      rw [g2, hqn] at h2
      cases h1
      cases h2
      rw [g1, g3, g4, g5, f1, f3, f4, hinv2.agg] at h3
      exact h3) R (by rw [hR, hag]) hR0
    (aggValue H r.keyAggCtx (AggNonce.sum r2.pubnonces) T ss msg)
  have hfin : (∃ sig, (r2.run H calls).1.finalizeAdaptor H = .ok sig) ↔ e = 0 ∨ X = X' := by
    rw [← key]
    have hv : aggValue H r.keyAggCtx (AggNonce.sum r2.pubnonces) T ss msg - (ss.eraseIdx r.signerIndex).sum
        - Spec.challenge H (R + T) r.keyAggCtx.aggregatedPubkey.1 msg
          * (Spec.sgn r.keyAggCtx.aggregatedPubkey.1 * (r.keyAggCtx.tweakSum.map (·.1)).getD 0) = s := by
      have ht : (r.keyAggCtx.tweakSum.map (·.1)).getD 0 = r.keyAggCtx.tweakAcc := by
        unfold KeyAggContext.tweakSum
        cases hz : notZero r.keyAggCtx.tweakAcc with
        | none => rw [notZero_eq_none.1 hz]; rfl
        | some t => rw [notZero_eq_some.1 hz]; rfl
      have hsum : s + (ss.eraseIdx r.signerIndex).sum = ss.sum := by
        obtain ⟨hi, rfl⟩ := List.getElem?_eq_some_iff.1 hsi
        exact List.CommMonoid.add_sum_eraseIdx hi
      have he : sessionE H r.keyAggCtx (AggNonce.sum r2.pubnonces) T msg
          = Spec.challenge H (R + T) r.keyAggCtx.aggregatedPubkey.1 msg := by
        rw [spec_challenge hH, ← hRs, hag]; rfl
      unfold aggValue
      rw [he, ht, ← sgn_mul, ← hsum]
      change s + _ + Spec.sgn r.keyAggCtx.aggregatedPubkey.1 * _ - _ - _ = s
      ring
    rw [hv, ← hag] at hlast
    rw [← hlast, SecondRound.finalizeAdaptor_eq hss, g1, g3, g4, g5, f1, f3, f4, hinv2.agg, aggregateAdaptor_eq]
    have hRs' : (sessionR H r.keyAggCtx (AggNonce.sum r2.pubnonces) msg).1 = R := by rw [← hRs, hag]; rfl
    rw [hRs', hag]
    split_ifs with hvv
    · exact ⟨fun _ => hvv, fun _ => ⟨_, rfl⟩⟩
    · exact ⟨fun ⟨_, hh⟩ => (by cases hh), fun hh => absurd hh hvv⟩
  refine ⟨fun s' hs' => ?_, hfin, ?_⟩
  · rw [hour] at hs'
    cases hs'
    exact key
  · rw [← not_or, ← hfin]
    rcases SecondRound.finalizeAdaptor_cases H (r2.run H calls).1 with h1 | h1 | ⟨sig, h1⟩
    · rw [SecondRound.finalizeAdaptor_eq hss, aggregateAdaptor_eq] at h1
      split_ifs at h1 <;> cases h1
    · rw [h1]; simp
    · rw [h1]; simp

/-- Signer 0 of the example group, with key `G`, finalizes the first round with the secret key of `-G`; all hypotheses
are met. -/
example (T : MaybePoint) (msg : Bytes) : ∃ r r2 P X X' calls, FirstRound.Reachable sha256 r ∧
    r.finalizeAdaptor sha256 skMinusOne T msg = .ok r2 ∧ r.keyAggCtx.pubkeys[r.signerIndex]? = some P ∧
    mulG skMinusOne ≠ P ∧ (r.keyAggCtx.effectivePubkey P : Res Unit _) = .ok (some X) ∧
    (r.keyAggCtx.effectivePubkey (mulG skMinusOne) : Res Unit _) = .ok (some X') ∧
    r2.aggregatedNonce.R1 + r2.aggregatedNonce.nonceCoefficient sha256 r.keyAggCtx.aggregatedPubkey msg
      • r2.aggregatedNonce.R2 ≠ 0 ∧ (r2.run sha256 calls).1.isComplete = true := by
  obtain ⟨r, R, h1, h2, h3, h4, h5⟩ := complete_round_exists_any
  obtain ⟨r2, s, h6, h7, h8⟩ := h5 skMinusOne T msg mulG_minusOne_mem
  refine ⟨r, r2, _, coeffOf sha256 exCtx.orderedPubkeys (mulG scalarOne) • (mulG scalarOne).1,
    coeffOf sha256 exCtx.orderedPubkeys (mulG skMinusOne) • (mulG skMinusOne).1, _, h1, h6, h3, ?_, ?_, ?_, by rw [h8]; exact h4, h7⟩
  · rw [mulG_minusOne]
    have : mulG scalarOne = Gpt := Subtype.ext (one_smul _ _)
    rw [this]
    exact negGpt_ne
  · rw [h2, exCtx_reachable.inv.effectivePubkey_eq, if_pos (show mulG scalarOne ∈ exCtx.orderedPubkeys from mulG_one_mem)]
  · rw [h2, exCtx_reachable.inv.effectivePubkey_eq,
      if_pos (show mulG skMinusOne ∈ exCtx.orderedPubkeys from mulG_minusOne_mem)]

end Verif
