import Verif.Lemmas.Props.Aggregator

/-!
# Properties C94, C95, C96
-/

namespace Verif

/-! ## C94 -/

/-- **C94**. An aggregator hands out the aggregated nonce `an`, honest or not, and every signer's partial signature
verifies for it. Then aggregation succeeds exactly if the final nonce of `an` is the one of the sum of the signers'
nonces, under the coefficient for `an`; otherwise it fails with `BadSignature`. A lying aggregator can make signing
fail, and nothing else. -/
theorem C94_aggregate_iff_nonce (H : Hash) (ctx : KeyAggContext) (hc : Reachable H ctx) (an : AggNonce) (T : MaybePoint)
    (pubnonces : List PubNonce) (sigs : List PartialSignature) (msg : Bytes)
    (hl : pubnonces.length = ctx.pubkeys.length) (hls : sigs.length = ctx.pubkeys.length)
    (h : ∀ (i : ℕ) P pn s, ctx.pubkeys[i]? = some P → pubnonces[i]? = some pn → sigs[i]? = some s →
      verifyPartialAdaptor H ctx s an T P pn msg = .ok ()) :
    let b := an.nonceCoefficient H ctx.aggregatedPubkey msg
    let honest := (an.finalNonce b).1 = (AggNonce.sum pubnonces).R1 + b • (AggNonce.sum pubnonces).R2
    (honest → ∃ sig, aggregatePartialAdaptorSignatures H ctx an T sigs msg = .ok sig ∧
      sig.R = (AggNonce.sum pubnonces).R1 + b • (AggNonce.sum pubnonces).R2 ∧
      verifySingleAdaptor H ctx.aggregatedPubkey sig msg T = .ok ()) ∧
    (¬ honest → aggregatePartialAdaptorSignatures H ctx an T sigs msg = .err .badSignature) := by
  intro b honest
  obtain ⟨z1, z2, z3⟩ := zip_of_verified hc.inv hl hls h
  have key := agg_verifies_iff hc.inv an T msg _ sigs z1 z3
  have h1 : ((ctx.orderedPubkeys.zip pubnonces).map fun x => x.2.R1.1) = pubnonces.map fun n => n.R1.1 := by
    rw [← z2, List.map_map, z2]; rfl
  have h2 : ((ctx.orderedPubkeys.zip pubnonces).map fun x => x.2.R2.1) = pubnonces.map fun n => n.R2.1 := by
    rw [← z2, List.map_map, z2]; rfl
  have hsum := AggNonce.sum_eq pubnonces
  rw [h1, h2] at key
  have key' : verifySingleAdaptor H ctx.pubkey ⟨(sessionR H ctx an msg).1, aggValue H ctx an T sigs msg⟩ msg T = .ok () ↔
      honest := by
    rw [key]
    simp only [honest]
    rw [hsum]
    exact Iff.rfl
  rw [aggregateAdaptor_eq]
  constructor
  · intro ho
    rw [if_pos (key'.2 ho)]
    exact ⟨_, rfl, ho, key'.2 ho⟩
  · intro ho
    rw [if_neg fun hv => ho (key'.1 hv)]

/-- **C94** for the signers of the library: every member `i` of the group has a first round `rounds i`, in whatever
state, with its own secret key, and signs for the aggregator with the nonce `an`. All of them succeed, and the
signatures aggregate exactly if `an` has the final nonce of the true sum. -/
theorem C94_sign_for_aggregator (H : Hash) (ctx : KeyAggContext) (an : AggNonce) (T : MaybePoint) (msg : Bytes)
    (rounds : ℕ → FirstRound) (sks : List Scalar) (hr : ∀ i, FirstRound.Reachable H (rounds i))
    (hctx : ∀ i, (rounds i).keyAggCtx = ctx) (hsk : sks.map mulG = ctx.pubkeys) :
    ∃ sigs : List PartialSignature, sigs.length = sks.length ∧
      (∀ (i : ℕ) sk, sks[i]? = some sk →
        ∃ s, sigs[i]? = some s ∧ (rounds i).signForAggregatorAdaptor H sk T msg an = .ok s) ∧
      let b := an.nonceCoefficient H ctx.aggregatedPubkey msg
      let total := AggNonce.sum ((List.range sks.length).map fun i => (rounds i).ourPublicNonce)
      ((∃ sig, aggregatePartialAdaptorSignatures H ctx an T sigs msg = .ok sig) ↔
        (an.finalNonce b).1 = total.R1 + b • total.R2) := by
  have hc : Reachable H ctx := by rw [← hctx 0]; exact (hr 0).inv.ctx
  have hlen : sks.length = ctx.pubkeys.length := by rw [← hsk, List.length_map]
  have hmem : ∀ i, (hi : i < sks.length) → mulG sks[i] ∈ ctx.pubkeys := by
    intro i hi
    rw [← hsk]
    exact List.mem_map_of_mem (List.getElem_mem hi)
  let sig : ℕ → MaybeScalar := fun i =>
    partialSigValue H ctx (sks[i]?.getD scalarOne) (rounds i).secnonce an T msg
  have hsig : ∀ i, (hi : i < sks.length) →
      (rounds i).signForAggregatorAdaptor H sks[i] T msg an = .ok (sig i) := by
    intro i hi
    unfold FirstRound.signForAggregatorAdaptor
    rw [hctx, signPartialAdaptor_eq hc.inv, if_pos (show mulG sks[i] ∈ ctx.orderedPubkeys from hmem i hi)]
    simp only [sig]
    rw [List.getElem?_eq_getElem hi]
    rfl
  refine ⟨(List.range sks.length).map sig, by simp, fun i sk hi => ?_, ?_⟩
  · obtain ⟨hi', rfl⟩ := List.getElem?_eq_some_iff.1 hi
    refine ⟨sig i, ?_, hsig i hi'⟩
    rw [List.getElem?_map, List.getElem?_range hi']
    rfl
  · intro b total
    have := C94_aggregate_iff_nonce H ctx hc an T
      ((List.range sks.length).map fun i => (rounds i).ourPublicNonce) ((List.range sks.length).map sig) msg
      (by simpa using hlen) (by simpa using hlen) (fun i P pn s hP hpn hs => by
        have hi : i < sks.length := by rw [hlen]; exact (List.getElem?_eq_some_iff.1 hP).1
        rw [List.getElem?_map, List.getElem?_range hi] at hpn hs
        cases hpn
        cases hs
        have hP' : mulG sks[i] = P := by
          rw [← hsk, List.getElem?_map, List.getElem?_eq_getElem hi] at hP
          exact Option.some.inj hP
        rw [← hP']
        refine (C27_signer_produces_it H ctx hc an T sks[i] (hmem i hi) (rounds i).secnonce msg _).2 ?_
        have := hsig i hi
        unfold FirstRound.signForAggregatorAdaptor at this
        rw [hctx] at this
        exact this)
    constructor
    · rintro ⟨sg, hsg⟩
      by_contra hn
      rw [this.2 hn] at hsg
      cases hsg
    · intro ho
      obtain ⟨sg, hsg, -⟩ := this.1 ho
      exact ⟨sg, hsg⟩

/-- The hypotheses can be met: both members of the example group, with an aggregated nonce that is not the sum. -/
example : ∃ (rounds : ℕ → FirstRound) (sks : List Scalar), (∀ i, FirstRound.Reachable sha256 (rounds i)) ∧
    (∀ i, (rounds i).keyAggCtx = exCtx) ∧ sks.map mulG = exCtx.pubkeys ∧ sks.length = 2 := by
  have h : ∀ i, ∃ r, FirstRound.new sha256 exCtx zeroSeed (i % 2) SecNonceSpices.new = .ok r := fun i =>
    new_ok (H := sha256) (ctx := exCtx) zeroSeed (i := i % 2) (by
      have : exCtx.pubkeys.length = 2 := rfl
      omega) SecNonceSpices.new (by decide)
  choose r hr using h
  refine ⟨r, [scalarOne, skMinusOne], fun i => FirstRound.Reachable.new exCtx_reachable (hr i),
    fun i => (new_fields (hr i)).1, ?_, rfl⟩
  have : mulG scalarOne = Gpt := Subtype.ext (one_smul _ _)
  simp only [List.map_cons, List.map_nil, this, mulG_minusOne]
  rfl

/-! ## C95 -/

/-- **C95**. Atomic swap: two adaptor signatures, of any two keys on any two messages, are valid for the same adaptor
point. Whoever sees the signature on the first message that completes the first one, as 64 bytes that BIP340 accepts,
computes from it, by `reveal_secret` and `adapt`, a signature on the second message that BIP340 accepts. -/
theorem C95_atomic_swap (H : Hash) (hH : TagsAgree H) (P P' : Point) (sig sig' : AdaptorSignature) (T : MaybePoint)
    (msg msg' : Bytes) (h : verifySingleAdaptor H P sig msg T = .ok ()) (h' : verifySingleAdaptor H P' sig' msg' T = .ok ())
    (hR : sig.R ≠ 0) (hRT : sig.R + T ≠ 0) (hRT' : sig'.R + T ≠ 0) (published : Bytes) (hl : published.length = 64)
    (hv : Spec.schnorr_verify H msg (Spec.xbytes P.1) published = true)
    (hx : published.take 32 = Spec.xbytes (sig.R + T)) :
    ∃ f t f', LiftedSignature.fromBytes published = .ok f ∧ sig.revealSecret f = some t ∧ t • G = T ∧
      sig'.adapt t = some f' ∧ Spec.schnorr_verify H msg' (Spec.xbytes P'.1) f'.toBytes = true ∧
      Spec.x f'.R.1 = Spec.x (sig'.R + T) := by
  have hx' : Spec.xbytes (sig.R + T) = (xonly (sig.R + T)).1 := spec_xbytes _
  obtain ⟨c, hc, hcb⟩ : ∃ c, CompactSignature.fromBytes published = .ok c ∧ c.toBytes = published := by
    have hb := (C33_verify_single_is_bip340 H hH P published msg).1.2 ⟨hl, hv⟩
    unfold verifySingleBytes at hb
    rcases CompactSignature.fromBytes_cases published with ⟨c, h1, h2⟩ | ⟨e, h1, -⟩
    · exact ⟨c, h1, h2⟩
    · rw [h1] at hb; cases hb
  have hrx : c.rx = xonly (sig.R + T) := by
    apply Subtype.ext
    rw [← hx', ← hx, ← hcb]
    unfold CompactSignature.toBytes
    rw [List.take_left' c.rx.2]
  obtain ⟨f, hf⟩ := (C44_lift_iff_on_curve c).2 ⟨⟨_, hRT⟩, hrx⟩
  obtain ⟨hev, hfc⟩ := CompactSignature.liftNonce_eq_some.1 hf
  have hfb : f.toBytes = published := by rw [← hcb, ← hfc]; rfl
  have hfv : verifySingleLifted H P f msg = .ok () :=
    ((C33_verify_single_typed H hH P msg).2.1 f).2 (by rw [hfb]; exact hv)
  have hfx : Spec.x f.R.1 = Spec.x (sig.R + T) := by
    rw [spec_x, spec_x, ← xonly_eq_iff_xNat, ← hrx, ← hfc]
    rfl
  obtain ⟨t, h1, h2, -⟩ := C78_completion_reveals_secret H P sig T msg f h hR hev hfv hfx
  cases hf' : sig'.adapt t with
  | none =>
    rw [adapt_eq_none, h2] at hf'
    exact absurd hf' hRT'
  | some f' =>
    have hv' := (verify_adapt (H := H) (P := P') (msg := msg') hf').2 (by rw [h2]; exact h')
    refine ⟨f, t, f', LiftedSignature.fromBytes_eq_ok.2 ⟨hev, hfb.symm⟩, h1, h2, hf',
      ((C33_verify_single_typed H hH P' msg').2.1 f').1 hv', ?_⟩
    obtain ⟨R, e1, e2, -⟩ := adapt_eq_some.1 hf'
    rw [h2] at e1
    rw [e2, spec_x, spec_x, ← xonly_eq_iff_xNat, xonly_toEvenY, ← e1]

/-- The hypotheses can be met for every two keys and messages: two adaptor signatures for `7·G` made with the nonce `G`,
and the published completion of the first one. -/
example (H : Hash) (hH : TagsAgree H) (sk sk' : Scalar) (msg msg' : Bytes) : ∃ sig sig' published,
    verifySingleAdaptor H (mulG sk) sig msg ((7 : MaybeScalar) • G) = .ok () ∧
    verifySingleAdaptor H (mulG sk') sig' msg' ((7 : MaybeScalar) • G) = .ok () ∧ sig.R ≠ 0 ∧
    sig.R + (7 : MaybeScalar) • G ≠ 0 ∧ sig'.R + (7 : MaybeScalar) • G ≠ 0 ∧ published.length = 64 ∧
    Spec.schnorr_verify H msg (Spec.xbytes (mulG sk).1) published = true ∧
    published.take 32 = Spec.xbytes (sig.R + (7 : MaybeScalar) • G) := by
  obtain ⟨s, hs⟩ := valid_adaptor_exists H sk 1 ((7 : MaybeScalar) • G) msg
  obtain ⟨s', hs'⟩ := valid_adaptor_exists H sk' 1 ((7 : MaybeScalar) • G) msg'
  have hne : (1 : MaybeScalar) • G + (7 : MaybeScalar) • G ≠ 0 := by
    rw [← add_smul, Ne, smul_G_eq_zero]
    have := natCast_scalar_ne_zero (k := 8) (by norm_num) (by norm_num)
    intro h0
    apply this
    rw [← h0]
    norm_num
  cases hf : (⟨(1 : MaybeScalar) • G, s⟩ : AdaptorSignature).adapt 7 with
  | none => exact absurd (adapt_eq_none.1 hf) hne
  | some f =>
    have hv := (verify_adapt (H := H) (P := mulG sk) (msg := msg) hf).2 hs
    obtain ⟨R, e1, e2, -⟩ := adapt_eq_some.1 hf
    refine ⟨_, _, f.toBytes, hs, hs', ?_, hne, hne, f.compact.toBytes_length,
      ((C33_verify_single_typed H hH (mulG sk) msg).2.1 f).1 hv, ?_⟩
    · simp only [one_smul]; exact G_ne_zero
    · unfold LiftedSignature.toBytes LiftedSignature.compact CompactSignature.new CompactSignature.toBytes
      simp only
      rw [List.take_left' (xonly f.R.1).2, spec_xbytes, e2, xonly_toEvenY, ← e1]

/-- **C95** for sessions: two second rounds, of any two groups with any two messages, have the same adaptor point and
have been finalized as adaptor sessions. Publishing the signature of the one hands out the signature of the other. -/
theorem C95_swap_of_sessions (H : Hash) (hH : TagsAgree H) (r r' : SecondRound) (sig sig' : AdaptorSignature)
    (h : r.finalizeAdaptor H = .ok sig) (h' : r'.finalizeAdaptor H = .ok sig') (hT : r'.adaptorPoint = r.adaptorPoint)
    (hRT : sig.R + r.adaptorPoint ≠ 0) (hRT' : sig'.R + r.adaptorPoint ≠ 0) (published : Bytes)
    (hl : published.length = 64)
    (hv : Spec.schnorr_verify H r.message (Spec.xbytes r.keyAggCtx.aggregatedPubkey.1) published = true)
    (hx : published.take 32 = Spec.xbytes (sig.R + r.adaptorPoint)) :
    ∃ f t f', LiftedSignature.fromBytes published = .ok f ∧ sig.revealSecret f = some t ∧
      sig'.adapt t = some f' ∧
      Spec.schnorr_verify H r'.message (Spec.xbytes r'.keyAggCtx.aggregatedPubkey.1) f'.toBytes = true := by
  have key : ∀ (r : SecondRound) sig, r.finalizeAdaptor H = .ok sig → sig.R ≠ 0 ∧
      verifySingleAdaptor H r.keyAggCtx.aggregatedPubkey sig r.message r.adaptorPoint = .ok () := by
    intro r sig h
    unfold SecondRound.finalizeAdaptor at h
    obtain ⟨ss, -, h⟩ := Res.bind_eq_ok.1 h
    rw [Res.mapErr_eq_ok] at h
    obtain ⟨rfl, h2⟩ := aggregateAdaptor_eq_ok.1 h
    exact ⟨(sessionR H r.keyAggCtx r.aggnonce r.message).2, h2⟩
  obtain ⟨k1, k2⟩ := key r sig h
  obtain ⟨-, k2'⟩ := key r' sig' h'
  rw [hT] at k2'
  obtain ⟨f, t, f', e1, e2, -, e4, e5, -⟩ := C95_atomic_swap H hH _ _ sig sig' r.adaptorPoint r.message r'.message k2 k2'
    k1 hRT hRT' published hl hv hx
  exact ⟨f, t, f', e1, e2, e4, e5⟩

/-- The hypotheses can be met, for every two messages: two sessions of the example group, under SHA-256. -/
example (msg msg' : Bytes) : ∃ (r r' : SecondRound) (sig sig' : AdaptorSignature) (published : Bytes),
    r.message = msg ∧ r'.message = msg' ∧
    r.finalizeAdaptor sha256 = .ok sig ∧ r'.finalizeAdaptor sha256 = .ok sig' ∧ r'.adaptorPoint = r.adaptorPoint ∧
    r.adaptorPoint ≠ 0 ∧ sig.R + r.adaptorPoint ≠ 0 ∧ sig'.R + r.adaptorPoint ≠ 0 ∧ published.length = 64 ∧
    Spec.schnorr_verify sha256 r.message (Spec.xbytes r.keyAggCtx.aggregatedPubkey.1) published = true ∧
    published.take 32 = Spec.xbytes (sig.R + r.adaptorPoint) := by
  obtain ⟨r, R, h1, -, h3, h4, h5⟩ := complete_round_exists
  have key : ∀ msg, ∃ (q : SecondRound) (sig : AdaptorSignature), q.message = msg ∧ q.adaptorPoint = R ∧
      q.keyAggCtx = r.keyAggCtx ∧ q.finalizeAdaptor sha256 = .ok sig ∧ sig.R = R ∧
      verifySingleAdaptor sha256 r.keyAggCtx.aggregatedPubkey sig msg R = .ok () := by
    intro msg
    obtain ⟨r2, s, e1, e2, e3⟩ := h5 R msg
    obtain ⟨sig, f1, f2, f3⟩ := C70_complete_round_finalizes sha256 r h1 scalarOne h3 R msg r2 e1 _ e2
      (by rw [e3]; exact h4)
    have hinv := SecondRound.inv_finalize h1.inv e1
    obtain ⟨g1, -, g3, g4, -⟩ := stored_accepted h1 h3 e1 []
    obtain ⟨-, k1, -, -, k4, k5, -⟩ := hinv.run [(1, s)]
    exact ⟨_, sig, k5.trans g4, k4.trans g3, k1.trans g1, f1, f2.trans e3, f3⟩
  obtain ⟨q, sig, a1, a2, a3, a4, a5, a6⟩ := key msg
  obtain ⟨q', sig', b1, b2, b3, b4, b5, -⟩ := key msg'
  have hRR : R + R ≠ 0 := by
    obtain ⟨k, rfl⟩ := exists_dlog R
    rw [← add_smul, Ne, smul_G_eq_zero, ← two_mul]
    refine mul_ne_zero two_ne_zero_scalar fun h => h4 ?_
    rw [h, zero_smul]
  obtain ⟨t, ht⟩ := exists_dlog R
  cases hf : sig.adapt t with
  | none =>
    rw [adapt_eq_none, ht, a5] at hf
    exact absurd hf hRR
  | some f =>
    have hv := (verify_adapt (H := sha256) (P := r.keyAggCtx.aggregatedPubkey) (msg := msg) hf).2 (by rw [ht]; exact a6)
    obtain ⟨R', e1, e2, -⟩ := adapt_eq_some.1 hf
    rw [ht] at e1
    refine ⟨q, q', sig, sig', f.toBytes, a1, b1, a4, b4, b2.trans a2.symm, by rw [a2]; exact h4, by rw [a5, a2]; exact hRR,
      by rw [b5, a2]; exact hRR, f.compact.toBytes_length, ?_, ?_⟩
    · rw [a1, a3]
      exact ((C33_verify_single_typed sha256 sha256_tagsAgree _ msg).2.1 f).1 hv
    · unfold LiftedSignature.toBytes LiftedSignature.compact CompactSignature.new CompactSignature.toBytes
      simp only
      rw [List.take_left' (xonly f.R.1).2, spec_xbytes, e2, xonly_toEvenY, a2, e1]

/-! ## C96 -/

/-- **C96**. Signing and verifying never panic and have no other outcomes than the documented ones: verification of
whole signatures is accepted or `BadSignature`, verification of partial signatures knows `UnknownKey` besides, signing
fails with `UnknownKey` only, and solo signing cannot fail. -/
theorem C96_outcomes (H : Hash) :
    (∀ P sig msg, verifySingleBytes H P sig msg = .ok () ∨ verifySingleBytes H P sig msg = .err .badSignature) ∧
    (∀ P sig msg, verifySingle H P sig msg = .ok () ∨ verifySingle H P sig msg = .err .badSignature) ∧
    (∀ P sig msg, verifySingleLifted H P sig msg = .ok () ∨ verifySingleLifted H P sig msg = .err .badSignature) ∧
    (∀ P sig msg T, verifySingleAdaptor H P sig msg T = .ok () ∨
      verifySingleAdaptor H P sig msg T = .err .badSignature) ∧
    (∀ rng rows, verifyBatch H rng rows = .ok () ∨ verifyBatch H rng rows = .err .badSignature) ∧
    (∀ sk msg seed, ∃ sig, (signSolo H sk msg seed : Res Unit _) = .ok sig) ∧
    (∀ ctx, Reachable H ctx →
      (∀ s an T P pn msg, verifyPartialAdaptor H ctx s an T P pn msg = .ok () ∨
        verifyPartialAdaptor H ctx s an T P pn msg = .err .badSignature ∨
        verifyPartialAdaptor H ctx s an T P pn msg = .err .unknownKey) ∧
      (∀ sk sn an T msg, (∃ s, signPartialAdaptor H ctx sk sn an T msg = .ok s) ∨
        signPartialAdaptor H ctx sk sn an T msg = .err .unknownKey) ∧
      (∀ sks, (∃ sk, ctx.aggregatedSeckey sks = .ok sk) ∨
        ctx.aggregatedSeckey sks = .err .invalidSecretKeysError)) ∧
    (∀ ctx an T sigs msg, (∃ sig, aggregatePartialAdaptorSignatures H ctx an T sigs msg = .ok sig) ∨
      aggregatePartialAdaptorSignatures H ctx an T sigs msg = .err .badSignature) ∧
    (∀ ctx an sigs msg, (∃ sig, aggregatePartialSignatures H ctx an sigs msg = .ok sig) ∨
      aggregatePartialSignatures H ctx an sigs msg = .err .badSignature) := by
  refine ⟨fun P sig msg => ?_, fun P sig msg => verifySingle_dichotomy, fun P sig msg => verifySingle_dichotomy,
    fun P sig msg T => verifySingleAdaptor_dichotomy H P sig msg T, verifyBatch_dichotomy H, fun sk msg seed => ?_,
    fun ctx hc => ⟨fun s an T P pn msg => ?_, fun sk sn an T msg => ?_, fun sks => ?_⟩, fun ctx an T sigs msg => ?_,
    fun ctx an sigs msg => ?_⟩
  · unfold verifySingleBytes
    split
    · exact verifySingle_dichotomy
    · exact verifySingle_dichotomy
    · rename_i hp
      exact absurd hp (CompactSignature.fromBytes_ne_panic sig)
  · obtain ⟨sig, h, -⟩ := C35_solo_signature_verifies H sk msg seed Unit
    exact ⟨sig, h⟩
  · by_cases hP : P ∈ ctx.pubkeys
    · rcases (C26_verify_partial_adaptor_outcomes H ctx hc s an T P pn msg).2 hP with h | h
      · exact Or.inl h
      · exact Or.inr (Or.inl h)
    · exact Or.inr (Or.inr ((C26_verify_partial_adaptor_outcomes H ctx hc s an T P pn msg).1 hP))
  · by_cases hm : mulG sk ∈ ctx.pubkeys
    · exact Or.inl ((C24_sign_iff_member H ctx hc sk sn an T msg).1 hm)
    · exact Or.inr ((C24_sign_iff_member H ctx hc sk sn an T msg).2 hm)
  · have hnp := (C07_seckey_too_many H ctx hc sks).2
    cases h : ctx.aggregatedSeckey sks with
    | ok sk => exact Or.inl ⟨sk, rfl⟩
    | err e => cases e; exact Or.inr rfl
    | panic => exact absurd h hnp
  · rw [aggregateAdaptor_eq]
    split_ifs
    · exact Or.inl ⟨_, rfl⟩
    · exact Or.inr rfl
  · rw [aggregate_eq]
    split_ifs
    · exact Or.inl ⟨_, rfl⟩
    · exact Or.inr rfl

/-- **C96**. The accessors of a context never panic: they answer for every key and every index. -/
theorem C96_accessors (H : Hash) (ctx : KeyAggContext) (hc : Reachable H ctx) (ε : Type) (P : Point) :
    (∃ a, (ctx.keyCoefficient P : Res ε _) = .ok a ∧ (a.isSome = true ↔ P ∈ ctx.pubkeys)) ∧
    (∃ X, (ctx.effectivePubkey P : Res ε _) = .ok X ∧ (X.isSome = true ↔ P ∈ ctx.pubkeys)) ∧
    ∃ Q, (ctx.aggregatedPubkeyUntweaked : Res ε _) = .ok Q := by
  refine ⟨⟨_, hc.inv.keyCoefficient_eq P, ?_⟩, ⟨_, hc.inv.effectivePubkey_eq P, ?_⟩, ?_⟩
  · unfold KeyAggContext.pubkeys
    split_ifs <;> simp [*]
  · unfold KeyAggContext.pubkeys
    split_ifs <;> simp [*]
  · obtain ⟨ctx0, -, h⟩ := C05_untweaked_recoverable H ctx hc ε
    exact ⟨_, h⟩

example : Reachable sha256 exCtx ∧ Gpt ∈ exCtx.pubkeys := ⟨exCtx_reachable, by
  have : mulG scalarOne = Gpt := Subtype.ext (one_smul _ _)
  rw [← this]
  exact mulG_one_mem⟩

end Verif
