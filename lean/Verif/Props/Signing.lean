import Verif.Lemmas.Props.Signing
import Verif.Lemmas.Session
import Verif.Props.Bip340

/-!
# Properties C22, C24-C32: signing sessions
-/

namespace Verif

/-- **C11**, addition: every context, however obtained, could have been obtained from its members with `new` and a list
of tweaks, so that the BIP327 statements below apply to it. -/
theorem C11_every_context_has_a_history (H : Hash) (ctx : KeyAggContext) (hc : Reachable H ctx) :
    ∃ ts, BuiltFrom H ctx ctx.pubkeys ts := hc.builtFrom

/-! ## C22 -/

/-- **C22**. The nonce coefficient, the final nonce (the generator instead of infinity) and the challenge are those of
`GetSessionValues`. -/
theorem C22_session_values (H : Hash) (hH : TagsAgree H) (keys : List Point) (ts : List (Scalar × Bool))
    (ctx : KeyAggContext) (h : BuiltFrom H ctx keys ts) (an : AggNonce) (msg : Bytes) :
    ∃ v, Spec.get_session_values H (sessionOf keys ts an msg) = some v ∧
      v.Q = ctx.aggregatedPubkey.1 ∧
      v.b = (an.nonceCoefficient H ctx.aggregatedPubkey msg).val ∧
      v.R = (an.finalNonce (an.nonceCoefficient H ctx.aggregatedPubkey msg)).1 ∧
      v.e = (computeChallengeHashTweak H (xonly v.R) ctx.aggregatedPubkey msg).val := by
  obtain ⟨v, hv, hQ, -, -, hb, hR, he⟩ := spec_session_values hH h an msg
  refine ⟨v, hv, hQ, hb, hR, ?_⟩
  rw [he, hR]
  unfold sessionE sessionRT
  rw [add_zero]
  rfl

/-- **C22**, for every reachable context. -/
theorem C22_session_values_reachable (H : Hash) (hH : TagsAgree H) (ctx : KeyAggContext) (hc : Reachable H ctx) :
    ∃ ts, BuiltFrom H ctx ctx.pubkeys ts ∧ ∀ (an : AggNonce) (msg : Bytes),
      ∃ v, Spec.get_session_values H (sessionOf ctx.pubkeys ts an msg) = some v ∧
      v.b = (an.nonceCoefficient H ctx.aggregatedPubkey msg).val ∧
      v.R = (an.finalNonce (an.nonceCoefficient H ctx.aggregatedPubkey msg)).1 ∧
      v.e = (computeChallengeHashTweak H (xonly v.R) ctx.aggregatedPubkey msg).val := by
  obtain ⟨ts, h⟩ := hc.builtFrom
  refine ⟨ts, h, fun an msg => ?_⟩
  obtain ⟨v, h1, -, h2⟩ := C22_session_values H hH _ _ _ h an msg
  exact ⟨v, h1, h2⟩

example : TagsAgree sha256 ∧ BuiltFrom sha256 exCtx exKeys [] ∧ Reachable sha256 exCtx :=
  ⟨sha256_tagsAgree, exCtx_builtFrom, exCtx_reachable⟩

/-! ## C24 -/

/-- **C24**. Partial signing (plain is the case `T = ∞`) succeeds exactly for members, and the only other outcome is
`UnknownKey`. -/
theorem C24_sign_iff_member (H : Hash) (ctx : KeyAggContext) (hc : Reachable H ctx) (sk : Scalar) (sn : SecNonce)
    (an : AggNonce) (T : MaybePoint) (msg : Bytes) :
    (mulG sk ∈ ctx.pubkeys → ∃ s, signPartialAdaptor H ctx sk sn an T msg = .ok s) ∧
    (mulG sk ∉ ctx.pubkeys → signPartialAdaptor H ctx sk sn an T msg = .err .unknownKey) := by
  rw [signPartialAdaptor_eq hc.inv]
  exact ⟨fun h => ⟨_, if_pos h⟩, fun h => if_neg h⟩

/-- **C24**. `SelfVerifyFail` and panics are unreachable, for `sign_partial` and `adaptor::sign_partial`. -/
theorem C24_self_verify_unreachable (H : Hash) (ctx : KeyAggContext) (hc : Reachable H ctx) (sk : Scalar)
    (sn : SecNonce) (an : AggNonce) (T : MaybePoint) (msg : Bytes) :
    signPartialAdaptor H ctx sk sn an T msg ≠ .err .selfVerifyFail ∧
    signPartialAdaptor H ctx sk sn an T msg ≠ .panic ∧
    signPartial H ctx sk sn an msg ≠ .err .selfVerifyFail ∧
    signPartial H ctx sk sn an msg ≠ .panic := by
  unfold signPartial
  rw [signPartialAdaptor_eq hc.inv, signPartialAdaptor_eq hc.inv]
  split_ifs <;> simp

/-- A member and a non-member of the example group. -/
example : Reachable sha256 exCtx ∧ mulG scalarOne ∈ exCtx.pubkeys ∧ mulG ⟨2, two_ne_zero_scalar⟩ ∉ exCtx.pubkeys := by
  refine ⟨exCtx_reachable, ?_, ?_⟩
  · have : mulG scalarOne = Gpt := Subtype.ext (one_smul _ _)
    rw [this]
    simp [exCtx, baseCtx, exKeys, KeyAggContext.pubkeys]
  · simp only [exCtx, baseCtx, exKeys, KeyAggContext.pubkeys, List.mem_cons, List.not_mem_nil, or_false, not_or]
    constructor
    · intro h
      have h' : (2 : MaybeScalar) • G = (1 : MaybeScalar) • G := by rw [one_smul]; exact congrArg Subtype.val h
      rw [smul_G_inj] at h'
      exact one_ne_zero (α := MaybeScalar) (by linear_combination h')
    · intro h
      have h' : (2 : MaybeScalar) • G = (-1 : MaybeScalar) • G := by
        rw [neg_smul, one_smul]; exact congrArg Subtype.val h
      rw [smul_G_inj] at h'
      have h3 : ((3 : ℕ) : MaybeScalar) = 0 := by push_cast; linear_combination h'
      rw [ZMod.natCast_eq_zero_iff] at h3
      exact absurd (Nat.le_of_dvd (by norm_num) h3) (by decide +kernel)

/-! ## C25 -/

/-- **C25**. `sign_partial` is BIP327 `Sign` (secnonce bytes `k1 ‖ k2 ‖ pk`), success and failure alike. -/
theorem C25_sign_is_bip327 (H : Hash) (hH : TagsAgree H) (keys : List Point) (ts : List (Scalar × Bool))
    (ctx : KeyAggContext) (h : BuiltFrom H ctx keys ts) (sk : Scalar) (sn : SecNonce) (an : AggNonce) (msg : Bytes) :
    (∀ s, signPartial H ctx sk sn an msg = .ok s ↔
      Spec.sign H (Spec.bytes_from_int sn.k1.1.val ++ Spec.bytes_from_int sn.k2.1.val ++ Spec.cbytes (sk.1 • G))
        (Spec.bytes_from_int sk.1.val) (sessionOf keys ts an msg) = some (Spec.bytes_from_int s.val)) ∧
    (signPartial H ctx sk sn an msg = .err .unknownKey ↔
      Spec.sign H (Spec.bytes_from_int sn.k1.1.val ++ Spec.bytes_from_int sn.k2.1.val ++ Spec.cbytes (sk.1 • G))
        (Spec.bytes_from_int sk.1.val) (sessionOf keys ts an msg) = none) := by
  have hspec := spec_sign hH h an msg sk sn
  rw [mulG_val] at hspec
  rw [hspec]
  unfold signPartial
  rw [signPartialAdaptor_eq h.reachable.inv, h.keys]
  by_cases hP : mulG sk ∈ keys
  · rw [if_pos hP, if_pos hP]
    refine ⟨fun s => ?_, by simp⟩
    simp only [Res.ok.injEq, Option.some.injEq]
    constructor
    · rintro rfl; rfl
    · intro he
      have := congrArg Spec.int_from_bytes he
      rw [int_bytes_val, int_bytes_val] at this
      exact ZMod.val_injective _ this
  · rw [if_neg hP, if_neg hP]
    simp

example : TagsAgree sha256 ∧ BuiltFrom sha256 exCtx exKeys [] := ⟨sha256_tagsAgree, exCtx_builtFrom⟩

/-! ## C26 -/

/-- **C26**. `verify_partial` is BIP327 `PartialSigVerifyInternal`. -/
theorem C26_verify_partial_is_bip327 (H : Hash) (hH : TagsAgree H) (keys : List Point) (ts : List (Scalar × Bool))
    (ctx : KeyAggContext) (h : BuiltFrom H ctx keys ts) (s : PartialSignature) (an : AggNonce) (P : Point)
    (pn : PubNonce) (msg : Bytes) :
    (verifyPartial H ctx s an P pn msg = .ok () ↔
      Spec.partial_sig_verify_internal H (Spec.bytes_from_int s.val) (Spec.cbytes pn.R1.1 ++ Spec.cbytes pn.R2.1)
        (Spec.cbytes P.1) (sessionOf keys ts an msg) = some true) ∧
    (verifyPartial H ctx s an P pn msg = .err .badSignature ↔
      Spec.partial_sig_verify_internal H (Spec.bytes_from_int s.val) (Spec.cbytes pn.R1.1 ++ Spec.cbytes pn.R2.1)
        (Spec.cbytes P.1) (sessionOf keys ts an msg) = some false) ∧
    (verifyPartial H ctx s an P pn msg = .err .unknownKey ↔
      Spec.partial_sig_verify_internal H (Spec.bytes_from_int s.val) (Spec.cbytes pn.R1.1 ++ Spec.cbytes pn.R2.1)
        (Spec.cbytes P.1) (sessionOf keys ts an msg) = none) ∧
    (verifyPartial H ctx s an P pn msg = .err .unknownKey ↔ P ∉ ctx.pubkeys) ∧
    verifyPartial H ctx s an P pn msg ≠ .panic := by
  rw [spec_partial_verify hH h]
  unfold verifyPartial KeyAggContext.pubkeys
  rw [verifyPartialAdaptor_eq h.reachable.inv, h.keys]
  split_ifs <;> simp [*]

/-- **C26**, the outcomes for adaptor sessions: a key outside the group is `UnknownKey`, and for members only `Ok` and
`BadSignature` occur. -/
theorem C26_verify_partial_adaptor_outcomes (H : Hash) (ctx : KeyAggContext) (hc : Reachable H ctx)
    (s : PartialSignature) (an : AggNonce) (T : MaybePoint) (P : Point) (pn : PubNonce) (msg : Bytes) :
    (P ∉ ctx.pubkeys → verifyPartialAdaptor H ctx s an T P pn msg = .err .unknownKey) ∧
    (P ∈ ctx.pubkeys → verifyPartialAdaptor H ctx s an T P pn msg = .ok () ∨
      verifyPartialAdaptor H ctx s an T P pn msg = .err .badSignature) := by
  unfold KeyAggContext.pubkeys
  rw [verifyPartialAdaptor_eq hc.inv]
  split_ifs <;> simp [*]

/-! ## C27 -/

/-- **C27**. For a member there is exactly one acceptable scalar. -/
theorem C27_unique_partial_signature (H : Hash) (ctx : KeyAggContext) (hc : Reachable H ctx) (an : AggNonce)
    (T : MaybePoint) (P : Point) (hP : P ∈ ctx.pubkeys) (pn : PubNonce) (msg : Bytes) :
    ∃! s : PartialSignature, verifyPartialAdaptor H ctx s an T P pn msg = .ok () := by
  obtain ⟨s, hs⟩ := exists_dlog (partialRhs H ctx an T P pn msg)
  refine ⟨s, (verifyPartialAdaptor_eq_ok hc.inv).2 ⟨hP, hs⟩, fun s' hs' => ?_⟩
  have := ((verifyPartialAdaptor_eq_ok hc.inv).1 hs').2
  rw [← hs] at this
  exact smul_G_inj.1 this

/-- **C27**. For a signer whose public nonce belongs to its secret nonce, that scalar is what `sign_partial` returns. -/
theorem C27_signer_produces_it (H : Hash) (ctx : KeyAggContext) (hc : Reachable H ctx) (an : AggNonce)
    (T : MaybePoint) (sk : Scalar) (hP : mulG sk ∈ ctx.pubkeys) (sn : SecNonce) (msg : Bytes) (s : PartialSignature) :
    verifyPartialAdaptor H ctx s an T (mulG sk) sn.publicNonce msg = .ok () ↔
      signPartialAdaptor H ctx sk sn an T msg = .ok s := by
  have hv : verifyPartialAdaptor H ctx (partialSigValue H ctx sk sn an T msg) an T (mulG sk) sn.publicNonce msg
      = .ok () := (verifyPartialAdaptor_eq_ok hc.inv).2 ⟨hP, partialSigValue_smul H ctx sk sn an T msg⟩
  have hP' : mulG sk ∈ ctx.orderedPubkeys := hP
  rw [signPartialAdaptor_eq hc.inv, if_pos hP', Res.ok.injEq]
  constructor
  · intro h
    exact (C27_unique_partial_signature H ctx hc an T (mulG sk) hP sn.publicNonce msg).unique hv h
  · rintro rfl
    exact hv

/-- C26 and C27 in the example group: one scalar is accepted from a member, the next one is not, and the key `2` is unknown. -/
example (an : AggNonce) (pn : PubNonce) (msg : Bytes) : TagsAgree sha256 ∧ BuiltFrom sha256 exCtx exKeys [] ∧
    (∃ s, verifyPartial sha256 exCtx s an Gpt pn msg = .ok () ∧
      verifyPartial sha256 exCtx (s + 1) an Gpt pn msg = .err .badSignature) ∧
    ∀ s, verifyPartial sha256 exCtx s an (mulG ⟨2, two_ne_zero_scalar⟩) pn msg = .err .unknownKey := by
  have hm : Gpt ∈ exCtx.pubkeys := by simp [exCtx, baseCtx, exKeys, KeyAggContext.pubkeys]
  have h2 : mulG ⟨2, two_ne_zero_scalar⟩ ∉ exCtx.pubkeys := by
    simp only [exCtx, baseCtx, exKeys, KeyAggContext.pubkeys, List.mem_cons, List.not_mem_nil, or_false, not_or]
    constructor
    · intro h
      have h' : (2 : MaybeScalar) • G = (1 : MaybeScalar) • G := by rw [one_smul]; exact congrArg Subtype.val h
      rw [smul_G_inj] at h'
      exact one_ne_zero (α := MaybeScalar) (by linear_combination h')
    · intro h
      have h' : (2 : MaybeScalar) • G = (-1 : MaybeScalar) • G := by
        rw [neg_smul, one_smul]; exact congrArg Subtype.val h
      rw [smul_G_inj] at h'
      have h3 : ((3 : ℕ) : MaybeScalar) = 0 := by push_cast; linear_combination h'
      rw [ZMod.natCast_eq_zero_iff] at h3
      exact absurd (Nat.le_of_dvd (by norm_num) h3) (by decide +kernel)
  refine ⟨sha256_tagsAgree, exCtx_builtFrom, ?_, fun s =>
    (C26_verify_partial_adaptor_outcomes sha256 exCtx exCtx_reachable s an 0 _ pn msg).1 h2⟩
  obtain ⟨s, hs, hu⟩ := C27_unique_partial_signature sha256 exCtx exCtx_reachable an 0 Gpt hm pn msg
  refine ⟨s, hs, ((C26_verify_partial_adaptor_outcomes sha256 exCtx exCtx_reachable (s + 1) an 0 Gpt pn msg).2 hm).resolve_left
    fun h => ?_⟩
  have := hu (s + 1) h
  exact one_ne_zero (add_eq_left.1 this)

example : Reachable sha256 exCtx ∧ Gpt ∈ exCtx.pubkeys :=
  ⟨exCtx_reachable, by simp [exCtx, baseCtx, exKeys, KeyAggContext.pubkeys]⟩

/-! ## C28, C29 -/

/-- **C28**, adaptor sessions included. If all partial signatures verify and `R1 + b·R2` is finite, aggregation
succeeds, and the aggregated adaptor signature is valid. -/
theorem C28_verified_partials_aggregate_adaptor (H : Hash) (ctx : KeyAggContext) (hc : Reachable H ctx)
    (T : MaybePoint) (pubnonces : List PubNonce) (sigs : List PartialSignature) (msg : Bytes)
    (h : AllVerified H ctx T pubnonces sigs msg)
    (hR : (AggNonce.sum pubnonces).R1 + (AggNonce.sum pubnonces).nonceCoefficient H ctx.aggregatedPubkey msg
      • (AggNonce.sum pubnonces).R2 ≠ 0) :
    ∃ sig, aggregatePartialAdaptorSignatures H ctx (AggNonce.sum pubnonces) T sigs msg = .ok sig ∧
      verifySingleAdaptor H ctx.aggregatedPubkey sig msg T = .ok () := by
  obtain ⟨e1, e2, e3⟩ := h.zip hc.inv
  have := agg_verifies hc.inv T msg (ctx.orderedPubkeys.zip pubnonces) sigs e1 (by rw [e2]; exact e3)
    (by rw [e2]; exact hR)
  rw [e2] at this
  exact ⟨_, aggregateAdaptor_eq_ok.2 ⟨rfl, this⟩, this⟩

/-- **C28**. If all partial signatures verify and `R1 + b·R2` is finite, `aggregate_partial_signatures` succeeds, and
the result is a valid BIP340 signature for the aggregated key. -/
theorem C28_verified_partials_aggregate (H : Hash) (hH : TagsAgree H) (ctx : KeyAggContext) (hc : Reachable H ctx)
    (pubnonces : List PubNonce) (sigs : List PartialSignature) (msg : Bytes)
    (h : AllVerified H ctx 0 pubnonces sigs msg)
    (hR : (AggNonce.sum pubnonces).R1 + (AggNonce.sum pubnonces).nonceCoefficient H ctx.aggregatedPubkey msg
      • (AggNonce.sum pubnonces).R2 ≠ 0) :
    ∃ sig, aggregatePartialSignatures H ctx (AggNonce.sum pubnonces) sigs msg = .ok sig ∧
      verifySingleLifted H ctx.aggregatedPubkey sig msg = .ok () ∧
      Spec.schnorr_verify H msg (Spec.xbytes ctx.aggregatedPubkey.1) sig.toBytes = true := by
  obtain ⟨sig, h1, h2⟩ := C28_verified_partials_aggregate_adaptor H ctx hc 0 pubnonces sigs msg h hR
  obtain ⟨rfl, -⟩ := aggregateAdaptor_eq_ok.1 h1
  have hv := (verify_adapt (H := H) (P := ctx.pubkey) (msg := msg)
    (adapt_zero (sessionR H ctx (AggNonce.sum pubnonces) msg)
      (aggValue H ctx (AggNonce.sum pubnonces) 0 sigs msg))).2 (by rw [zero_smul]; exact h2)
  refine ⟨_, ?_, hv, ((C33_verify_single_typed H hH ctx.aggregatedPubkey msg).2.1 _).1 hv⟩
  rw [aggregate_eq, if_pos hv]

/-- The hypotheses can be met: in the example group there are nonces with a finite sum, and verified signatures. -/
example (msg : Bytes) : ∃ pubnonces sigs, AllVerified sha256 exCtx 0 pubnonces sigs msg ∧
    (AggNonce.sum pubnonces).R1 + (AggNonce.sum pubnonces).nonceCoefficient sha256 exCtx.aggregatedPubkey msg
      • (AggNonce.sum pubnonces).R2 ≠ 0 := by
  obtain ⟨sigs, h⟩ := allVerified_exists exCtx_reachable.inv 0 [⟨Gpt, Gpt⟩, ⟨Gpt, negGpt⟩] rfl msg
  refine ⟨_, _, h, ?_⟩
  have h1 : AggNonce.sum [⟨Gpt, Gpt⟩, ⟨Gpt, negGpt⟩] = ⟨(2 : MaybeScalar) • G, 0⟩ := by
    rw [AggNonce.sum_eq]
    simp only [List.map_cons, List.map_nil, List.sum_cons, List.sum_nil, add_zero, two_smul]
    congr 1
    exact add_neg_cancel G
  rw [h1]
  simp only [smul_zero, add_zero]
  rw [Ne, smul_G_eq_zero]
  exact two_ne_zero_scalar

/-- **C29**, true part: this is C28, that is, the guarantee with the exception `R1 + b·R2 = ∞`. Missing: that case,
where the guarantee fails, see `C29_degenerate_always_fails`. -/
theorem C29_verified_partials_valid_partial (H : Hash) (hH : TagsAgree H) (ctx : KeyAggContext)
    (hc : Reachable H ctx) (pubnonces : List PubNonce) (sigs : List PartialSignature) (msg : Bytes)
    (h : AllVerified H ctx 0 pubnonces sigs msg)
    (hR : (AggNonce.sum pubnonces).R1 + (AggNonce.sum pubnonces).nonceCoefficient H ctx.aggregatedPubkey msg
      • (AggNonce.sum pubnonces).R2 ≠ 0) :
    ∃ sig, aggregatePartialSignatures H ctx (AggNonce.sum pubnonces) sigs msg = .ok sig ∧
      verifySingleLifted H ctx.aggregatedPubkey sig msg = .ok () := by
  obtain ⟨sig, h1, h2, -⟩ := C28_verified_partials_aggregate H hH ctx hc pubnonces sigs msg h hR
  exact ⟨sig, h1, h2⟩

/-- **C29** is false in the degenerate case: if `R1 + b·R2` is infinity then, although every partial signature
verifies, aggregation always fails. -/
theorem C29_degenerate_always_fails (H : Hash) (ctx : KeyAggContext) (hc : Reachable H ctx)
    (pubnonces : List PubNonce) (sigs : List PartialSignature) (msg : Bytes)
    (h : AllVerified H ctx 0 pubnonces sigs msg)
    (hR : (AggNonce.sum pubnonces).R1 + (AggNonce.sum pubnonces).nonceCoefficient H ctx.aggregatedPubkey msg
      • (AggNonce.sum pubnonces).R2 = 0) :
    aggregatePartialSignatures H ctx (AggNonce.sum pubnonces) sigs msg = .err .badSignature := by
  have hi := hc.inv
  obtain ⟨e1, e2, e3⟩ := h.zip hi
  rw [aggregate_eq, if_neg]
  intro hv
  have hG : sessionR H ctx (AggNonce.sum pubnonces) msg = Gpt := finalNonce_eq_of_zero hR
  rw [verifySingleLifted_eq_ok (isOdd_toEvenY _), hG] at hv
  unfold LiftedSignature.new at hv
  simp only at hv
  rw [toEvenY_of_even isOdd_G] at hv
  have hsum : ∀ k : List MaybeScalar, k.sum • G = (k.map (· • G)).sum := by
    intro k
    induction k with
    | nil => simp
    | cons a k ih => simp [add_smul, ih]
  set an := AggNonce.sum pubnonces with han
  have hz : ((ctx.orderedPubkeys.zip pubnonces).map fun x => x.2.R1.1).sum
      + an.nonceCoefficient H ctx.pubkey msg • ((ctx.orderedPubkeys.zip pubnonces).map fun x => x.2.R2.1).sum = 0 := by
    have h1 : ((ctx.orderedPubkeys.zip pubnonces).map fun x => x.2.R1.1) = pubnonces.map fun n => n.R1.1 := by
      rw [← e2, List.map_map, e2]; rfl
    have h2 : ((ctx.orderedPubkeys.zip pubnonces).map fun x => x.2.R2.1) = pubnonces.map fun n => n.R2.1 := by
      rw [← e2, List.map_map, e2]; rfl
    rw [h1, h2]
    have := AggNonce.sum_eq pubnonces
    rw [← han] at this
    rw [this] at hR
    rw [this]
    exact hR
  have hK : ((ctx.orderedPubkeys.zip pubnonces).map fun x => coeffOf H ctx.orderedPubkeys x.1 • x.1.1).sum
      = keySum H ctx.orderedPubkeys := by
    unfold keySum
    have : ((ctx.orderedPubkeys.zip pubnonces).map fun x => coeffOf H ctx.orderedPubkeys x.1 • x.1.1)
        = ((ctx.orderedPubkeys.zip pubnonces).map (·.1)).map fun P => coeffOf H ctx.orderedPubkeys P • P.1 := by
      rw [List.map_map]; rfl
    rw [this, e1]
  have hE : computeChallengeHashTweak H (xonly Gpt.1) ctx.pubkey msg = sessionE H ctx an 0 msg := by
    unfold sessionE sessionRT; rw [hG, add_zero]
  unfold aggValue at hv
  rw [hE, add_smul, hsum, e3, sum_partialRhs, hz, hK, negIf_zero, zero_add, toEvenY_val, hi.pub, negIf_add, negIf_negIf,
    smul_add, smul_negIf, smul_negIf, ← negIf_smul, mul_smul, ← hi.pub] at hv
  have : Gpt.1 = 0 := by
    have h2 := hv.symm
    rw [add_eq_right] at h2
    exact h2
  exact Gpt.2 this

/-- **C29** is false: in the example group the nonces `(G,G)` and `(-G,-G)` sum to infinity; for every message there are
partial signatures that all verify, and aggregating them fails. -/
theorem C29_guarantee_false (msg : Bytes) : ∃ pubnonces sigs, AllVerified sha256 exCtx 0 pubnonces sigs msg ∧
    aggregatePartialSignatures sha256 exCtx (AggNonce.sum pubnonces) sigs msg = .err .badSignature := by
  obtain ⟨sigs, h⟩ := allVerified_exists exCtx_reachable.inv 0 [⟨Gpt, Gpt⟩, ⟨negGpt, negGpt⟩] rfl msg
  refine ⟨_, _, h, C29_degenerate_always_fails _ _ exCtx_reachable _ _ _ h ?_⟩
  have h1 : AggNonce.sum [⟨Gpt, Gpt⟩, ⟨negGpt, negGpt⟩] = ⟨0, 0⟩ := by
    rw [AggNonce.sum_eq]
    simp only [List.map_cons, List.map_nil, List.sum_cons, List.sum_nil, add_zero]
    congr 1 <;> exact add_neg_cancel G
  rw [h1]
  simp

/-! ## C30 -/

/-- **C30**. Whatever is aggregated, a returned signature is valid, and the only other outcome is `BadSignature`. -/
theorem C30_aggregate_sound (H : Hash) (hH : TagsAgree H) (ctx : KeyAggContext) (an : AggNonce)
    (sigs : List PartialSignature) (msg : Bytes) :
    (∀ sig, aggregatePartialSignatures H ctx an sigs msg = .ok sig →
      verifySingleLifted H ctx.aggregatedPubkey sig msg = .ok () ∧
      Spec.schnorr_verify H msg (Spec.xbytes ctx.aggregatedPubkey.1) sig.toBytes = true) ∧
    (aggregatePartialSignatures H ctx an sigs msg = .err .badSignature ∨
      ∃ sig, aggregatePartialSignatures H ctx an sigs msg = .ok sig) ∧
    aggregatePartialSignatures H ctx an sigs msg ≠ .panic := by
  rw [aggregate_eq]
  split_ifs with h
  · refine ⟨fun sig hs => ?_, by simp, by simp⟩
    cases hs
    exact ⟨h, ((C33_verify_single_typed H hH ctx.aggregatedPubkey msg).2.1 _).1 h⟩
  · simp

/-- Success happens: this is C28 with its example. Failure happens: C29. -/
example (msg : Bytes) : ∃ an sigs sig, aggregatePartialSignatures sha256 exCtx an sigs msg = .ok sig := by
  obtain ⟨sigs, h⟩ := allVerified_exists exCtx_reachable.inv 0 [⟨Gpt, Gpt⟩, ⟨Gpt, negGpt⟩] rfl msg
  obtain ⟨sig, hs, -⟩ := C28_verified_partials_aggregate sha256 sha256_tagsAgree exCtx exCtx_reachable _ sigs msg h (by
    have h1 : AggNonce.sum [⟨Gpt, Gpt⟩, ⟨Gpt, negGpt⟩] = ⟨(2 : MaybeScalar) • G, 0⟩ := by
      rw [AggNonce.sum_eq]
      simp only [List.map_cons, List.map_nil, List.sum_cons, List.sum_nil, add_zero, two_smul]
      congr 1
      exact add_neg_cancel G
    rw [h1]
    simp only [smul_zero, add_zero]
    rw [Ne, smul_G_eq_zero]
    exact two_ne_zero_scalar)
  exact ⟨_, _, _, hs⟩

/-! ## C31 -/

/-- **C31**. The order of the partial signatures does not matter. -/
theorem C31_aggregate_order (H : Hash) (ctx : KeyAggContext) (an : AggNonce) (T : MaybePoint)
    (sigs sigs' : List PartialSignature) (hp : sigs.Perm sigs') (msg : Bytes) :
    aggregatePartialSignatures H ctx an sigs msg = aggregatePartialSignatures H ctx an sigs' msg ∧
    aggregatePartialAdaptorSignatures H ctx an T sigs msg = aggregatePartialAdaptorSignatures H ctx an T sigs' msg := by
  have hv : ∀ T, aggValue H ctx an T sigs msg = aggValue H ctx an T sigs' msg := by
    intro T
    unfold aggValue
    rw [hp.sum_eq]
  rw [aggregate_eq, aggregate_eq, aggregateAdaptor_eq, aggregateAdaptor_eq, hv, hv]
  exact ⟨rfl, rfl⟩

example : ([1, 2, 3] : List PartialSignature).Perm [3, 1, 2] :=
  (List.perm_append_comm (l₁ := [1, 2]) (l₂ := [3]))

/-- **C31**. A returned signature is, as 64 bytes, what BIP327 `PartialSigAgg` returns; and if that is a valid BIP340
signature, it is returned. -/
theorem C31_aggregate_is_bip327 (H : Hash) (hH : TagsAgree H) (keys : List Point) (ts : List (Scalar × Bool))
    (ctx : KeyAggContext) (h : BuiltFrom H ctx keys ts) (an : AggNonce) (sigs : List PartialSignature) (msg : Bytes) :
    ∃ bytes, Spec.partial_sig_agg H (sigs.map fun s => Spec.bytes_from_int s.val) (sessionOf keys ts an msg)
        = some bytes ∧
      (∀ sig, aggregatePartialSignatures H ctx an sigs msg = .ok sig → sig.toBytes = bytes) ∧
      ((∃ sig, aggregatePartialSignatures H ctx an sigs msg = .ok sig) ↔
        Spec.schnorr_verify H msg (Spec.xbytes ctx.aggregatedPubkey.1) bytes = true) := by
  refine ⟨_, spec_partial_sig_agg hH h an msg sigs, ?_⟩
  have hb : (LiftedSignature.new (sessionR H ctx an msg) (aggValue H ctx an 0 sigs msg)).toBytes
      = (xonly (sessionR H ctx an msg).1).1 ++ (serScalar (aggValue H ctx an 0 sigs msg)).1 := by
    unfold LiftedSignature.toBytes LiftedSignature.compact CompactSignature.new CompactSignature.toBytes
      LiftedSignature.new
    simp only
    rw [xonly_toEvenY]
  rw [← hb, aggregate_eq, ← (C33_verify_single_typed H hH ctx.aggregatedPubkey msg).2.1]
  have hQ : ctx.aggregatedPubkey = ctx.pubkey := rfl
  rw [hQ]
  split_ifs with hv
  · refine ⟨fun sig hs => ?_, by simp [hv]⟩
    cases hs
    rfl
  · simp [hv]

/-! ## C32 -/

/-- **C32**. A returned aggregated adaptor signature is valid for the adaptor point, and the adaptor secret turns it into
a valid signature, unless final nonce plus adaptor point is infinity. -/
theorem C32_adaptor_aggregate (H : Hash) (ctx : KeyAggContext) (an : AggNonce) (t : MaybeScalar)
    (sigs : List PartialSignature) (msg : Bytes) (sig : AdaptorSignature)
    (h : aggregatePartialAdaptorSignatures H ctx an (t • G) sigs msg = .ok sig) :
    verifySingleAdaptor H ctx.aggregatedPubkey sig msg (t • G) = .ok () ∧
    sig.R = (an.finalNonce (an.nonceCoefficient H ctx.aggregatedPubkey msg)).1 ∧
    (sig.R + t • G = 0 → sig.adapt t = none) ∧
    (sig.R + t • G ≠ 0 → ∃ f, sig.adapt t = some f ∧ verifySingleLifted H ctx.aggregatedPubkey f msg = .ok () ∧
      sig.revealSecret f = some t) := by
  obtain ⟨rfl, hv⟩ := aggregateAdaptor_eq_ok.1 h
  refine ⟨hv, rfl, adapt_eq_none.2, fun hne => ?_⟩
  obtain ⟨f, hf, hiff⟩ := C38_adaptor_valid_iff_adapted_valid H ctx.aggregatedPubkey _ msg t hne
  exact ⟨f, hf, hiff.1 hv, C39_reveal_partial _ _ _ hf (Or.inl (sessionR H ctx an msg).2)⟩

/-- **C32**. Adaptor aggregation never panics. -/
theorem C32_adaptor_aggregate_total (H : Hash) (ctx : KeyAggContext) (an : AggNonce) (T : MaybePoint)
    (sigs : List PartialSignature) (msg : Bytes) :
    aggregatePartialAdaptorSignatures H ctx an T sigs msg = .err .badSignature ∨
      ∃ sig, aggregatePartialAdaptorSignatures H ctx an T sigs msg = .ok sig := by
  rw [aggregateAdaptor_eq]
  split_ifs <;> simp

/-- Aggregation for the adaptor point `7·G` succeeds in the example group. -/
example (msg : Bytes) : ∃ an sigs sig,
    aggregatePartialAdaptorSignatures sha256 exCtx an ((7 : MaybeScalar) • G) sigs msg = .ok sig := by
  obtain ⟨sigs, h⟩ :=
    allVerified_exists exCtx_reachable.inv ((7 : MaybeScalar) • G) [⟨Gpt, Gpt⟩, ⟨Gpt, negGpt⟩] rfl msg
  obtain ⟨sig, hs, -⟩ := C28_verified_partials_aggregate_adaptor sha256 exCtx exCtx_reachable _ _ sigs msg h (by
    have h1 : AggNonce.sum [⟨Gpt, Gpt⟩, ⟨Gpt, negGpt⟩] = ⟨(2 : MaybeScalar) • G, 0⟩ := by
      rw [AggNonce.sum_eq]
      simp only [List.map_cons, List.map_nil, List.sum_cons, List.sum_nil, add_zero, two_smul]
      congr 1
      exact add_neg_cancel G
    rw [h1]
    simp only [smul_zero, add_zero]
    rw [Ne, smul_G_eq_zero]
    exact two_ne_zero_scalar)
  exact ⟨_, _, _, hs⟩

end Verif
