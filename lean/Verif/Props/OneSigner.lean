import Verif.Lemmas.Props.OneSigner

/-!
# Property C127: the signature of a group beside that of one signer
-/

namespace Verif

open OneSigner CmaForger

/-- **C127**. Whoever is given the hash function and 64 bytes cannot tell whether a group made and completed an adaptor
signature, or one signer with the aggregated secret key and a random nonce signed. The answers for the nonce coefficients of the
group are drawn, and so are the two nonces of one member; the nonces of the others, the keys, the tweaks, the adaptor secret and
the message are any. -/
theorem C127_completed_signature_like_one_signer (H : Hash) (hH : TagsAgree H) (ctx : KeyAggContext) (hc : Reachable H ctx)
    (sks : List Scalar) (hk : ctx.pubkeys = sks.map mulG) (d : Scalar) (hd : ctx.aggregatedSeckey sks = .ok d)
    (before after : List SecNonce) (hl : before.length + 1 + after.length = sks.length) (t : MaybeScalar) (msg : Bytes)
    (D : Hash → Bytes → Prop) :
    |(Spec.chance fun q : (AggNonce → Arr 32) × (Scalar × Scalar) =>
        ∃ sig, Spec.GroupSignsAdapted (Spec.withCoefficients H ctx.aggregatedPubkey msg q.1) ctx sks
            (before ++ ⟨q.2.1, q.2.2⟩ :: after) t msg sig ∧
          D (Spec.withCoefficients H ctx.aggregatedPubkey msg q.1) sig.toBytes)
      - Spec.chance fun q : (AggNonce → Arr 32) × Scalar =>
        D (Spec.withCoefficients H ctx.aggregatedPubkey msg q.1)
          (Spec.signWith (Spec.withCoefficients H ctx.aggregatedPubkey msg q.1) d q.2 msg)| ≤ 1 / 2 ^ 125 := by
  refine compare (place_injective (total (before ++ after))) (total (before ++ after)) t _
    (fun B k => D (Spec.withCoefficients H ctx.aggregatedPubkey msg B)
      (Spec.signWith (Spec.withCoefficients H ctx.aggregatedPubkey msg B) d k msg)) ?_
  rintro ⟨B, p⟩ hv ht
  simp only [adapted_eq] at hv ht ⊢
  refine session (withCoefficients_tagsAgree H _ msg B hH) (withCoefficients_ctxInv H _ msg B hc.inv) hk hd
    (nonces := before ++ ⟨p.1, p.2⟩ :: after) (by simp only [List.length_append, List.length_cons]; omega) msg
    (D (Spec.withCoefficients H ctx.aggregatedPubkey msg B)) (fun h => ht (by rw [h, zero_add])) hv ?_
  rw [show ctx.pubkey = ctx.aggregatedPubkey from rfl, withCoefficients_nonceCoefficient, sum_public, total_insert]
  rfl

/-- **C127**. The same for a group that signs without an adaptor point. -/
theorem C127_group_signs_like_one_signer (H : Hash) (hH : TagsAgree H) (ctx : KeyAggContext) (hc : Reachable H ctx)
    (sks : List Scalar) (hk : ctx.pubkeys = sks.map mulG) (d : Scalar) (hd : ctx.aggregatedSeckey sks = .ok d)
    (before after : List SecNonce) (hl : before.length + 1 + after.length = sks.length) (msg : Bytes)
    (D : Hash → Bytes → Prop) :
    |(Spec.chance fun q : (AggNonce → Arr 32) × (Scalar × Scalar) =>
        ∃ sig, Spec.GroupSigns (Spec.withCoefficients H ctx.aggregatedPubkey msg q.1) ctx sks
            (before ++ ⟨q.2.1, q.2.2⟩ :: after) msg sig ∧
          D (Spec.withCoefficients H ctx.aggregatedPubkey msg q.1) sig.toBytes)
      - Spec.chance fun q : (AggNonce → Arr 32) × Scalar =>
        D (Spec.withCoefficients H ctx.aggregatedPubkey msg q.1)
          (Spec.signWith (Spec.withCoefficients H ctx.aggregatedPubkey msg q.1) d q.2 msg)| ≤ 1 / 2 ^ 125 := by
  simp only [groupSigns_iff]
  exact C127_completed_signature_like_one_signer H hH ctx hc sks hk d hd before after hl 0 msg D

/-- **C127**. The same with the code on both sides: one member takes its nonces from a `SecNonceBuilder`, and the one signer
calls `sign_solo`. The hashes that become these nonces are drawn, and what is given is the hash function without them. -/
theorem C127_completed_signature_like_sign_solo (H : Hash) (hH : TagsAgree H) (ctx : KeyAggContext) (hc : Reachable H ctx)
    (sks : List Scalar) (hk : ctx.pubkeys = sks.map mulG) (d : Scalar) (hd : ctx.aggregatedSeckey sks = .ok d)
    (before after : List SecNonce) (hl : before.length + 1 + after.length = sks.length) (b : SecNonceBuilder) (seed : Arr 32)
    (t : MaybeScalar) (msg : Bytes) (D : Hash → Bytes → Prop) :
    |(Spec.chance fun q : (AggNonce → Arr 32) × (Arr 32 × Arr 32) =>
        let drawn := Spec.withCoefficients (Spec.withNonces H b q.2) ctx.aggregatedPubkey msg q.1
        ∃ sig, Spec.GroupSignsAdapted drawn ctx sks (before ++ b.build drawn :: after) t msg sig ∧
          D (Spec.withCoefficients H ctx.aggregatedPubkey msg q.1) sig.toBytes)
      - Spec.chance fun q : (AggNonce → Arr 32) × Arr 32 =>
        let drawn := (Spec.withCoefficients H ctx.aggregatedPubkey msg q.1).answering (Spec.soloNonceQuery H d msg seed) q.2
        ∃ sig, signSolo (ε := Unit) drawn d msg seed = .ok sig ∧
          D (Spec.withCoefficients H ctx.aggregatedPubkey msg q.1) sig.toBytes| ≤ 1 / 2 ^ 124 := by
  have : Nonempty (Arr 32) := ⟨zeroSeed⟩
  let D' : (AggNonce → Arr 32) → Scalar → Prop := fun B k => D (Spec.withCoefficients H ctx.aggregatedPubkey msg B)
    (Spec.signWith (Spec.withCoefficients H ctx.aggregatedPubkey msg B) d k msg)
  let r := total (before ++ after)
  let red : Arr 32 × Arr 32 → Scalar × Scalar := fun a =>
    (SecNonceBuilder.reduceOrOne a.1, SecNonceBuilder.reduceOrOne a.2)
  let E : (AggNonce → Arr 32) × (Arr 32 × Arr 32) → Prop := fun q =>
    ∃ sig, Spec.GroupSignsAdapted (Spec.withCoefficients (Spec.withNonces H b q.2) ctx.aggregatedPubkey msg q.1) ctx sks
        (before ++ b.build (Spec.withCoefficients (Spec.withNonces H b q.2) ctx.aggregatedPubkey msg q.1) :: after) t msg sig ∧
      D (Spec.withCoefficients H ctx.aggregatedPubkey msg q.1) sig.toBytes
  have hE : ∀ q : (AggNonce → Arr 32) × (Arr 32 × Arr 32), ∀ hv : adapted (place r) r t q.1 (red q.2) ≠ 0,
      adapted (place r) r t q.1 (red q.2) ≠ t → (E q ↔ D' q.1 ⟨_, hv⟩) := by
    rintro ⟨B, a⟩ hv ht
    simp only [adapted_eq] at hv ht ⊢
    have hN := withNonces_tagsAgree hH b a
    have hS := session (withCoefficients_tagsAgree _ ctx.aggregatedPubkey msg B hN)
      (withCoefficients_ctxInv _ ctx.aggregatedPubkey msg B (withNonces_ctxInv b a hc.inv)) hk hd
      (nonces := before ++ b.build (Spec.withCoefficients (Spec.withNonces H b a) ctx.aggregatedPubkey msg B) :: after)
      (by simp only [List.length_append, List.length_cons]; omega) msg
      (D (Spec.withCoefficients H ctx.aggregatedPubkey msg B)) (fun h => ht (by rw [h, zero_add])) hv (by
        rw [show ctx.pubkey = ctx.aggregatedPubkey from rfl, withCoefficients_nonceCoefficient, sum_public,
          build_withCoefficients, build_withNonces, total_insert _ _ (red a)]
        rfl)
    rw [signWith_congr (withCoefficients_tagsAgree H ctx.aggregatedPubkey msg B hH)
      (withCoefficients_tagsAgree _ ctx.aggregatedPubkey msg B hN) (fun x => by
        rw [tagHash_withCoefficients _ _ _ _ (t := BIP0340_CHALLENGE_TAG_DIGEST) rfl (by decide),
          tagHash_withCoefficients _ _ _ _ (t := BIP0340_CHALLENGE_TAG_DIGEST) rfl (by decide),
          tagHash_withNonces _ _ _ (t := BIP0340_CHALLENGE_TAG_DIGEST) rfl (by decide)])] at hS
    exact hS
  change |Spec.chance E - _| ≤ _
  simp only [solo_answering hH]
  obtain ⟨h1, h2⟩ := compare_bounds (place_injective r) r t D'
  have h3 := chance_reduceOrOne D'
  have h4 := chance_reduce_two (Passes (place r) r t D')
  have h5 := chance_reduce_two fun (B : AggNonce → Arr 32) p => Passes (place r) r t D' B p ∨ Vanishes (place r) r t B p
  have e1 : (Spec.chance fun q : (AggNonce → Arr 32) × (Arr 32 × Arr 32) => Passes (place r) r t D' q.1 (red q.2))
      ≤ Spec.chance E :=
    chance_mono fun q hq => (hE q hq.1.1 hq.2).2 hq.1.2
  have e2 : Spec.chance E ≤ Spec.chance fun q : (AggNonce → Arr 32) × (Arr 32 × Arr 32) =>
      Passes (place r) r t D' q.1 (red q.2) ∨ Vanishes (place r) r t q.1 (red q.2) := by
    refine chance_mono fun q hq => ?_
    by_cases hv : Vanishes (place r) r t q.1 (red q.2)
    · exact .inr hv
    · obtain ⟨hv0, hvt⟩ := not_or.1 hv
      exact .inl ⟨⟨hv0, (hE q hv0 hvt).1 hq⟩, hvt⟩
  have hb : (1 : ℚ) / 2 ^ 125 + 1 / 2 ^ 126 + 1 / 2 ^ 127 ≤ 1 / 2 ^ 124 := by norm_num
  rw [abs_le] at h3 h4 h5 ⊢
  constructor
  · linarith [h3.2, h4.1]
  · linarith [h3.1, h5.2]

/-- **C127**. The code on both sides, without an adaptor point. -/
theorem C127_group_signs_like_sign_solo (H : Hash) (hH : TagsAgree H) (ctx : KeyAggContext) (hc : Reachable H ctx)
    (sks : List Scalar) (hk : ctx.pubkeys = sks.map mulG) (d : Scalar) (hd : ctx.aggregatedSeckey sks = .ok d)
    (before after : List SecNonce) (hl : before.length + 1 + after.length = sks.length) (b : SecNonceBuilder) (seed : Arr 32)
    (msg : Bytes) (D : Hash → Bytes → Prop) :
    |(Spec.chance fun q : (AggNonce → Arr 32) × (Arr 32 × Arr 32) =>
        let drawn := Spec.withCoefficients (Spec.withNonces H b q.2) ctx.aggregatedPubkey msg q.1
        ∃ sig, Spec.GroupSigns drawn ctx sks (before ++ b.build drawn :: after) msg sig ∧
          D (Spec.withCoefficients H ctx.aggregatedPubkey msg q.1) sig.toBytes)
      - Spec.chance fun q : (AggNonce → Arr 32) × Arr 32 =>
        let drawn := (Spec.withCoefficients H ctx.aggregatedPubkey msg q.1).answering (Spec.soloNonceQuery H d msg seed) q.2
        ∃ sig, signSolo (ε := Unit) drawn d msg seed = .ok sig ∧
          D (Spec.withCoefficients H ctx.aggregatedPubkey msg q.1) sig.toBytes| ≤ 1 / 2 ^ 124 := by
  simp only [groupSigns_iff]
  exact C127_completed_signature_like_sign_solo H hH ctx hc sks hk d hd before after hl b seed 0 msg D

/-- The hypotheses can be met: two members, one of them with fixed nonces. -/
example : ∃ (d : Scalar) (n : SecNonce), TagsAgree stubHash ∧ Reachable stubHash stubCtx ∧ stubCtx.pubkeys = stubKeys.map mulG ∧
    stubCtx.aggregatedSeckey stubKeys = .ok d ∧ ([n].length + 1 + ([] : List SecNonce).length = stubKeys.length) := by
  obtain ⟨d, hd⟩ := C07_seckey_complete stubHash stubCtx (.new stubCtx_new) stubKeys rfl
  exact ⟨d, ⟨scalarOne, scalarOne⟩, stubHash_tagsAgree, .new stubCtx_new, rfl, hd, rfl⟩

/-- The two chances are not both zero for every test: for the test that accepts everything the one signer has chance `1`, so the
group has at least `1 - 1 / 2 ^ 125`. -/
example (d : Scalar) (hd : stubCtx.aggregatedSeckey stubKeys = .ok d) (n : SecNonce) (msg : Bytes) :
    1 - 1 / 2 ^ 125 ≤ Spec.chance fun q : (AggNonce → Arr 32) × (Scalar × Scalar) =>
      ∃ sig, Spec.GroupSigns (Spec.withCoefficients stubHash stubCtx.aggregatedPubkey msg q.1) stubCtx stubKeys
        ([n] ++ ⟨q.2.1, q.2.2⟩ :: []) msg sig ∧ True := by
  have h := C127_group_signs_like_one_signer stubHash stubHash_tagsAgree stubCtx (.new stubCtx_new) stubKeys rfl d hd [n] [] rfl msg
    fun _ _ => True
  have : Nonempty (Arr 32) := ⟨zeroSeed⟩
  have : Nonempty Scalar := ⟨scalarOne⟩
  rw [Decision.chance_true (Ω := (AggNonce → Arr 32) × Scalar) fun _ => trivial] at h
  linarith [(abs_le.1 h).1]

end Verif
