import Verif.Props.Forking

/-!
# Properties C90-C92: what unlocks an adaptor signature, and what completes a group's signature
-/

namespace Verif

/-! ## C90 -/

/-- **C90**. An adaptor signature that is valid for the adaptor point `T` turns into a valid BIP340 signature by adding a
scalar `t` exactly if `t` is the adaptor secret, or if the challenge hashes of two different nonces satisfy one
equation that involves the signer's nonce and key. -/
theorem C90_unlocks_iff (H : Hash) (hH : TagsAgree H) (P : Point) (sig : AdaptorSignature) (T : MaybePoint) (msg : Bytes)
    (h : verifySingleAdaptor H P sig msg T = .ok ()) (hR : sig.R ≠ 0) (t : MaybeScalar) :
    (∃ f, sig.adapt t = some f ∧ verifySingleLifted H P f msg = .ok ()) ↔
      sig.R + t • G ≠ 0 ∧ (t • G = T ∨
        Spec.x (sig.R + t • G) ≠ Spec.x (sig.R + T) ∧
        Spec.sgn (sig.R + t • G) • sig.R + Spec.challenge H (sig.R + t • G) P.1 msg • Spec.sgn P.1 • P.1
          = Spec.sgn (sig.R + T) • sig.R + Spec.challenge H (sig.R + T) P.1 msg • Spec.sgn P.1 • P.1) := by
  have key : ∀ A, verifySingleAdaptor H P sig msg A = .ok () ↔
      sig.s • G = Spec.sgn (sig.R + A) • sig.R + Spec.challenge H (sig.R + A) P.1 msg • Spec.sgn P.1 • P.1 := by
    intro A
    rw [verifySingleAdaptor_eq_ok, spec_challenge hH, sgn_smul, sgn_smul, toEvenY_val]
  constructor
  · rintro ⟨f, hf, hv⟩
    have hne : sig.R + t • G ≠ 0 := fun h0 => by rw [adapt_eq_none.2 h0] at hf; cases hf
    refine ⟨hne, ?_⟩
    rw [verify_adapt hf] at hv
    have heq := ((key _).1 hv).symm.trans ((key _).1 h)
    by_cases hx : Spec.x (sig.R + t • G) = Spec.x (sig.R + T)
    · left
      rw [spec_x, spec_x] at hx
      rcases eq_or_neg_of_xNat hx with he | he
      · exact add_left_cancel he
      · exfalso
        have hc : Spec.challenge H (sig.R + t • G) P.1 msg = Spec.challenge H (sig.R + T) P.1 msg := by
          rw [spec_challenge hH, spec_challenge hH, he, xonly_neg]
        have hne' : sig.R + T ≠ 0 := fun h0 => hne (by rw [he, h0, neg_zero])
        rw [hc, add_left_inj, sgn_smul, sgn_smul, he, isOdd_neg hne'] at heq
        have h2 : (2 : MaybeScalar) • sig.R = 0 := by
          rw [two_smul]
          revert heq
          cases isOdd (sig.R + T)
          · intro heq; rw [Bool.not_false, negIf_true, negIf_false] at heq
            nth_rewrite 1 [← heq]; exact neg_add_cancel _
          · intro heq; rw [Bool.not_true, negIf_true, negIf_false] at heq
            nth_rewrite 1 [heq]; exact neg_add_cancel _
        rcases smul_eq_zero_iff.1 h2 with h2 | h2
        · exact two_ne_zero_scalar h2
        · exact hR h2
    · exact Or.inr ⟨hx, heq⟩
  · rintro ⟨hne, hor⟩
    obtain ⟨f, hf, hv⟩ := C38_adaptor_valid_iff_adapted_valid H P sig msg t hne
    refine ⟨f, hf, hv.1 ?_⟩
    rcases hor with ht | ⟨-, heq⟩
    · rw [ht]; exact h
    · rw [key, heq]; exact (key _).1 h

/-- **C90**. Concretely, a scalar other than the adaptor secret (in particular zero, that is, the adaptor signature as it
stands) unlocks only if two challenge hashes of different inputs agree modulo the group order, or if their difference
is a prescribed multiple: twice the signer's nonce divided by the secret key. -/
theorem C90_wrong_secret_needs_hash_relation (H : Hash) (hH : TagsAgree H) (sk k : Scalar) (sig : AdaptorSignature)
    (T : MaybePoint) (msg : Bytes) (h : verifySingleAdaptor H (mulG sk) sig msg T = .ok ()) (hR : sig.R = k.1 • G)
    (t : MaybeScalar) (ht : t • G ≠ T) (f : LiftedSignature) (hf : sig.adapt t = some f)
    (hv : verifySingleLifted H (mulG sk) f msg = .ok ()) :
    Spec.xbytes (sig.R + t • G) ≠ Spec.xbytes (sig.R + T) ∧
    let δ := Spec.challenge H (sig.R + t • G) (sk.1 • G) msg - Spec.challenge H (sig.R + T) (sk.1 • G) msg
    (δ = 0 ∨ δ = 2 * k.1 / sk.1 ∨ δ = -(2 * k.1 / sk.1)) := by
  have hR0 : sig.R ≠ 0 := by rw [hR, Ne, smul_G_eq_zero]; exact k.2
  obtain ⟨-, hor⟩ := (C90_unlocks_iff H hH (mulG sk) sig T msg h hR0 t).1 ⟨f, hf, hv⟩
  rcases hor with h1 | ⟨h1, h2⟩
  · exact absurd h1 ht
  · constructor
    · intro he
      apply h1
      rw [spec_x, spec_x, ← xonly_eq_iff_xNat]
      exact Subtype.ext (by rw [← spec_xbytes, ← spec_xbytes]; exact he)
    · rw [mulG_val] at h2
      change Spec.challenge H (sig.R + t • G) (sk.1 • G) msg - Spec.challenge H (sig.R + T) (sk.1 • G) msg = _ ∨
        Spec.challenge H (sig.R + t • G) (sk.1 • G) msg - Spec.challenge H (sig.R + T) (sk.1 • G) msg = _ ∨
        Spec.challenge H (sig.R + t • G) (sk.1 • G) msg - Spec.challenge H (sig.R + T) (sk.1 • G) msg = _
      generalize sig.R + t • G = A at h2 ⊢
      generalize sig.R + T = B at h2 ⊢
      generalize Spec.challenge H A (sk.1 • G) msg = c1 at h2 ⊢
      generalize Spec.challenge H B (sk.1 • G) msg = c2 at h2 ⊢
      obtain ⟨δ, hd⟩ : ∃ δ, δ = c1 - c2 := ⟨_, rfl⟩
      rw [← hd]
      rw [hR, ← mul_smul, ← mul_smul, ← mul_smul, ← mul_smul, ← mul_smul, ← mul_smul, ← add_smul, ← add_smul,
        smul_G_inj] at h2
      have hsk := sk.2
      have hs : ∀ Q, Spec.sgn Q = 1 ∨ Spec.sgn Q = -1 := by
        intro Q; unfold Spec.sgn; split <;> simp
      have hm : δ * sk.1 * Spec.sgn (sk.1 • G) = (Spec.sgn B - Spec.sgn A) * k.1 := by
        rw [hd]; linear_combination h2
      rw [eq_div_iff hsk, eq_neg_iff_add_eq_zero, div_eq_mul_inv]
      rcases hs B with e1 | e1 <;> rcases hs A with e2 | e2 <;>
        rcases hs (sk.1 • G) with e3 | e3 <;> rw [e1, e2, e3] at hm
      · left; exact (mul_eq_zero.1 (by linear_combination hm : δ * sk.1 = 0)).resolve_right hsk
      · left; exact (mul_eq_zero.1 (by linear_combination -hm : δ * sk.1 = 0)).resolve_right hsk
      · right; left; linear_combination hm
      · right; right
        have : δ * sk.1 = -(2 * k.1) := by linear_combination -hm
        rw [← mul_left_inj' hsk, zero_mul, add_mul, mul_assoc, inv_mul_cancel₀ hsk, this]; ring
      · right; right
        have : δ * sk.1 = -(2 * k.1) := by linear_combination hm
        rw [← mul_left_inj' hsk, zero_mul, add_mul, mul_assoc, inv_mul_cancel₀ hsk, this]; ring
      · right; left; linear_combination -hm
      · left; exact (mul_eq_zero.1 (by linear_combination hm : δ * sk.1 = 0)).resolve_right hsk
      · left; exact (mul_eq_zero.1 (by linear_combination -hm : δ * sk.1 = 0)).resolve_right hsk

/-- The hypotheses of C90 can be met, and the exception is real: under a constant hash, besides the adaptor secret 7
another scalar unlocks the adaptor signature for `7·G` with the nonce `G`. -/
example (sk : Scalar) (msg : Bytes) : ∃ (sig : AdaptorSignature) (t : MaybeScalar) (f f' : LiftedSignature),
    TagsAgree (constHash 1) ∧ sig.R = scalarOne.1 • G ∧
    verifySingleAdaptor (constHash 1) (mulG sk) sig msg ((7 : MaybeScalar) • G) = .ok () ∧
    sig.adapt 7 = some f ∧ verifySingleLifted (constHash 1) (mulG sk) f msg = .ok () ∧
    t • G ≠ (7 : MaybeScalar) • G ∧ sig.adapt t = some f' ∧ verifySingleLifted (constHash 1) (mulG sk) f' msg = .ok () := by
  have hH := constHash_tagsAgree 1
  obtain ⟨s, hs⟩ := valid_adaptor_exists (constHash 1) sk 1 ((7 : MaybeScalar) • G) msg
  have hchal : ∀ A : MaybePoint, Spec.challenge (constHash 1) A (mulG sk).1 msg = ((1 : ℕ) : MaybeScalar) := by
    intro A
    rw [spec_challenge hH]
    exact constHash_tagHash 1 (by norm_num) _ (by decide) _
  have hR : (⟨(1 : MaybeScalar) • G, s⟩ : AdaptorSignature).R ≠ 0 := by
    change (1 : MaybeScalar) • G ≠ 0
    rw [Ne, smul_G_eq_zero]; exact one_ne_zero
  have hn : ∀ k : ℕ, 0 < k → k < 100 → (k : MaybeScalar) ≠ 0 := fun k h1 h2 => natCast_scalar_ne_zero h1 h2
  have h8 : (1 : MaybeScalar) • G + (7 : MaybeScalar) • G ≠ 0 := by
    rw [← add_smul, Ne, smul_G_eq_zero]
    intro h; apply hn 8 (by norm_num) (by norm_num); push_cast; linear_combination h
  obtain ⟨f, hf, hv⟩ := (C90_unlocks_iff (constHash 1) hH (mulG sk) _ _ msg hs hR 7).2 ⟨h8, Or.inl rfl⟩
  have main : ∀ m : MaybeScalar, m ≠ 0 → m ≠ 8 → m ≠ -8 → Spec.sgn (m • G) = Spec.sgn ((8 : MaybeScalar) • G) →
      ∃ (t : MaybeScalar) (f' : LiftedSignature), t • G ≠ (7 : MaybeScalar) • G ∧
        (⟨(1 : MaybeScalar) • G, s⟩ : AdaptorSignature).adapt t = some f' ∧
        verifySingleLifted (constHash 1) (mulG sk) f' msg = .ok () := by
    intro m h0 h1 h2 h3
    have e1 : (1 : MaybeScalar) • G + (m - 1) • G = m • G := by rw [← add_smul]; congr 1; ring
    have e2 : (1 : MaybeScalar) • G + (7 : MaybeScalar) • G = (8 : MaybeScalar) • G := by rw [← add_smul]; congr 1; norm_num
    have hne : m • G ≠ 0 := by rw [Ne, smul_G_eq_zero]; exact h0
    obtain ⟨f', hf', hv'⟩ := (C90_unlocks_iff (constHash 1) hH (mulG sk) _ _ msg hs hR (m - 1)).2 (by
      simp only [e1, e2, hchal, h3]
      refine ⟨hne, Or.inr ⟨?_, trivial⟩⟩
      rw [spec_x, spec_x]
      intro hx
      rcases eq_or_neg_of_xNat hx with he | he
      · exact h1 (smul_G_inj.1 he)
      · rw [← neg_smul] at he; exact h2 (smul_G_inj.1 he))
    refine ⟨m - 1, f', ?_, hf', hv'⟩
    rw [Ne, smul_G_inj]
    intro h; apply h1; linear_combination h
  have h2 : ((2 : MaybeScalar) • G) ≠ 0 := by rw [Ne, smul_G_eq_zero]; exact two_ne_zero_scalar
  have hodd : Spec.sgn ((2 : MaybeScalar) • G) = Spec.sgn ((8 : MaybeScalar) • G) ∨
      Spec.sgn ((-2 : MaybeScalar) • G) = Spec.sgn ((8 : MaybeScalar) • G) := by
    have h1 := sgn_mul ((2 : MaybeScalar) • G) 1
    have h3 := sgn_mul ((-2 : MaybeScalar) • G) 1
    have h4 := sgn_mul ((8 : MaybeScalar) • G) 1
    rw [neg_smul, isOdd_neg h2] at h3
    rw [neg_smul]
    rw [mul_one] at h1 h3 h4
    rw [h1, h3, h4]
    cases isOdd ((2 : MaybeScalar) • G) <;> cases isOdd ((8 : MaybeScalar) • G) <;> simp
  have h6 := hn 6 (by norm_num) (by norm_num)
  have h10 := hn 10 (by norm_num) (by norm_num)
  push_cast at h6 h10
  obtain ⟨t, f', h1, h3, h4⟩ : ∃ (t : MaybeScalar) (f' : LiftedSignature), t • G ≠ (7 : MaybeScalar) • G ∧
        (⟨(1 : MaybeScalar) • G, s⟩ : AdaptorSignature).adapt t = some f' ∧
        verifySingleLifted (constHash 1) (mulG sk) f' msg = .ok () := by
    rcases hodd with h | h
    · exact main 2 two_ne_zero_scalar (fun h => h6 (by linear_combination -h)) (fun h => h10 (by linear_combination h)) h
    · exact main (-2) (neg_ne_zero.2 two_ne_zero_scalar) (fun h => h10 (by linear_combination -h))
        (fun h => h6 (by linear_combination h)) h
  exact ⟨_, t, f, f', hH, rfl, hs, hf, hv, h1, h3, h4⟩

/-! ## C91 -/

/-- **C91**. The last signer. Suppose the partial signatures of all members but the `i`-th verify. Then a scalar `σ`
completes the session to a valid (adaptor) signature exactly if what is left of `σ` after subtracting the other
partial signatures and the tweak term is accepted as the partial signature of member `i`. So whoever produces the
group's signature has produced the partial signature of every member. -/
theorem C91_last_signer (H : Hash) (hH : TagsAgree H) (ctx : KeyAggContext) (hc : Reachable H ctx) (T : MaybePoint)
    (pubnonces : List PubNonce) (sigs : List PartialSignature) (msg : Bytes) (i : ℕ) (P : Point) (pn : PubNonce)
    (hP : ctx.pubkeys[i]? = some P) (hpn : pubnonces[i]? = some pn)
    (hl : pubnonces.length = ctx.pubkeys.length) (hls : sigs.length = ctx.pubkeys.length)
    (h : ∀ (j : ℕ) Q qn s, j ≠ i → ctx.pubkeys[j]? = some Q → pubnonces[j]? = some qn → sigs[j]? = some s →
      verifyPartialAdaptor H ctx s (AggNonce.sum pubnonces) T Q qn msg = .ok ())
    (R : MaybePoint) (hR : R = (AggNonce.sum pubnonces).R1
      + (AggNonce.sum pubnonces).nonceCoefficient H ctx.aggregatedPubkey msg • (AggNonce.sum pubnonces).R2)
    (hR0 : R ≠ 0) (σ : MaybeScalar) :
    verifySingleAdaptor H ctx.aggregatedPubkey ⟨R, σ⟩ msg T = .ok () ↔
      verifyPartialAdaptor H ctx
        (σ - (sigs.eraseIdx i).sum - Spec.challenge H (R + T) ctx.aggregatedPubkey.1 msg
          * (Spec.sgn ctx.aggregatedPubkey.1 * (ctx.tweakSum.map (·.1)).getD 0))
        (AggNonce.sum pubnonces) T P pn msg = .ok () := by
  obtain ⟨good, hg⟩ := allVerified_exists hc.inv T pubnonces hl msg
  have hgl : good.length = ctx.pubkeys.length := hg.2.1
  have hik : i < ctx.pubkeys.length := (List.getElem?_eq_some_iff.1 hP).1
  have hi : i < good.length := by omega
  have hmem : ∀ {j : ℕ} {Q : Point}, ctx.pubkeys[j]? = some Q → Q ∈ ctx.pubkeys := List.mem_of_getElem?
  have hR' : (sessionR H ctx (AggNonce.sum pubnonces) msg).1 = R := by
    rw [hR]; exact finalNonce_eq_of_ne (by rw [hR] at hR0; exact hR0)
  have herase : sigs.eraseIdx i = good.eraseIdx i := by
    have hset : sigs.set i good[i] = good := by
      apply List.ext_getElem
      · rw [List.length_set]; omega
      · intro j h1 h2
        by_cases hj : j = i
        · subst hj; rw [List.getElem_set_self]
        · rw [List.getElem_set_ne (Ne.symm hj)]
          have hjk : j < ctx.pubkeys.length := by omega
          have hjp : j < pubnonces.length := by omega
          have hjs : j < sigs.length := by omega
          exact (C27_unique_partial_signature H ctx hc _ T _ (List.getElem_mem hjk) pubnonces[j] msg).unique
            (h j _ _ _ hj (List.getElem?_eq_getElem hjk) (List.getElem?_eq_getElem hjp) (List.getElem?_eq_getElem hjs))
            (hg.2.2 j _ _ _ (List.getElem?_eq_getElem hjk) (List.getElem?_eq_getElem hjp) (List.getElem?_eq_getElem h2))
    rw [← hset, List.eraseIdx_set_eq]
  have hsum : good[i] + (good.eraseIdx i).sum = good.sum := List.CommMonoid.add_sum_eraseIdx hi
  obtain ⟨sig, h1, h2⟩ := C28_verified_partials_aggregate_adaptor H ctx hc T pubnonces good msg hg (by rw [← hR]; exact hR0)
  obtain ⟨rfl, -⟩ := aggregateAdaptor_eq_ok.1 h1
  rw [hR'] at h2
  have hgi := hg.2.2 i P pn good[i] hP hpn (List.getElem?_eq_getElem hi)
  have ht : (ctx.tweakSum.map (·.1)).getD 0 = ctx.tweakAcc := by
    unfold KeyAggContext.tweakSum
    cases hz : notZero ctx.tweakAcc with
    | none => rw [notZero_eq_none.1 hz]; rfl
    | some t => rw [notZero_eq_some.1 hz]; rfl
  have hv : aggValue H ctx (AggNonce.sum pubnonces) T good msg = good.sum
      + Spec.challenge H (R + T) ctx.aggregatedPubkey.1 msg * (Spec.sgn ctx.aggregatedPubkey.1 * ctx.tweakAcc) := by
    unfold aggValue
    have he : sessionE H ctx (AggNonce.sum pubnonces) T msg = Spec.challenge H (R + T) ctx.aggregatedPubkey.1 msg := by
      rw [spec_challenge hH, ← hR']; rfl
    rw [he, mul_left_comm, sgn_mul]
    rfl
  rw [ht, herase]
  constructor
  · intro hσ
    have := (C73_unique_adaptor_scalar H ctx.aggregatedPubkey R T msg).unique hσ h2
    rw [this, hv, ← hsum, add_sub_right_comm, add_sub_cancel_right, add_sub_cancel_right]
    exact hgi
  · intro hσ
    have := (C27_unique_partial_signature H ctx hc _ T P (hmem hP) pn msg).unique hσ hgi
    have hσ' : σ = aggValue H ctx (AggNonce.sum pubnonces) T good msg := by
      rw [hv, ← hsum, ← this]; ring
    rw [hσ']; exact h2

/-- **C91**, plain sessions: a signature with the session's nonce is valid for the group exactly if it contains the
partial signature of the last signer. -/
theorem C91_last_signer_plain (H : Hash) (hH : TagsAgree H) (ctx : KeyAggContext) (hc : Reachable H ctx)
    (pubnonces : List PubNonce) (sigs : List PartialSignature) (msg : Bytes) (i : ℕ) (P : Point) (pn : PubNonce)
    (hP : ctx.pubkeys[i]? = some P) (hpn : pubnonces[i]? = some pn)
    (hl : pubnonces.length = ctx.pubkeys.length) (hls : sigs.length = ctx.pubkeys.length)
    (h : ∀ (j : ℕ) Q qn s, j ≠ i → ctx.pubkeys[j]? = some Q → pubnonces[j]? = some qn → sigs[j]? = some s →
      verifyPartial H ctx s (AggNonce.sum pubnonces) Q qn msg = .ok ())
    (R : Point) (hR : R.1 = (AggNonce.sum pubnonces).R1
      + (AggNonce.sum pubnonces).nonceCoefficient H ctx.aggregatedPubkey msg • (AggNonce.sum pubnonces).R2)
    (σ : MaybeScalar) :
    verifySingle H ctx.aggregatedPubkey (CompactSignature.new R σ) msg = .ok () ↔
      verifyPartial H ctx
        (σ - (sigs.eraseIdx i).sum - Spec.challenge H R.1 ctx.aggregatedPubkey.1 msg
          * (Spec.sgn ctx.aggregatedPubkey.1 * (ctx.tweakSum.map (·.1)).getD 0))
        (AggNonce.sum pubnonces) P pn msg = .ok () := by
  have key := C91_last_signer H hH ctx hc 0 pubnonces sigs msg i P pn hP hpn hl hls h R.1 hR R.2 σ
  rw [add_zero] at key
  have hv := verify_adapt (H := H) (P := ctx.aggregatedPubkey) (msg := msg) (adapt_zero R σ)
  rw [zero_smul] at hv
  have hcompact : verifySingleLifted H ctx.aggregatedPubkey (LiftedSignature.new R σ) msg
      = verifySingle H ctx.aggregatedPubkey (CompactSignature.new R σ) msg := by
    unfold verifySingleLifted verifySingle LiftedSignature.compact LiftedSignature.new CompactSignature.new
    rw [xonly_toEvenY]
  rw [hcompact] at hv
  exact hv.trans key

/-- The hypotheses can be met in the example group, with the second signer missing. -/
example (msg : Bytes) : ∃ (pubnonces : List PubNonce) (sigs : List PartialSignature) (P : Point) (pn : PubNonce),
    TagsAgree sha256 ∧ Reachable sha256 exCtx ∧ exCtx.pubkeys[1]? = some P ∧ pubnonces[1]? = some pn ∧
    pubnonces.length = exCtx.pubkeys.length ∧ sigs.length = exCtx.pubkeys.length ∧
    (∀ (j : ℕ) Q qn s, j ≠ 1 → exCtx.pubkeys[j]? = some Q → pubnonces[j]? = some qn → sigs[j]? = some s →
      verifyPartialAdaptor sha256 exCtx s (AggNonce.sum pubnonces) 0 Q qn msg = .ok ()) ∧
    (AggNonce.sum pubnonces).R1 + (AggNonce.sum pubnonces).nonceCoefficient sha256 exCtx.aggregatedPubkey msg
      • (AggNonce.sum pubnonces).R2 ≠ 0 ∧
    ∃ s, verifyPartialAdaptor sha256 exCtx s (AggNonce.sum pubnonces) 0 P pn msg ≠ .ok () := by
  obtain ⟨sigs, h⟩ := allVerified_exists exCtx_reachable.inv 0 [⟨Gpt, Gpt⟩, ⟨Gpt, negGpt⟩] rfl msg
  have hP : exCtx.pubkeys[1]? = some exKeys[1] := rfl
  refine ⟨_, sigs, _, ⟨Gpt, negGpt⟩, sha256_tagsAgree, exCtx_reachable, hP, rfl, rfl, h.2.1, fun j Q qn s _ => h.2.2 j Q qn s,
    ?_, ?_⟩
  · have h1 : AggNonce.sum [⟨Gpt, Gpt⟩, ⟨Gpt, negGpt⟩] = ⟨(2 : MaybeScalar) • G, 0⟩ := by
      rw [AggNonce.sum_eq]
      simp only [List.map_cons, List.map_nil, List.sum_cons, List.sum_nil, add_zero, two_smul]
      congr 1
      exact add_neg_cancel G
    rw [h1]
    simp only [smul_zero, add_zero]
    rw [Ne, smul_G_eq_zero]
    exact two_ne_zero_scalar
  · obtain ⟨s, hs, hu⟩ := C27_unique_partial_signature sha256 exCtx exCtx_reachable
      (AggNonce.sum [⟨Gpt, Gpt⟩, ⟨Gpt, negGpt⟩]) 0 exKeys[1] (List.mem_of_getElem? hP) ⟨Gpt, negGpt⟩ msg
    exact ⟨s + 1, fun h => one_ne_zero (add_eq_left.1 (hu _ h))⟩

/-! ## C92 -/

/-- **C92**. An adaptor signature that is valid for the adaptor point `T` is valid for another one exactly if the
challenge hashes of two different nonces satisfy one equation. -/
theorem C92_adaptor_point_bound (H : Hash) (hH : TagsAgree H) (P : Point) (sig : AdaptorSignature) (T T' : MaybePoint)
    (msg : Bytes) (h : verifySingleAdaptor H P sig msg T = .ok ()) (hR : sig.R ≠ 0) :
    verifySingleAdaptor H P sig msg T' = .ok () ↔
      T' = T ∨
        Spec.x (sig.R + T') ≠ Spec.x (sig.R + T) ∧
        Spec.sgn (sig.R + T') • sig.R + Spec.challenge H (sig.R + T') P.1 msg • Spec.sgn P.1 • P.1
          = Spec.sgn (sig.R + T) • sig.R + Spec.challenge H (sig.R + T) P.1 msg • Spec.sgn P.1 • P.1 := by
  obtain ⟨t, rfl⟩ := exists_dlog T'
  by_cases hne : sig.R + t • G = 0
  · by_cases hT : sig.R + T = 0
    · have : t • G = T := add_left_cancel (hne.trans hT.symm)
      rw [this]
      exact iff_of_true h (Or.inl rfl)
    · have key : ∀ A, verifySingleAdaptor H P sig msg A = .ok () ↔
          sig.s • G = Spec.sgn (sig.R + A) • sig.R + Spec.challenge H (sig.R + A) P.1 msg • Spec.sgn P.1 • P.1 := by
        intro A
        rw [verifySingleAdaptor_eq_ok, spec_challenge hH, sgn_smul, sgn_smul, toEvenY_val]
      have hx : Spec.x (sig.R + t • G) ≠ Spec.x (sig.R + T) := by
        rw [spec_x, spec_x, hne, xNat_zero]
        exact fun h0 => hT (xNat_eq_zero.1 h0.symm)
      rw [key, (key T).1 h]
      constructor
      · intro he; exact Or.inr ⟨hx, he.symm⟩
      · rintro (he | ⟨-, he⟩)
        · rw [he]
        · exact he.symm
  · rw [← and_iff_right (b := _ ∨ _) hne, ← C90_unlocks_iff H hH P sig T msg h hR t]
    obtain ⟨f, hf, hv⟩ := C38_adaptor_valid_iff_adapted_valid H P sig msg t hne
    rw [hv]
    constructor
    · intro hv'; exact ⟨f, hf, hv'⟩
    · rintro ⟨f', hf', hv'⟩
      rw [hf] at hf'
      cases hf'
      exact hv'

/-- **C92**. A decrypted signature, that is a valid BIP340 signature, passes as an adaptor signature only for the adaptor
point infinity, with the same exception. -/
theorem C92_decrypted_rejected (H : Hash) (hH : TagsAgree H) (P : Point) (f : LiftedSignature) (T : MaybePoint)
    (msg : Bytes) (hev : Spec.has_even_y f.R.1 = true) (h : verifySingleLifted H P f msg = .ok ()) :
    verifySingleAdaptor H P (AdaptorSignature.new f.R.1 f.s) msg T = .ok () ↔
      T = 0 ∨
        Spec.x (f.R.1 + T) ≠ Spec.x f.R.1 ∧
        Spec.sgn (f.R.1 + T) • f.R.1 + Spec.challenge H (f.R.1 + T) P.1 msg • Spec.sgn P.1 • P.1
          = f.R.1 + Spec.challenge H f.R.1 P.1 msg • Spec.sgn P.1 • P.1 := by
  have hev' : isOdd f.R.1 = false := by
    rw [spec_has_even_y] at hev
    simpa using hev
  have had : (AdaptorSignature.new f.R.1 f.s).adapt 0 = some f := by
    unfold AdaptorSignature.new
    rw [adapt_zero]
    unfold LiftedSignature.new
    rw [toEvenY_of_even hev']
  have h0 := (verify_adapt (H := H) (P := P) (msg := msg) had).1 h
  rw [zero_smul] at h0
  have := C92_adaptor_point_bound H hH P (AdaptorSignature.new f.R.1 f.s) 0 T msg h0 f.R.2
  rw [this]
  have hs : Spec.sgn f.R.1 = 1 := by unfold Spec.sgn; rw [hev]; rfl
  simp only [AdaptorSignature.new, add_zero, hs, one_smul]

/-- A decrypted signature for every key and message. -/
example (sk : Scalar) (msg : Bytes) : ∃ f : LiftedSignature, TagsAgree sha256 ∧ Spec.has_even_y f.R.1 = true ∧
    verifySingleLifted sha256 (mulG sk) f msg = .ok () := by
  obtain ⟨s, hs⟩ := valid_adaptor_exists sha256 sk 1 0 msg
  have h1 : (1 : MaybeScalar) • G + (0 : MaybeScalar) • G ≠ 0 := by
    rw [← add_smul, Ne, smul_G_eq_zero, add_zero]; exact one_ne_zero
  obtain ⟨f, hf, hv⟩ := C38_adaptor_valid_iff_adapted_valid sha256 (mulG sk) ⟨(1 : MaybeScalar) • G, s⟩ msg 0 h1
  rw [zero_smul] at hv
  refine ⟨f, sha256_tagsAgree, ?_, hv.1 hs⟩
  rw [spec_has_even_y, adapt_isOdd hf]
  rfl

end Verif
