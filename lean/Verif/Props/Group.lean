import Verif.Lemmas.Props.Group
import Verif.Props.Solo
import Verif.Props.KeyAgg

/-!
# Properties C75-C82: what partial signatures, adaptor secrets and tweaks determine
-/

namespace Verif

/-! ## C75 -/

/-- **C75**. Partial signatures are not unforgeable: for every member, session, scalar and second nonce there is a
first nonce, computed without any secret, such that the scalar is accepted as that member's partial signature. The one
exception is the scalar for which that nonce would be infinity. -/
theorem C75_partial_signature_forgeable (H : Hash) (hH : TagsAgree H) (ctx : KeyAggContext) (hc : Reachable H ctx)
    (an : AggNonce) (T : MaybePoint) (msg : Bytes) (P : Point) (hP : P ∈ ctx.pubkeys) (a : MaybeScalar)
    (ha : (ctx.keyCoefficient P : Res Unit _) = .ok (some a)) (R2 : Point) (s : MaybeScalar) :
    let o := Spec.observe H ctx.aggregatedPubkey an T msg
    let R1 := Spec.forgedNonce o (Spec.keySign ctx) a s P.1 R2.1
    (∀ h : R1 ≠ 0, verifyPartialAdaptor H ctx s an T P ⟨⟨R1, h⟩, R2⟩ msg = .ok ()) ∧
    (R1 = 0 → ∀ s', s' ≠ s → Spec.forgedNonce o (Spec.keySign ctx) a s' P.1 R2.1 ≠ 0) := by
  intro o R1
  have hP' : P ∈ ctx.orderedPubkeys := hP
  rw [hc.inv.keyCoefficient_eq, if_pos hP'] at ha
  simp only [Res.ok.injEq, Option.some.injEq] at ha
  constructor
  · intro h
    rw [verifyPartialAdaptor_eq_ok hc.inv]
    refine ⟨hP', ?_⟩
    unfold partialRhs
    rw [ha, ← sgn_smul, ← mul_smul]
    rw [keySign_smul]
    change s • G = Spec.sgn (sessionRT H ctx an T msg) • (R1 + an.nonceCoefficient H ctx.pubkey msg • R2.1)
      + Spec.keySign ctx • (sessionE H ctx an T msg * a) • P.1
    have hE : sessionE H ctx an T msg = Spec.challenge H (sessionRT H ctx an T msg) ctx.pubkey.1 msg :=
      (spec_challenge hH _ _ _).symm
    rw [hE]
    change s • G = Spec.sgn (sessionRT H ctx an T msg)
      • ((Spec.sgn (sessionRT H ctx an T msg) * s) • G
        - (Spec.sgn (sessionRT H ctx an T msg) * Spec.challenge H (sessionRT H ctx an T msg) ctx.pubkey.1 msg
          * Spec.keySign ctx * a) • P.1 - an.nonceCoefficient H ctx.pubkey msg • R2.1
        + an.nonceCoefficient H ctx.pubkey msg • R2.1) + _
    have h1 := sgn_mul_sgn (sessionRT H ctx an T msg)
    generalize Spec.sgn (sessionRT H ctx an T msg) = σ at h1 ⊢
    rw [sub_add_cancel, smul_sub, ← mul_smul, ← mul_smul, ← mul_smul, ← mul_assoc, h1, one_mul]
    have h2 : ∀ c : MaybeScalar, σ * (σ * c * Spec.keySign ctx * a) = Spec.keySign ctx * (c * a) := by
      intro c
      linear_combination (c * Spec.keySign ctx * a) * h1
    rw [h2, sub_add_cancel]
  · intro h0 s' hne h1
    apply hne
    have h2 := (sub_left_injective (sub_left_injective (h0.trans h1.symm)) :)
    have h3 := smul_G_inj.1 h2
    exact (mul_left_cancel₀ (sgn_ne_zero _) h3).symm

/-- The hypotheses can be met in the example group. -/
example : TagsAgree sha256 ∧ Reachable sha256 exCtx ∧ Gpt ∈ exCtx.pubkeys ∧
    ∃ a, (exCtx.keyCoefficient Gpt : Res Unit _) = .ok (some a) := by
  have hm : Gpt ∈ exCtx.orderedPubkeys := by simp [exCtx, baseCtx, exKeys]
  exact ⟨sha256_tagsAgree, exCtx_reachable, hm, _, by rw [exCtx_reachable.inv.keyCoefficient_eq, if_pos hm]⟩

/-! ## C76 -/

/-- **C76**. Given the partial signatures `good` that verify, any other list of scalars, of any length, aggregates
exactly if it has the same sum, and then to the same signature. -/
theorem C76_aggregate_iff_sum (H : Hash) (ctx : KeyAggContext) (hc : Reachable H ctx) (T : MaybePoint)
    (pubnonces : List PubNonce) (good sigs : List PartialSignature) (msg : Bytes)
    (h : AllVerified H ctx T pubnonces good msg)
    (hR : (AggNonce.sum pubnonces).R1 + (AggNonce.sum pubnonces).nonceCoefficient H ctx.aggregatedPubkey msg
      • (AggNonce.sum pubnonces).R2 ≠ 0) :
    ((∃ sig, aggregatePartialAdaptorSignatures H ctx (AggNonce.sum pubnonces) T sigs msg = .ok sig) ↔
      sigs.sum = good.sum) ∧
    (sigs.sum = good.sum → aggregatePartialAdaptorSignatures H ctx (AggNonce.sum pubnonces) T sigs msg
      = aggregatePartialAdaptorSignatures H ctx (AggNonce.sum pubnonces) T good msg) := by
  obtain ⟨sig, hs, -⟩ := C28_verified_partials_aggregate_adaptor H ctx hc T pubnonces good msg h hR
  obtain ⟨h1, h2⟩ := aggregateAdaptor_sum_iff (sigs := sigs) hs
  exact ⟨h1, fun he => (h2 he).trans hs.symm⟩

/-- **C76**, plain sessions. -/
theorem C76_plain_aggregate_iff_sum (H : Hash) (hH : TagsAgree H) (ctx : KeyAggContext) (hc : Reachable H ctx)
    (pubnonces : List PubNonce) (good sigs : List PartialSignature) (msg : Bytes)
    (h : AllVerified H ctx 0 pubnonces good msg)
    (hR : (AggNonce.sum pubnonces).R1 + (AggNonce.sum pubnonces).nonceCoefficient H ctx.aggregatedPubkey msg
      • (AggNonce.sum pubnonces).R2 ≠ 0) :
    (∃ sig, aggregatePartialSignatures H ctx (AggNonce.sum pubnonces) sigs msg = .ok sig) ↔ sigs.sum = good.sum := by
  obtain ⟨sig, hs, -⟩ := C28_verified_partials_aggregate H hH ctx hc pubnonces good msg h hR
  constructor
  · rintro ⟨sig', hs'⟩
    refine ((C76_aggregate_iff_sum H ctx hc 0 pubnonces good sigs msg h hR).1).1 ?_
    rw [aggregate_eq] at hs'
    split at hs'
    · rename_i hv
      have := (verify_adapt (H := H) (P := ctx.pubkey) (msg := msg)
        (adapt_zero (sessionR H ctx (AggNonce.sum pubnonces) msg)
          (aggValue H ctx (AggNonce.sum pubnonces) 0 sigs msg))).1 hv
      rw [zero_smul] at this
      exact ⟨_, aggregateAdaptor_eq_ok.2 ⟨rfl, this⟩⟩
    · cases hs'
  · intro he
    have : aggValue H ctx (AggNonce.sum pubnonces) 0 sigs msg = aggValue H ctx (AggNonce.sum pubnonces) 0 good msg := by
      unfold aggValue; rw [he]
    exact ⟨sig, by rw [← hs, aggregate_eq, aggregate_eq, this]⟩

/-- **C76**, one misbehaving signer. If signer `i` alone replaces their partial signature, aggregation fails, and
`verify_partial` blames exactly signer `i`. -/
theorem C76_single_deviation_blamed (H : Hash) (ctx : KeyAggContext) (hc : Reachable H ctx) (T : MaybePoint)
    (pubnonces : List PubNonce) (good : List PartialSignature) (msg : Bytes)
    (h : AllVerified H ctx T pubnonces good msg)
    (hR : (AggNonce.sum pubnonces).R1 + (AggNonce.sum pubnonces).nonceCoefficient H ctx.aggregatedPubkey msg
      • (AggNonce.sum pubnonces).R2 ≠ 0)
    (i : ℕ) (hi : i < good.length) (s : PartialSignature) (hs : s ≠ good[i]) :
    aggregatePartialAdaptorSignatures H ctx (AggNonce.sum pubnonces) T (good.set i s) msg = .err .badSignature ∧
    ∀ (j : ℕ) P pn s', ctx.pubkeys[j]? = some P → pubnonces[j]? = some pn → (good.set i s)[j]? = some s' →
      (verifyPartialAdaptor H ctx s' (AggNonce.sum pubnonces) T P pn msg = .ok () ↔ j ≠ i) := by
  constructor
  · refine (C32_adaptor_aggregate_total H ctx _ T _ msg).resolve_right ?_
    rw [(C76_aggregate_iff_sum H ctx hc T pubnonces good (good.set i s) msg h hR).1]
    intro hsum
    apply hs
    have hd : good = good.take i ++ good[i] :: good.drop (i + 1) := by
      rw [List.getElem_cons_drop, List.take_append_drop]
    have h1 : (good.set i s).sum = (good.take i).sum + (s + (good.drop (i + 1)).sum) := by
      rw [List.set_eq_take_append_cons_drop, if_pos hi, List.sum_append, List.sum_cons]
    have h2 : good.sum = (good.take i).sum + (good[i] + (good.drop (i + 1)).sum) := by
      conv_lhs => rw [hd]
      rw [List.sum_append, List.sum_cons]
    rw [h1, h2] at hsum
    exact add_right_cancel (add_left_cancel hsum)
  · intro j P pn s' h1 h2 h3
    have hm : P ∈ ctx.pubkeys := List.mem_of_getElem? h1
    by_cases hj : j = i
    · subst hj
      rw [List.getElem?_set_self hi] at h3
      cases h3
      have hg := h.2.2 j P pn good[j] h1 h2 (List.getElem?_eq_getElem hi)
      simp only [ne_eq, not_true_eq_false, iff_false]
      intro hv
      exact hs ((C27_unique_partial_signature H ctx hc _ T P hm pn msg).unique hv hg)
    · rw [List.getElem?_set_ne (Ne.symm hj)] at h3
      exact iff_of_true (h.2.2 j P pn s' h1 h2 h3) hj

/-- **C76**, the converse of C28 is false: two signers who shift their partial signatures in opposite directions are
both rejected by `verify_partial`, but aggregation succeeds. -/
theorem C76_aggregate_does_not_verify_partials (H : Hash) (ctx : KeyAggContext) (hc : Reachable H ctx) (T : MaybePoint)
    (n1 n2 : PubNonce) (s1 s2 d : PartialSignature) (msg : Bytes) (P1 P2 : Point) (hk : ctx.pubkeys = [P1, P2])
    (h : AllVerified H ctx T [n1, n2] [s1, s2] msg)
    (hR : (AggNonce.sum [n1, n2]).R1 + (AggNonce.sum [n1, n2]).nonceCoefficient H ctx.aggregatedPubkey msg
      • (AggNonce.sum [n1, n2]).R2 ≠ 0) (hd : d ≠ 0) :
    (∃ sig, aggregatePartialAdaptorSignatures H ctx (AggNonce.sum [n1, n2]) T [s1 + d, s2 - d] msg = .ok sig ∧
      verifySingleAdaptor H ctx.aggregatedPubkey sig msg T = .ok ()) ∧
    verifyPartialAdaptor H ctx (s1 + d) (AggNonce.sum [n1, n2]) T P1 n1 msg = .err .badSignature ∧
    verifyPartialAdaptor H ctx (s2 - d) (AggNonce.sum [n1, n2]) T P2 n2 msg = .err .badSignature := by
  have key : ∀ (j : ℕ) P pn s s', ctx.pubkeys[j]? = some P → [n1, n2][j]? = some pn → [s1, s2][j]? = some s → s' ≠ s →
      verifyPartialAdaptor H ctx s' (AggNonce.sum [n1, n2]) T P pn msg = .err .badSignature := by
    intro j P pn s s' h1 h2 h3 hne
    have hm : P ∈ ctx.pubkeys := List.mem_of_getElem? h1
    have hg := h.2.2 j P pn s h1 h2 h3
    refine ((C26_verify_partial_adaptor_outcomes H ctx hc s' _ T P pn msg).2 hm).resolve_left fun hv => hne ?_
    exact (C27_unique_partial_signature H ctx hc _ T P hm pn msg).unique hv hg
  refine ⟨?_, key 0 P1 n1 s1 _ (by rw [hk]; rfl) rfl rfl ?_, key 1 P2 n2 s2 _ (by rw [hk]; rfl) rfl rfl ?_⟩
  · obtain ⟨sig, hs⟩ := ((C76_aggregate_iff_sum H ctx hc T [n1, n2] [s1, s2] [s1 + d, s2 - d] msg h hR).1).2 (by
      simp only [List.sum_cons, List.sum_nil]; ring)
    exact ⟨sig, hs, (aggregateAdaptor_eq_ok.1 hs).2⟩
  · intro h; exact hd (add_eq_left.1 h)
  · intro h; exact hd (sub_eq_self.1 h)

/-- The hypotheses can be met in the example group. -/
example (msg : Bytes) : ∃ n1 n2 s1 s2, exCtx.pubkeys = [exKeys[0], exKeys[1]] ∧
    AllVerified sha256 exCtx 0 [n1, n2] [s1, s2] msg ∧
    (AggNonce.sum [n1, n2]).R1 + (AggNonce.sum [n1, n2]).nonceCoefficient sha256 exCtx.aggregatedPubkey msg
      • (AggNonce.sum [n1, n2]).R2 ≠ 0 := by
  obtain ⟨sigs, h⟩ := allVerified_exists exCtx_reachable.inv 0 [⟨Gpt, Gpt⟩, ⟨Gpt, negGpt⟩] rfl msg
  have hl := h.2.1
  obtain ⟨s1, s2, rfl⟩ := List.length_eq_two.1 (show sigs.length = 2 from hl)
  refine ⟨_, _, s1, s2, rfl, h, ?_⟩
  have h1 : AggNonce.sum [⟨Gpt, Gpt⟩, ⟨Gpt, negGpt⟩] = ⟨(2 : MaybeScalar) • G, 0⟩ := by
    rw [AggNonce.sum_eq]
    simp only [List.map_cons, List.map_nil, List.sum_cons, List.sum_nil, add_zero, two_smul]
    congr 1
    exact add_neg_cancel G
  rw [h1]
  simp only [smul_zero, add_zero]
  rw [Ne, smul_G_eq_zero]
  exact two_ne_zero_scalar

/-! ## C77 -/

/-- **C77**. Encrypting a signature by any list of secrets, one after the other, gives an adaptor signature for the sum
of their points; it is valid exactly if the signature is. The sum of the secrets decrypts it, nothing else does
(unless its nonce is infinity), and the order of the secrets does not matter. -/
theorem C77_encrypt_many (H : Hash) (P : Point) (sig : LiftedSignature) (msg : Bytes) (ts : List Scalar)
    (hev : isOdd sig.R.1 = false) :
    let a := encryptAll (AdaptorSignature.new sig.R.1 sig.s) ts
    let t := (ts.map (·.1)).sum
    (verifySingleAdaptor H P a msg (t • G) = .ok () ↔ verifySingleLifted H P sig msg = .ok ()) ∧
    a.adapt t = some sig ∧
    (a.R ≠ 0 → (∀ t', a.adapt t' = some sig → t' = t) ∧ a.revealSecret sig = some t) ∧
    ∀ ts', ts.Perm ts' → encryptAll (AdaptorSignature.new sig.R.1 sig.s) ts' = a := by
  intro a t
  have haeq : a = ⟨sig.R.1 - t • G, sig.s - t⟩ := encryptAll_eq _ _
  have had : a.adapt t = some sig := by
    refine adapt_eq_some.2 ⟨sig.R, ?_, (toEvenY_of_even hev).symm, ?_⟩
    · rw [haeq]; simp
    · rw [haeq, hev]; simp
  refine ⟨(verify_adapt had).symm, had, fun hR => ?_, fun ts' hp => ?_⟩
  · have hrev : ∀ t', a.adapt t' = some sig → a.revealSecret sig = some t' :=
      fun t' h => C39_reveal_partial a t' sig h (Or.inl hR)
    refine ⟨fun t' h => ?_, hrev t had⟩
    have := (hrev t' h).symm.trans (hrev t had)
    exact Option.some.inj this
  · rw [haeq, encryptAll_eq, ← (hp.map (·.1)).sum_eq]
    rfl

/-- A signature encrypted twice. -/
example : isOdd Gpt.1 = false ∧ (encryptAll ⟨Gpt.1, 5⟩ [scalarOne, ⟨2, two_ne_zero_scalar⟩]).R ≠ 0 := by
  refine ⟨isOdd_G, ?_⟩
  rw [encryptAll_eq]
  simp only [List.map_cons, List.map_nil, List.sum_cons, List.sum_nil, add_zero]
  change G - ((1 : MaybeScalar) + 2) • G ≠ 0
  have : G - ((1 : MaybeScalar) + 2) • G = (-2 : MaybeScalar) • G := by rw [add_smul, one_smul, neg_smul]; abel
  rw [this, Ne, smul_G_eq_zero, neg_eq_zero]
  exact two_ne_zero_scalar

/-! ## C78 -/

/-- **C78**. A valid adaptor signature with a finite nonce can be completed only by giving away the discrete logarithm
of the adaptor point: every valid signature of the message under the key, whose nonce has the x coordinate of the
adapted nonce, reveals a secret `t` with `t•G = T`. -/
theorem C78_completion_reveals_secret (H : Hash) (P : Point) (sig : AdaptorSignature) (T : MaybePoint) (msg : Bytes)
    (f : LiftedSignature) (h : verifySingleAdaptor H P sig msg T = .ok ()) (hR : sig.R ≠ 0)
    (hev : isOdd f.R.1 = false) (hf : verifySingleLifted H P f msg = .ok ())
    (hx : Spec.x f.R.1 = Spec.x (sig.R + T)) :
    ∃ t, sig.revealSecret f = some t ∧ t • G = T ∧ sig.adapt t = some f := by
  obtain ⟨t, ht⟩ := exists_dlog T
  have hx' : xonly f.R.1 = xonly (sig.R + T) := by
    rw [xonly_eq_iff_xNat, ← spec_x, ← spec_x]; exact hx
  have hRT : sig.R + T ≠ 0 := by
    intro h0
    rw [h0, xonly_eq_iff] at hx'
    rcases hx' with h | h
    · exact f.R.2 h
    · rw [neg_zero] at h; exact f.R.2 h
  have hfe : f.R.1 = negIf (isOdd (sig.R + T)) (sig.R + T) := by
    refine eq_of_xonly_isOdd ?_ ?_
    · rw [hx']
      cases isOdd (sig.R + T)
      · rfl
      · exact (xonly_neg _).symm
    · rw [hev, isOdd_negIf hRT, Bool.xor_self]
  rw [verifySingleLifted_eq_ok hev, hx'] at hf
  rw [verifySingleAdaptor_eq_ok] at h
  have hs : f.s = sig.s + negIf (isOdd (sig.R + T)) t := by
    rw [← smul_G_inj, add_smul, hf, h, ← negIf_smul, ht, hfe, negIf_add]
    abel
  have had : sig.adapt t = some f := by
    refine adapt_eq_some.2 ⟨⟨sig.R + T, hRT⟩, by rw [ht], ?_, hs⟩
    apply Subtype.ext
    rw [hfe, toEvenY_val]
  exact ⟨t, C39_reveal_partial sig t f had (Or.inl hR), ht, had⟩

/-- The hypotheses can be met for every key and message: the adaptor signature for `7·G` made with the nonce `G`, and
its completion. -/
example (H : Hash) (sk : Scalar) (msg : Bytes) : ∃ sig f, verifySingleAdaptor H (mulG sk) sig msg ((7 : MaybeScalar) • G)
    = .ok () ∧ sig.R ≠ 0 ∧ isOdd f.R.1 = false ∧ verifySingleLifted H (mulG sk) f msg = .ok () ∧
    Spec.x f.R.1 = Spec.x (sig.R + (7 : MaybeScalar) • G) := by
  obtain ⟨s, hs⟩ := valid_adaptor_exists H sk 1 ((7 : MaybeScalar) • G) msg
  have hne : (1 : MaybeScalar) • G + (7 : MaybeScalar) • G ≠ 0 := by
    rw [← add_smul, Ne, smul_G_eq_zero]
    have := natCast_scalar_ne_zero (k := 8) (by norm_num) (by norm_num)
    intro h; apply this; push_cast; linear_combination h
  obtain ⟨f, hf, hv⟩ := C38_adaptor_valid_iff_adapted_valid H (mulG sk) ⟨(1 : MaybeScalar) • G, s⟩ msg 7 hne
  refine ⟨_, f, hs, ?_, adapt_isOdd hf, hv.1 hs, ?_⟩
  · rw [Ne, smul_G_eq_zero]; exact one_ne_zero
  · obtain ⟨R, h1, h2, -⟩ := adapt_eq_some.1 hf
    rw [spec_x, spec_x, ← xonly_eq_iff_xNat, h2, xonly_toEvenY, h1]

/-! ## C79 -/

/-- **C79**. A sequence of plain tweaks that is accepted has the effect of the one plain tweak by their sum; if the sum
is zero, it has no effect. -/
theorem C79_plain_tweaks_compose (ctx ctx' : KeyAggContext) (ts : List Scalar)
    (h : ctx.withTweaks (ts.map fun t => (t, false)) = .ok ctx') :
    (∀ t : Scalar, t.1 = (ts.map (·.1)).sum → ctx.withPlainTweak t = .ok ctx') ∧
    ((ts.map (·.1)).sum = 0 → ctx' = ctx) := by
  have key : ∀ (ts : List Scalar) (ctx : KeyAggContext), ctx.withTweaks (ts.map fun t => (t, false)) = .ok ctx' →
      ctx.pubkey.1 + (ts.map (·.1)).sum • G = ctx'.pubkey.1 ∧
      ctx' = { ctx with pubkey := ctx'.pubkey, tweakAcc := ctx.tweakAcc + (ts.map (·.1)).sum } := by
    intro ts
    induction ts with
    | nil =>
      intro ctx h
      simp only [List.map_nil, KeyAggContext.withTweaks, Res.ok.injEq] at h
      subst h
      simp
    | cons t ts ih =>
      intro ctx h
      obtain ⟨c, hc, ht⟩ := withTweaks_cons_eq_ok.1 h
      obtain ⟨Q, hQ, rfl⟩ := withTweak_eq_ok.1 hc
      obtain ⟨h1, h2⟩ := ih _ ht
      simp only [Bool.false_and, negIf_false] at hQ h1 h2
      simp only [List.map_cons, List.sum_cons]
      refine ⟨?_, ?_⟩
      · rw [← h1, ← hQ, add_smul]; abel
      · rw [h2]
        simp only [Bool.false_xor]
        congr 1
        ring
  obtain ⟨h1, h2⟩ := key ts ctx h
  refine ⟨fun t ht => ?_, fun h0 => ?_⟩
  · refine withPlainTweak_eq_ok.2 ⟨ctx'.pubkey, ?_, ?_⟩
    · rw [ht]; exact h1
    · rw [h2, ht]
  · rw [h0, zero_smul, add_zero] at h1
    rw [h2, h0, add_zero, ← Subtype.ext h1]

/-- **C79**. So the order of plain tweaks does not matter. -/
theorem C79_plain_tweaks_commute (ctx c c' : KeyAggContext) (ts ts' : List Scalar) (hp : ts.Perm ts')
    (h : ctx.withTweaks (ts.map fun t => (t, false)) = .ok c)
    (h' : ctx.withTweaks (ts'.map fun t => (t, false)) = .ok c') : c = c' := by
  obtain ⟨h1, h2⟩ := C79_plain_tweaks_compose ctx c ts h
  obtain ⟨h1', h2'⟩ := C79_plain_tweaks_compose ctx c' ts' h'
  have hs := (hp.map (fun t : Scalar => t.1)).sum_eq
  by_cases h0 : (ts.map (·.1)).sum = 0
  · rw [h2 h0, h2' (hs ▸ h0)]
  · have a := h1 ⟨_, h0⟩ rfl
    have b := h1' ⟨_, h0⟩ hs
    rw [a] at b
    cases b
    rfl

/-- **C79**. An x-only tweak does what the plain tweak does exactly if the key has an even y coordinate. -/
theorem C79_xonly_is_plain_iff_even (ctx : KeyAggContext) (t : Scalar) :
    ctx.withXonlyTweak t = ctx.withPlainTweak t ↔ Spec.has_even_y ctx.aggregatedPubkey.1 = true := by
  rw [spec_has_even_y]
  change _ ↔ (!isOdd ctx.pubkey.1) = true
  cases ho : isOdd ctx.pubkey.1
  · refine iff_of_true ?_ rfl
    unfold KeyAggContext.withXonlyTweak
    rw [ho]
    rfl
  · refine iff_of_false (fun h => ?_) (by simp)
    have h2 : -ctx.pubkey.1 + t.1 • G = ctx.pubkey.1 + t.1 • G := by
      cases hp : ctx.withPlainTweak t with
      | panic => exact absurd hp (withTweak_ne_panic ctx t false)
      | err e =>
        cases e
        have h1 := withTweak_eq_err (ctx := ctx) (t := t) (x := false) |>.1 hp
        have h3 := withTweak_eq_err (ctx := ctx) (t := t) (x := true) |>.1 (h.trans hp)
        rw [Bool.false_and, negIf_false] at h1
        rw [ho, Bool.true_and, negIf_true] at h3
        rw [h1, h3]
      | ok c =>
        obtain ⟨Q, hQ, hc⟩ := withPlainTweak_eq_ok.1 hp
        obtain ⟨Q', hQ', hc'⟩ := withXonlyTweak_eq_ok.1 (h.trans hp)
        have : Q = Q' := by
          have := congrArg KeyAggContext.pubkey (hc.symm.trans hc')
          exact this
        rw [ho, negIf_true] at hQ'
        rw [hQ, hQ', this]
    have h3 : (2 : MaybeScalar) • ctx.pubkey.1 = 0 := by
      rw [two_smul, add_eq_zero_iff_eq_neg]
      exact (add_right_cancel h2).symm
    obtain ⟨d, hd⟩ := mulG_surjective ctx.pubkey
    rw [← hd, mulG_val, ← mul_smul, smul_G_eq_zero] at h3
    exact mul_ne_zero two_ne_zero_scalar d.2 h3

/-- Two plain tweaks of the stub context are accepted in both orders. -/
example : ∃ c c', stubCtx.withTweaks ([scalarOne, ⟨2, two_ne_zero_scalar⟩].map fun t => (t, false)) = .ok c ∧
    stubCtx.withTweaks ([⟨2, two_ne_zero_scalar⟩, scalarOne].map fun t => (t, false)) = .ok c' := by
  have hpub : stubCtx.pubkey.1 = (3 : MaybeScalar) • G := stub_keySum
  have hne : ∀ k : ℕ, 0 < k → k < 100 → ((k : MaybeScalar)) • G ≠ 0 := fun k h1 h2 => by
    rw [Ne, smul_G_eq_zero]; exact natCast_scalar_ne_zero h1 h2
  have two : ∀ a b : Scalar, stubCtx.pubkey.1 + a.1 • G ≠ 0 → stubCtx.pubkey.1 + a.1 • G + b.1 • G ≠ 0 →
      ∃ c, stubCtx.withTweaks ([a, b].map fun t => (t, false)) = .ok c := by
    intro a b h1 h2
    refine ⟨_, withTweaks_cons_eq_ok.2 ⟨_, withTweak_eq_ok.2 ⟨⟨_, h1⟩, by simp, rfl⟩,
      withTweaks_cons_eq_ok.2 ⟨_, withTweak_eq_ok.2 ⟨⟨_, h2⟩, by simp, rfl⟩, rfl⟩⟩⟩
  have h4 := hne 4 (by norm_num) (by norm_num)
  have h5 := hne 5 (by norm_num) (by norm_num)
  have h6 := hne 6 (by norm_num) (by norm_num)
  push_cast at h4 h5 h6
  have e4 : (3 : MaybeScalar) • G + scalarOne.1 • G = (4 : MaybeScalar) • G := by
    rw [← add_smul]; congr 1; change (3 : MaybeScalar) + 1 = 4; norm_num
  have e5 : (3 : MaybeScalar) • G + (2 : MaybeScalar) • G = (5 : MaybeScalar) • G := by
    rw [← add_smul]; congr 1; norm_num
  have e6 : (4 : MaybeScalar) • G + (2 : MaybeScalar) • G = (6 : MaybeScalar) • G := by
    rw [← add_smul]; congr 1; norm_num
  have e6' : (5 : MaybeScalar) • G + scalarOne.1 • G = (6 : MaybeScalar) • G := by
    rw [← add_smul]; congr 1; change (5 : MaybeScalar) + 1 = 6; norm_num
  obtain ⟨c, hc⟩ := two scalarOne ⟨2, two_ne_zero_scalar⟩ (by rw [hpub, e4]; exact h4) (by rw [hpub, e4, e6]; exact h6)
  obtain ⟨c', hc'⟩ := two ⟨2, two_ne_zero_scalar⟩ scalarOne (by rw [hpub, e5]; exact h5) (by rw [hpub, e5, e6']; exact h6)
  exact ⟨c, c', hc, hc'⟩

/-! ## C80 -/

/-- **C80**. The aggregated secret key signs alone for the group: its solo signatures verify under the aggregated,
tweaked key. -/
theorem C80_aggregated_seckey_signs (H : Hash) (hH : TagsAgree H) (ctx : KeyAggContext) (sks : List Scalar) (d : Scalar)
    (h : ctx.aggregatedSeckey sks = .ok d) (msg : Bytes) (seed : Arr 32) (ε : Type) :
    ∃ sig, (signSolo H d msg seed : Res ε _) = .ok sig ∧
      Spec.schnorr_verify H msg (Spec.xbytes ctx.aggregatedPubkey.1) sig.toBytes = true := by
  have hd : mulG d = ctx.aggregatedPubkey := Subtype.ext (C07_seckey_sound ctx sks d h)
  obtain ⟨sig, h1, h2⟩ := C35_solo_signature_verifies H d msg seed ε
  rw [hd] at h2
  exact ⟨sig, h1, ((C33_verify_single_typed H hH ctx.aggregatedPubkey msg).2.1 _).1 h2⟩

/-- **C80**. Conversely a signature made by the group is one that the aggregated secret key could have made alone: it
has the form `(k·G, k + e·d)` of a BIP340 signature. Nothing in it depends on the number of signers. -/
theorem C80_group_signature_is_single_signer (H : Hash) (hH : TagsAgree H) (ctx : KeyAggContext) (sks : List Scalar)
    (d : Scalar) (h : ctx.aggregatedSeckey sks = .ok d) (an : AggNonce) (sigs : List PartialSignature) (msg : Bytes)
    (sig : LiftedSignature) (hs : aggregatePartialSignatures H ctx an sigs msg = .ok sig) :
    ∃ k : Scalar, sig.R = mulG k ∧ Spec.has_even_y (mulG k).1 = true ∧
      sig.s = k.1 + Spec.challenge H (mulG k).1 (mulG d).1 msg * (Spec.sgn (mulG d).1 * d.1) := by
  have hd : mulG d = ctx.aggregatedPubkey := Subtype.ext (C07_seckey_sound ctx sks d h)
  obtain ⟨k, hk⟩ := mulG_surjective sig.R
  have hv := ((C30_aggregate_sound H hH ctx an sigs msg).1 sig hs).1
  have hev : isOdd sig.R.1 = false := by
    rw [aggregate_eq] at hs
    split at hs
    · cases hs; exact isOdd_toEvenY _
    · cases hs
  refine ⟨k, hk.symm, by rw [spec_has_even_y, hk, hev]; rfl, ?_⟩
  rw [verifySingleLifted_eq_ok hev, ← spec_challenge hH, ← hd, toEvenY_val, ← sgn_smul, ← hk] at hv
  rw [← smul_G_inj, hv, add_smul, mul_smul, mul_smul]
  rfl

/-- The hypotheses can be met: the stub group has an aggregated secret key. -/
example : TagsAgree stubHash ∧ ∃ d, stubCtx.aggregatedSeckey stubKeys = .ok d :=
  ⟨stubHash_tagsAgree, C07_seckey_complete stubHash stubCtx (.new stubCtx_new) stubKeys rfl⟩

/-! ## C81 -/

/-- **C81**. Key-path spending: if the group signs with a context obtained by `with_taproot_tweak(root)`, every honest
session ends with a signature that BIP340 accepts under the BIP341 output key of the internal key and that root. -/
theorem C81_taproot_session (H : Hash) (hH : TagsAgree H) (ctx0 : KeyAggContext) (root : Arr 32) (g : HonestGroup H)
    (hg : ctx0.withTaprootTweak H root = .ok g.ctx) (msg : Bytes) (hR : g.sessionNonce msg ≠ 0) :
    ∃ (parity : Bool) (output : Bytes) (psigs : ℕ → PartialSignature) (sig : LiftedSignature),
      Spec.taproot_tweak_pubkey H (Spec.xbytes ctx0.aggregatedPubkey.1) root.1 = some (parity, output) ∧
      Spec.schnorr_verify H msg output sig.toBytes = true ∧
      ∀ i (hi : i < g.sks.length) calls, g.NonceSchedule i calls →
        ∃ r2, ((g.rounds i).run calls).1.finalize H g.sks[i] msg = .ok r2 ∧
          ∀ scalls, g.SignatureSchedule psigs i scalls → (r2.run H scalls).1.finalize H = .ok sig := by
  obtain ⟨psigs, sig, h1, h2⟩ := C60_honest_session_bip340 H hH g msg hR
  exact ⟨_, _, psigs, sig, (C09_taproot_is_bip341 H hH ctx0 root).1 g.ctx hg, h1, h2⟩

/-- **C81**, without a script tree. -/
theorem C81_unspendable_session (H : Hash) (hH : TagsAgree H) (ctx0 : KeyAggContext) (g : HonestGroup H)
    (hg : ctx0.withUnspendableTaprootTweak H = .ok g.ctx) (msg : Bytes) (hR : g.sessionNonce msg ≠ 0) :
    ∃ (parity : Bool) (output : Bytes) (psigs : ℕ → PartialSignature) (sig : LiftedSignature),
      Spec.taproot_tweak_pubkey H (Spec.xbytes ctx0.aggregatedPubkey.1) [] = some (parity, output) ∧
      Spec.schnorr_verify H msg output sig.toBytes = true ∧
      ∀ i (hi : i < g.sks.length) calls, g.NonceSchedule i calls →
        ∃ r2, ((g.rounds i).run calls).1.finalize H g.sks[i] msg = .ok r2 ∧
          ∀ scalls, g.SignatureSchedule psigs i scalls → (r2.run H scalls).1.finalize H = .ok sig := by
  obtain ⟨psigs, sig, h1, h2⟩ := C60_honest_session_bip340 H hH g msg hR
  exact ⟨_, _, psigs, sig, (C09_unspendable_is_bip341 H hH ctx0).1 g.ctx hg, h1, h2⟩

/-- The hypotheses can be met: the stub group with a taproot tweak. -/
example (root : Arr 32) : ∃ g : HonestGroup stubHash, stubCtx.withTaprootTweak stubHash root = .ok g.ctx ∧
    ∀ msg, g.sessionNonce msg ≠ 0 := by
  have hp : ∀ m, parseScalar (tagHash stubHash TAPROOT_TWEAK_TAG_DIGEST m).1 = some scalarOne := by
    intro m
    rw [parseScalar_eq_some]
    have : tagHash stubHash TAPROOT_TWEAK_TAG_DIGEST m = ⟨beBytes 32 1, beBytes_length 32 1⟩ := by
      unfold tagHash stubHash
      rw [if_neg (by simp only [List.length_append]; have : TAPROOT_TWEAK_TAG_DIGEST.length = 32 := by decide
                     omega)]
    rw [this]
    decide +kernel
  have hpub : stubCtx.pubkey.1 = (3 : MaybeScalar) • G := stub_keySum
  have hne : negIf (isOdd stubCtx.pubkey.1) stubCtx.pubkey.1 + scalarOne.1 • G ≠ 0 := by
    generalize isOdd stubCtx.pubkey.1 = o
    rw [hpub, negIf_smul, ← add_smul, Ne, smul_G_eq_zero]
    change negIf o (3 : MaybeScalar) + 1 ≠ 0
    cases o
    · have := natCast_scalar_ne_zero (k := 4) (by norm_num) (by norm_num)
      intro h; apply this; push_cast; rw [negIf_false] at h; linear_combination h
    · intro h
      apply two_ne_zero_scalar
      change -(3 : MaybeScalar) + 1 = 0 at h
      linear_combination -h
  obtain ⟨ctx, hctx⟩ : ∃ ctx, stubCtx.withXonlyTweak scalarOne = .ok ctx :=
    ⟨_, withXonlyTweak_eq_ok.2 ⟨⟨_, hne⟩, rfl, rfl⟩⟩
  have ht : stubCtx.withTaprootTweak stubHash root = .ok ctx := by
    unfold KeyAggContext.withTaprootTweak KeyAggContext.withTaprootTweakInternal
    simp only [hp, Res.okOr_some, Res.bind_ok]
    exact hctx
  have hk : ctx.pubkeys = stubKeys.map mulG := by
    obtain ⟨Q, -, rfl⟩ := withXonlyTweak_eq_ok.1 hctx
    rfl
  obtain ⟨g, h1, -, h3⟩ := stub_group ctx (.taproot (.new stubCtx_new) ht) hk
  exact ⟨g, by rw [h1]; exact ht, h3⟩

/-! ## C82 -/

/-- **C82**. The nonce of `FirstRound::new` is the one of the documented call chain (doc/API.md:261-267), if the spices
hold the message and the signer's own secret key. -/
theorem C82_first_round_nonce_documented (H : Hash) (ctx : KeyAggContext) (seed : Arr 32) (i : ℕ) (sk : Scalar)
    (msg : Bytes) (r : FirstRound) (hsk : ctx.pubkeys[i]? = some (mulG sk))
    (h : FirstRound.new H ctx seed i ((SecNonceSpices.new.withSeckey sk).withMessage msg) = .ok r) (ε : Type) :
    ∃ b, ((((SecNonceBuilder.new seed).withSeckey sk).withMessage msg).withAggregatedPubkey ctx.aggregatedPubkey
        |>.withExtraInput (beBytes 4 i) : Res ε _) = .ok b ∧
      r.secnonce = b.build H ∧ r.ourPublicNonce = (b.build H).publicNonce ∧
      (SecNonce.generate H seed sk ctx.aggregatedPubkey msg (beBytes 4 i) : Res ε _) = .ok r.secnonce := by
  obtain ⟨P, b, hP, hb, rfl⟩ := FirstRound.new_eq_ok.1 h
  rw [hsk] at hP
  cases hP
  unfold FirstRound.builder at hb
  obtain ⟨b1, h1, h2⟩ := Res.bind_eq_ok.1 hb
  obtain ⟨-, rfl⟩ := SecNonceBuilder.withExtraInput_eq_ok.1 h1
  obtain ⟨-, rfl⟩ := SecNonceBuilder.withSpices_eq_ok.1 h2
  have h4 : ([beBytes 4 i] : List Bytes).flatten.length ≤ u32Max := by
    simp [beBytes_length, u32Max]
  have hx : ∀ b : SecNonceBuilder, b.extraInputs = [] →
      (b.withExtraInput (beBytes 4 i) : Res ε _) = .ok { b with extraInputs := [beBytes 4 i] } := by
    intro b hb
    refine SecNonceBuilder.withExtraInput_eq_ok.2 ⟨?_, ?_⟩
    · rw [hb]; exact h4
    · rw [hb]; rfl
  refine ⟨_, hx _ rfl, rfl, rfl, ?_⟩
  unfold SecNonce.generate
  simp only
  rw [hx _ rfl]
  rfl

/-- The hypotheses can be met in the stub group. -/
example (msg : Bytes) : stubCtx.pubkeys[1]? = some (mulG ⟨2, two_ne_zero_scalar⟩) ∧
    ∃ r, FirstRound.new stubHash stubCtx zeroSeed 1
      ((SecNonceSpices.new.withSeckey ⟨2, two_ne_zero_scalar⟩).withMessage msg) = .ok r :=
  ⟨rfl, new_ok zeroSeed (by decide) _ (by change 0 + 4 ≤ u32Max; decide)⟩

end Verif
