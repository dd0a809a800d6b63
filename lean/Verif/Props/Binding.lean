import Verif.Lemmas.Props.Binding
import Verif.Props.Unlock

/-!
# Property C93: tweaks and taproot outputs are binding; the forged session of C75
-/

namespace Verif

/-! ## C93 -/

/-- **C93**. Two tweaks of one kind lead from one context to the same aggregated key exactly if they are equal. -/
theorem C93_tweak_binding (ctx c c' : KeyAggContext) (t t' : Scalar) (x : Bool)
    (h : ctx.withTweak t x = .ok c) (h' : ctx.withTweak t' x = .ok c') :
    c.aggregatedPubkey = c'.aggregatedPubkey ↔ t = t' := by
  have key : ∃ B : MaybePoint, c.pubkey.1 = B + t.1 • G ∧ c'.pubkey.1 = B + t'.1 • G := by
    unfold KeyAggContext.withTweak at h h'
    cases x
    · exact ⟨_, withPlainTweak_pubkey h, withPlainTweak_pubkey h'⟩
    · exact ⟨_, withXonlyTweak_pubkey h, withXonlyTweak_pubkey h'⟩
  obtain ⟨B, h1, h2⟩ := key
  unfold KeyAggContext.aggregatedPubkey
  rw [← Subtype.coe_inj, h1, h2, add_right_inj, smul_G_inj, Subtype.coe_inj]

/-- **C93**. They lead to the same x-only key exactly if they are equal, or if they give away the discrete logarithm of
the key that was tweaked: it is `-(t + t')/2`. -/
theorem C93_tweak_binding_xonly (ctx c c' : KeyAggContext) (t t' : Scalar) :
    (ctx.withTweak t false = .ok c → ctx.withTweak t' false = .ok c' →
      (Spec.xbytes c.aggregatedPubkey.1 = Spec.xbytes c'.aggregatedPubkey.1 ↔
        t = t' ∨ ctx.aggregatedPubkey.1 = (-(t.1 + t'.1) / 2) • G)) ∧
    (ctx.withTweak t true = .ok c → ctx.withTweak t' true = .ok c' →
      (Spec.xbytes c.aggregatedPubkey.1 = Spec.xbytes c'.aggregatedPubkey.1 ↔
        t = t' ∨ Spec.sgn ctx.aggregatedPubkey.1 • ctx.aggregatedPubkey.1 = (-(t.1 + t'.1) / 2) • G)) := by
  unfold KeyAggContext.aggregatedPubkey
  rw [spec_xbytes, spec_xbytes, Subtype.coe_inj, sgn_smul]
  constructor
  · intro h h'
    rw [withPlainTweak_pubkey h, withPlainTweak_pubkey h', shifted_xonly_iff, Subtype.coe_inj]
  · intro h h'
    rw [withXonlyTweak_pubkey h, withXonlyTweak_pubkey h', shifted_xonly_iff, Subtype.coe_inj]

theorem taproot_internal_binding (H : Hash) (hH : TagsAgree H) (ctx c c' : KeyAggContext) (m m' : Bytes)
    (h : ctx.withTaprootTweakInternal H m = .ok c) (h' : ctx.withTaprootTweakInternal H m' = .ok c') :
    Spec.xbytes c.aggregatedPubkey.1 = Spec.xbytes c'.aggregatedPubkey.1 ↔
      Spec.tagged_hash H "TapTweak" (Spec.xbytes ctx.aggregatedPubkey.1 ++ m)
        = Spec.tagged_hash H "TapTweak" (Spec.xbytes ctx.aggregatedPubkey.1 ++ m') ∨
      Spec.sgn ctx.aggregatedPubkey.1 • ctx.aggregatedPubkey.1
        = (-((Spec.int_from_bytes (Spec.tagged_hash H "TapTweak" (Spec.xbytes ctx.aggregatedPubkey.1 ++ m)) : MaybeScalar)
            + (Spec.int_from_bytes (Spec.tagged_hash H "TapTweak" (Spec.xbytes ctx.aggregatedPubkey.1 ++ m')) : MaybeScalar))
          / 2) • G := by
  have key : ∀ {m : Bytes} {c : KeyAggContext}, ctx.withTaprootTweakInternal H m = .ok c →
      ∃ t : Scalar, ctx.withXonlyTweak t = .ok c ∧
        Spec.tagged_hash H "TapTweak" (Spec.xbytes ctx.aggregatedPubkey.1 ++ m) = (serScalar t.1).1 := by
    intro m c h
    unfold KeyAggContext.withTaprootTweakInternal at h
    obtain ⟨t, ht, h⟩ := Res.bind_eq_ok.1 h
    rw [Res.okOr_eq_ok, parseScalar_eq_some] at ht
    refine ⟨t, h, ?_⟩
    rw [tagged_tapTweak hH, spec_xbytes]
    exact ht
  obtain ⟨t, h1, h2⟩ := key h
  obtain ⟨t', h1', h2'⟩ := key h'
  rw [(C93_tweak_binding_xonly ctx c c' t t').2 h1 h1', h2, h2', Subtype.coe_inj, serScalar_injective.eq_iff,
    Subtype.coe_inj]
  have hi : ∀ s : MaybeScalar, (Spec.int_from_bytes (serScalar s).1 : MaybeScalar) = s := by
    intro s
    unfold Spec.int_from_bytes
    rw [beNat_serScalar, ZMod.natCast_zmod_val]
  rw [hi, hi]

/-- **C93**. A taproot output key commits to its script tree: two merkle roots give the same output key exactly if the two
tweak hashes collide, or if they give away the secret key of the internal key. -/
theorem C93_taproot_binds_root (H : Hash) (hH : TagsAgree H) (ctx c c' : KeyAggContext) (root root' : Arr 32)
    (h : ctx.withTaprootTweak H root = .ok c) (h' : ctx.withTaprootTweak H root' = .ok c') :
    Spec.xbytes c.aggregatedPubkey.1 = Spec.xbytes c'.aggregatedPubkey.1 ↔
      Spec.tagged_hash H "TapTweak" (Spec.xbytes ctx.aggregatedPubkey.1 ++ root.1)
        = Spec.tagged_hash H "TapTweak" (Spec.xbytes ctx.aggregatedPubkey.1 ++ root'.1) ∨
      Spec.sgn ctx.aggregatedPubkey.1 • ctx.aggregatedPubkey.1
        = (-((Spec.int_from_bytes (Spec.tagged_hash H "TapTweak" (Spec.xbytes ctx.aggregatedPubkey.1 ++ root.1)) : MaybeScalar)
            + (Spec.int_from_bytes (Spec.tagged_hash H "TapTweak" (Spec.xbytes ctx.aggregatedPubkey.1 ++ root'.1)) : MaybeScalar))
          / 2) • G :=
  taproot_internal_binding H hH ctx c c' root.1 root'.1 h h'

/-- **C93**. The output key of `with_unspendable_taproot_tweak` commits to having no script tree, in the same sense. -/
theorem C93_unspendable_binds (H : Hash) (hH : TagsAgree H) (ctx c c' : KeyAggContext) (root : Arr 32)
    (h : ctx.withUnspendableTaprootTweak H = .ok c) (h' : ctx.withTaprootTweak H root = .ok c') :
    Spec.xbytes c.aggregatedPubkey.1 = Spec.xbytes c'.aggregatedPubkey.1 ↔
      Spec.tagged_hash H "TapTweak" (Spec.xbytes ctx.aggregatedPubkey.1)
        = Spec.tagged_hash H "TapTweak" (Spec.xbytes ctx.aggregatedPubkey.1 ++ root.1) ∨
      Spec.sgn ctx.aggregatedPubkey.1 • ctx.aggregatedPubkey.1
        = (-((Spec.int_from_bytes (Spec.tagged_hash H "TapTweak" (Spec.xbytes ctx.aggregatedPubkey.1)) : MaybeScalar)
            + (Spec.int_from_bytes (Spec.tagged_hash H "TapTweak" (Spec.xbytes ctx.aggregatedPubkey.1 ++ root.1)) : MaybeScalar))
          / 2) • G := by
  have := taproot_internal_binding H hH ctx c c' [] root.1 h h'
  rwa [List.append_nil] at this

/-- The hypotheses can be met, and the exception is real: the stub group has the key `3G`, which the tweaks `1` and `-7`
turn into `4G` and `-4G`. -/
example : ∃ (c c' : KeyAggContext) (t t' : Scalar), Reachable stubHash stubCtx ∧
    stubCtx.withTweak t false = .ok c ∧ stubCtx.withTweak t' false = .ok c' ∧ t ≠ t' ∧
    Spec.xbytes c.aggregatedPubkey.1 = Spec.xbytes c'.aggregatedPubkey.1 := by
  have hpub : stubCtx.pubkey.1 = (3 : MaybeScalar) • G := stub_keySum
  have h4 : (4 : MaybeScalar) ≠ 0 := by
    exact_mod_cast natCast_scalar_ne_zero (k := 4) (by norm_num) (by norm_num)
  have h7 : (-7 : MaybeScalar) ≠ 0 := by
    rw [Ne, neg_eq_zero]
    exact_mod_cast natCast_scalar_ne_zero (k := 7) (by norm_num) (by norm_num)
  have h8 : (8 : MaybeScalar) ≠ 0 := by
    exact_mod_cast natCast_scalar_ne_zero (k := 8) (by norm_num) (by norm_num)
  have h1 : stubCtx.pubkey.1 + scalarOne.1 • G ≠ 0 := by
    rw [hpub, ← add_smul, Ne, smul_G_eq_zero]
    change (3 : MaybeScalar) + 1 ≠ 0
    intro h; apply h4; linear_combination h
  have h2 : stubCtx.pubkey.1 + (-7 : MaybeScalar) • G ≠ 0 := by
    rw [hpub, ← add_smul, Ne, smul_G_eq_zero]
    intro h; apply h4; linear_combination -h
  have e1 : stubCtx.withTweak scalarOne false = .ok _ := withPlainTweak_eq_ok.2 ⟨⟨_, h1⟩, rfl, rfl⟩
  have e2 : stubCtx.withTweak ⟨-7, h7⟩ false = .ok _ := withPlainTweak_eq_ok.2 ⟨⟨_, h2⟩, rfl, rfl⟩
  refine ⟨_, _, _, _, .new stubCtx_new, e1, e2, ?_, ?_⟩
  · intro h
    have h' : (1 : MaybeScalar) = -7 := congrArg Subtype.val h
    apply h8; linear_combination h'
  · refine ((C93_tweak_binding_xonly stubCtx _ _ _ _).1 e1 e2).2 (Or.inr ?_)
    change stubCtx.pubkey.1 = (-((1 : MaybeScalar) + -7) / 2) • G
    rw [hpub, smul_G_inj, eq_div_iff two_ne_zero_scalar]
    ring

/-- The hypotheses can be met with two different tweak hashes. -/
example : ∃ (c c' : KeyAggContext) (root root' : Arr 32), TagsAgree lastByteHash ∧
    lastCtx.withTaprootTweak lastByteHash root = .ok c ∧ lastCtx.withTaprootTweak lastByteHash root' = .ok c' ∧
    Spec.tagged_hash lastByteHash "TapTweak" (Spec.xbytes lastCtx.aggregatedPubkey.1 ++ root.1)
      ≠ Spec.tagged_hash lastByteHash "TapTweak" (Spec.xbytes lastCtx.aggregatedPubkey.1 ++ root'.1) := by
  have hp : ∀ (x : UInt8) (t : Scalar), (serScalar t.1).1 = beBytes 32 x.toNat →
      ∀ m : Bytes, tagHash lastByteHash TAPROOT_TWEAK_TAG_DIGEST (m ++ [x]) = serScalar t.1 := by
    intro x t ht m
    apply Subtype.ext
    rw [ht]
    unfold tagHash lastByteHash
    rw [if_neg (by simp only [List.length_append]; have : TAPROOT_TWEAK_TAG_DIGEST.length = 32 := by decide
                   omega)]
    change beBytes 32 ((_ ++ (m ++ [x]) : Bytes).getLastD 0).toNat = _
    rw [← List.append_assoc, List.getLastD_concat]
  have hs : ∀ k : ℕ, k < 256 → (serScalar (k : MaybeScalar)).1 = beBytes 32 k := by
    intro k hk
    unfold serScalar
    change beBytes 32 (ZMod.val _) = _
    rw [ZMod.val_natCast_of_lt (lt_trans hk (by decide +kernel))]
  have hok : ∀ (x : UInt8) (t : Scalar), t.1 = (x.toNat : MaybeScalar) →
      negIf (isOdd lastCtx.pubkey.1) lastCtx.pubkey.1 + t.1 • G ≠ 0 →
      ∃ c, lastCtx.withTaprootTweak lastByteHash ⟨List.replicate 31 0 ++ [x], rfl⟩ = .ok c := by
    intro x t ht hne
    obtain ⟨c, hc⟩ : ∃ c, lastCtx.withXonlyTweak t = .ok c := ⟨_, withXonlyTweak_eq_ok.2 ⟨⟨_, hne⟩, rfl, rfl⟩⟩
    refine ⟨c, ?_⟩
    unfold KeyAggContext.withTaprootTweak KeyAggContext.withTaprootTweakInternal
    dsimp only
    rw [← List.append_assoc, hp x t (by rw [ht]; exact hs _ (UInt8.toNat_lt x)), parseScalar_eq_some.2 rfl]
    exact hc
  have hdiff : ∀ (x y : UInt8) (t u : Scalar), t.1 = (x.toNat : MaybeScalar) → u.1 = (y.toNat : MaybeScalar) → t ≠ u →
      ∀ m : Bytes, Spec.tagged_hash lastByteHash "TapTweak" (m ++ (List.replicate 31 0 ++ [x]))
        ≠ Spec.tagged_hash lastByteHash "TapTweak" (m ++ (List.replicate 31 0 ++ [y])) := by
    intro x y t u ht hu hne m
    rw [tagged_tapTweak lastByteHash_tagsAgree, tagged_tapTweak lastByteHash_tagsAgree, ← List.append_assoc,
      ← List.append_assoc, hp x t (by rw [ht]; exact hs _ (UInt8.toNat_lt x)),
      hp y u (by rw [hu]; exact hs _ (UInt8.toNat_lt y)), Ne, Subtype.coe_inj, serScalar_injective.eq_iff, Subtype.coe_inj]
    exact hne
  have pair : ∀ (x y : UInt8) (t u : Scalar), t.1 = (x.toNat : MaybeScalar) → u.1 = (y.toNat : MaybeScalar) → t ≠ u →
      negIf (isOdd lastCtx.pubkey.1) lastCtx.pubkey.1 + t.1 • G ≠ 0 →
      negIf (isOdd lastCtx.pubkey.1) lastCtx.pubkey.1 + u.1 • G ≠ 0 →
      ∃ (c c' : KeyAggContext) (root root' : Arr 32), TagsAgree lastByteHash ∧
        lastCtx.withTaprootTweak lastByteHash root = .ok c ∧ lastCtx.withTaprootTweak lastByteHash root' = .ok c' ∧
        Spec.tagged_hash lastByteHash "TapTweak" (Spec.xbytes lastCtx.aggregatedPubkey.1 ++ root.1)
          ≠ Spec.tagged_hash lastByteHash "TapTweak" (Spec.xbytes lastCtx.aggregatedPubkey.1 ++ root'.1) := by
    intro x y t u ht hu hne h1 h2
    obtain ⟨c, hc⟩ := hok x t ht h1
    obtain ⟨c', hc'⟩ := hok y u hu h2
    exact ⟨c, c', _, _, lastByteHash_tagsAgree, hc, hc', hdiff x y t u ht hu hne _⟩
  obtain ⟨d, hd⟩ := exists_dlog (negIf (isOdd lastCtx.pubkey.1) lastCtx.pubkey.1)
  rw [← hd] at pair
  have h3 : (3 : MaybeScalar) ≠ 0 := by
    exact_mod_cast natCast_scalar_ne_zero (k := 3) (by norm_num) (by norm_num)
  have one_ne : (1 : MaybeScalar) ≠ 0 := one_ne_zero
  have n12 : scalarOne ≠ ⟨2, two_ne_zero_scalar⟩ := by
    intro h
    have h' : (1 : MaybeScalar) = 2 := congrArg Subtype.val h
    apply one_ne; linear_combination -h'
  have n13 : scalarOne ≠ ⟨3, h3⟩ := by
    intro h
    have h' : (1 : MaybeScalar) = 3 := congrArg Subtype.val h
    apply two_ne_zero_scalar; linear_combination -h'
  have n23 : (⟨2, two_ne_zero_scalar⟩ : Scalar) ≠ ⟨3, h3⟩ := by
    intro h
    have h' : (2 : MaybeScalar) = 3 := congrArg Subtype.val h
    apply one_ne; linear_combination -h'
  have v1 : scalarOne.1 = ((1 : UInt8).toNat : MaybeScalar) := by change (1 : MaybeScalar) = ((1 : ℕ) : MaybeScalar); norm_num
  have v2 : (2 : MaybeScalar) = ((2 : UInt8).toNat : MaybeScalar) := by
    change (2 : MaybeScalar) = ((2 : ℕ) : MaybeScalar); norm_num
  have v3 : (3 : MaybeScalar) = ((3 : UInt8).toNat : MaybeScalar) := by
    change (3 : MaybeScalar) = ((3 : ℕ) : MaybeScalar); norm_num
  have hz : ∀ t : MaybeScalar, d + t ≠ 0 → d • G + t • G ≠ 0 := by
    intro t ht
    rwa [← add_smul, Ne, smul_G_eq_zero]
  by_cases c1 : d + 1 = 0
  · refine pair 2 3 _ _ v2 v3 n23 (hz _ fun h => one_ne ?_) (hz _ fun h => two_ne_zero_scalar ?_)
    · linear_combination h - c1
    · linear_combination h - c1
  · by_cases c2 : d + 2 = 0
    · refine pair 1 3 _ _ v1 v3 n13 (hz _ c1) (hz _ fun h => one_ne ?_)
      linear_combination h - c2
    · exact pair 1 2 _ _ v1 v2 n12 (hz _ c1) (hz _ c2)

/-! ## The forged session of C75 -/

/-- **C75**, for a whole session: a single dishonest member `j`, without any secret key, can choose the aggregated nonce
`an`, second nonces `R2` and scalars `s` for all other members, and find nonces for everyone that really do aggregate to `an`
and under which all the chosen scalars pass verification. The hypotheses only say that no nonce comes out as infinity. -/
theorem C75_forged_session (H : Hash) (hH : TagsAgree H) (ctx : KeyAggContext) (hc : Reachable H ctx) (an : AggNonce)
    (T : MaybePoint) (msg : Bytes) (j : ℕ) (hj : j < ctx.pubkeys.length) (R2 : ℕ → Point) (s : ℕ → MaybeScalar)
    (a : ℕ → MaybeScalar)
    (ha : ∀ i P, ctx.pubkeys[i]? = some P → (ctx.keyCoefficient P : Res Unit _) = .ok (some (a i))) :
    let o := Spec.observe H ctx.aggregatedPubkey an T msg
    let n := ctx.pubkeys.length
    let R1 := fun i => Spec.forgedNonce o (Spec.keySign ctx) (a i) (s i) ((ctx.pubkeys[i]?.map (·.1)).getD 0) (R2 i).1
    (∀ i < n, i ≠ j → R1 i ≠ 0) → an.R1 - ∑ i ∈ (Finset.range n).erase j, R1 i ≠ 0 →
    an.R2 - ∑ i ∈ (Finset.range n).erase j, (R2 i).1 ≠ 0 →
    ∃ pubnonces : List PubNonce, pubnonces.length = n ∧ AggNonce.sum pubnonces = an ∧
      ∀ i P pn, i ≠ j → ctx.pubkeys[i]? = some P → pubnonces[i]? = some pn →
        pn.R1.1 = R1 i ∧ pn.R2 = R2 i ∧
        verifyPartialAdaptor H ctx (s i) (AggNonce.sum pubnonces) T P pn msg = .ok () := by
  intro o n R1 h1 h2 h3
  have hex : ∀ i, ∃ pn : PubNonce, i < n →
      (i ≠ j → pn.R1.1 = R1 i ∧ pn.R2 = R2 i) ∧
      (i = j → pn.R1.1 = an.R1 - ∑ i ∈ (Finset.range n).erase j, R1 i ∧
        pn.R2.1 = an.R2 - ∑ i ∈ (Finset.range n).erase j, (R2 i).1) := by
    intro i
    by_cases hi : i < n
    · by_cases hij : i = j
      · exact ⟨⟨⟨_, h2⟩, ⟨_, h3⟩⟩, fun _ => ⟨fun h => absurd hij h, fun _ => ⟨rfl, rfl⟩⟩⟩
      · exact ⟨⟨⟨_, h1 i hi hij⟩, R2 i⟩, fun _ => ⟨fun _ => ⟨rfl, rfl⟩, fun h => absurd h hij⟩⟩
    · exact ⟨⟨Gpt, Gpt⟩, fun h => absurd h hi⟩
  choose f hf using hex
  have hsum : AggNonce.sum ((List.range n).map f) = an := by
    have e1 := sum_with_last an.R1 R1 (fun i => (f i).R1.1) hj (fun i hi hij => ((hf i hi).1 hij).1) ((hf j hj).2 rfl).1
    have e2 := sum_with_last an.R2 (fun i => (R2 i).1) (fun i => (f i).R2.1) hj
      (fun i hi hij => congrArg Subtype.val ((hf i hi).1 hij).2) ((hf j hj).2 rfl).2
    rw [AggNonce.sum_eq, List.map_map, List.map_map]
    change AggNonce.mk ((List.range ctx.pubkeys.length).map fun i => (f i).R1.1).sum
      ((List.range ctx.pubkeys.length).map fun i => (f i).R2.1).sum = an
    rw [e1, e2]
  refine ⟨(List.range n).map f, by simp, hsum, ?_⟩
  intro i P pn hij hP hpn
  have hi : i < n := (List.getElem?_eq_some_iff.1 hP).1
  have hfi : f i = pn := by simpa [hi] using hpn
  obtain ⟨e1, e2⟩ := (hf i hi).1 hij
  rw [hfi] at e1 e2
  refine ⟨e1, e2, ?_⟩
  rw [hsum]
  have hne := h1 i hi hij
  have hR : R1 i = Spec.forgedNonce o (Spec.keySign ctx) (a i) (s i) P.1 (R2 i).1 := by
    change Spec.forgedNonce _ _ _ _ ((ctx.pubkeys[i]?.map (·.1)).getD 0) _ = _
    rw [hP]; rfl
  have := (C75_partial_signature_forgeable H hH ctx hc an T msg P (List.mem_of_getElem? hP) (a i) (ha i P hP) (R2 i) (s i)).1
    (by rw [hR] at hne; exact hne)
  have hpn' : pn = ⟨⟨_, by rw [hR] at hne; exact hne⟩, R2 i⟩ := by
    obtain ⟨q1, q2⟩ := pn
    simp only [PubNonce.mk.injEq]
    exact ⟨Subtype.ext (e1.trans hR), e2⟩
  rw [hpn']
  exact this

/-- **C75**, for a whole session: in every group of two, the second member, without a secret key, can make any scalar but
two pass as the partial signature of the first, for every message and adaptor point. The nonces are computed from public
values only: `(R1, G)` for the first member and `(G - R1, G)` for the second, with the `R1` of the formula. -/
theorem C75_forged_session_two (H : Hash) (hH : TagsAgree H) (ctx : KeyAggContext) (hc : Reachable H ctx) (P Q : Point)
    (hk : ctx.pubkeys = [P, Q]) (T : MaybePoint) (msg : Bytes) (a : MaybeScalar)
    (ha : (ctx.keyCoefficient P : Res Unit _) = .ok (some a)) :
    let o := Spec.observe H ctx.aggregatedPubkey ⟨G, G + G⟩ T msg
    let R1 := fun s => Spec.forgedNonce o (Spec.keySign ctx) a s P.1 G
    ∃ s₁ s₂, ∀ s, s ≠ s₁ → s ≠ s₂ → ∃ pn qn : PubNonce,
      pn.R1.1 = R1 s ∧ pn.R2.1 = G ∧ qn.R1.1 = G - R1 s ∧ qn.R2.1 = G ∧
      verifyPartialAdaptor H ctx s (AggNonce.sum [pn, qn]) T P pn msg = .ok () := by
  intro o R1
  have hσ : o.sign ≠ 0 := sgn_ne_zero _
  have hinj : Function.Injective R1 := forgedNonce_injective o hσ (Spec.keySign ctx) a P.1 G
  have hpre : ∀ X : MaybePoint, ∃ s₁, ∀ s, s ≠ s₁ → R1 s ≠ X := by
    intro X
    by_cases h : ∃ s, R1 s = X
    · obtain ⟨s₁, h₁⟩ := h
      exact ⟨s₁, fun s hs he => hs (hinj (he.trans h₁.symm))⟩
    · exact ⟨0, fun s _ he => h ⟨s, he⟩⟩
  obtain ⟨s₁, h₁⟩ := hpre 0
  obtain ⟨s₂, h₂⟩ := hpre G
  refine ⟨s₁, s₂, fun s hs₁ hs₂ => ?_⟩
  have n1 := h₁ s hs₁
  have n2 : G - R1 s ≠ 0 := sub_ne_zero.2 (h₂ s hs₂).symm
  refine ⟨⟨⟨R1 s, n1⟩, Gpt⟩, ⟨⟨G - R1 s, n2⟩, Gpt⟩, rfl, rfl, rfl, rfl, ?_⟩
  have hsum : AggNonce.sum [(⟨⟨R1 s, n1⟩, Gpt⟩ : PubNonce), ⟨⟨G - R1 s, n2⟩, Gpt⟩] = ⟨G, G + G⟩ := by
    rw [AggNonce.sum_eq]
    simp only [List.map_cons, List.map_nil, List.sum_cons, List.sum_nil, add_zero, add_sub_cancel]
    rfl
  rw [hsum]
  exact (C75_partial_signature_forgeable H hH ctx hc ⟨G, G + G⟩ T msg P (by rw [hk]; simp) a ha Gpt s).1 n1

/-- The hypotheses can be met: the example group has two members. -/
example : TagsAgree sha256 ∧ Reachable sha256 exCtx ∧ ∃ P Q, exCtx.pubkeys = [P, Q] :=
  ⟨sha256_tagsAgree, exCtx_reachable, _, _, rfl⟩

/-! ## C67 -/

/-- **C67**, for the coefficients. The coefficient of the first key of a group is a hash of the group's list hash and that
key; so if a key comes first in two groups with different key lists, and has the same coefficient in both, either the
list hash or the coefficient hash collides, on the inputs given here. -/
theorem C67_coefficients (H : Hash) (hH : TagsAgree H) (ctx ctx' : KeyAggContext) (hc : Reachable H ctx)
    (hc' : Reachable H ctx') (P : Point) (hP : ctx.pubkeys.head? = some P) (hP' : ctx'.pubkeys.head? = some P)
    (hne : ctx.pubkeys ≠ ctx'.pubkeys) (a : MaybeScalar) (ε : Type)
    (ha : (ctx.keyCoefficient P : Res ε _) = .ok (some a)) (ha' : (ctx'.keyCoefficient P : Res ε _) = .ok (some a)) :
    let flat := fun l : List Point => (l.map fun P => Spec.cbytes P.1).flatten
    let L := fun l : List Point => Spec.tagged_hash H "KeyAgg list" (flat l)
    let c := fun l : List Point => Spec.int_from_bytes (Spec.tagged_hash H "KeyAgg coefficient" (L l ++ Spec.cbytes P.1))
    (flat ctx.pubkeys ≠ flat ctx'.pubkeys ∧ L ctx.pubkeys = L ctx'.pubkeys) ∨
    (L ctx.pubkeys ++ Spec.cbytes P.1 ≠ L ctx'.pubkeys ++ Spec.cbytes P.1 ∧
      c ctx.pubkeys % orderN = c ctx'.pubkeys % orderN) := by
  intro flat L c
  obtain ⟨h1, h2, h3⟩ := C67_key_list_committed H hH _ _ hne
  by_cases hL : L ctx.pubkeys = L ctx'.pubkeys
  · exact .inl ⟨h1, hL⟩
  · refine .inr ⟨fun h => hL (List.append_cancel_right h), ?_⟩
    have key : ∀ ctx : KeyAggContext, Reachable H ctx → ctx.pubkeys.head? = some P →
        (ctx.keyCoefficient P : Res ε _) = .ok (some a) →
        (hashPubkeys H ctx.pubkeys).1 = L ctx.pubkeys → c ctx.pubkeys % orderN = a.val := by
      intro ctx hc hP ha hl
      have hmem : P ∈ ctx.orderedPubkeys := List.mem_of_head? hP
      rw [hc.inv.keyCoefficient_eq, if_pos hmem] at ha
      have ha : coeffOf H ctx.orderedPubkeys P = a := by simpa using ha
      rw [← ha]
      unfold coeffOf computeKeyAggregationCoefficient
      rw [if_neg]
      · simp only [c]
        rw [← hl, tagged_keyAggCoeff hH, spec_cbytes_point]
        unfold reduceFrom Spec.int_from_bytes
        rw [ZMod.val_natCast]
        rfl
      · have hP : ctx.orderedPubkeys.head? = some P := hP
        cases hk : ctx.orderedPubkeys with
        | nil => rw [hk] at hP; cases hP
        | cons x l =>
          rw [hk] at hP
          simp only [List.head?_cons, Option.some.injEq] at hP
          subst hP
          unfold secondKey
          intro hf
          have := List.find?_some hf
          simp at this
    rw [key ctx hc hP ha h2, key ctx' hc' hP' ha' h3]

/-- Two groups with the same first key, which has coefficient 1 in both. -/
example : ∃ ctx ctx' : KeyAggContext, Reachable stubHash ctx ∧ Reachable stubHash ctx' ∧
    ctx.pubkeys.head? = some Gpt ∧ ctx'.pubkeys.head? = some Gpt ∧ ctx.pubkeys ≠ ctx'.pubkeys ∧
    (ctx.keyCoefficient Gpt : Res Unit _) = .ok (some 1) ∧ (ctx'.keyCoefficient Gpt : Res Unit _) = .ok (some 1) := by
  have hsum : keySum stubHash [Gpt] ≠ 0 := by
    unfold keySum
    simp only [stub_coeff, one_smul, List.map_cons, List.map_nil, List.sum_cons, List.sum_nil, add_zero]
    exact Gpt.2
  have hn : KeyAggContext.new stubHash [Gpt] = .ok (baseCtx stubHash [Gpt] ⟨_, hsum⟩) :=
    new_eq_ok.2 ⟨by simp, by simp [u32Max], ⟨_, hsum⟩, rfl, rfl⟩
  have hk : stubCtx.pubkeys = [Gpt, mulG ⟨2, two_ne_zero_scalar⟩] := by
    change [mulG scalarOne, _] = _
    rw [mulG_one]
  have hk' : (baseCtx stubHash [Gpt] ⟨_, hsum⟩).pubkeys = [Gpt] := rfl
  refine ⟨stubCtx, baseCtx stubHash [Gpt] ⟨_, hsum⟩, .new stubCtx_new, .new hn, by rw [hk]; rfl, rfl, ?_, ?_, ?_⟩
  · rw [hk, hk']
    simp
  · have hi := (Reachable.new stubCtx_new).inv
    rw [hi.keyCoefficient_eq, stub_coeff, if_pos]
    change Gpt ∈ stubCtx.pubkeys
    rw [hk]
    simp
  · have hi := (Reachable.new hn).inv
    rw [hi.keyCoefficient_eq, stub_coeff, if_pos]
    change Gpt ∈ [Gpt]
    simp

end Verif
