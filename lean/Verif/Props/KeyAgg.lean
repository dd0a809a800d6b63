import Verif.Lemmas.Props.KeyAgg
import Mathlib.Data.List.Sort
import Verif.Lemmas.Reachable

/-!
# Properties C01-C09, C13, C14: key aggregation and tweaking
-/

namespace Verif

/-! ## C01 -/

/-- **C01**. `KeyAggContext::new` is BIP327 `KeyAgg` on the serialized keys: it panics exactly for an empty or
oversized list, fails exactly when the specification does, and otherwise has the specified aggregate key. -/
theorem C01_new_is_bip327_keyagg (H : Hash) (hH : TagsAgree H) (keys : List Point) :
    (KeyAggContext.new H keys = .panic ↔ keys = [] ∨ keys.length > 4294967295) ∧
    (keys ≠ [] → keys.length ≤ 4294967295 →
      (KeyAggContext.new H keys = .err .keyAggError ↔ Spec.key_agg H (keys.map fun P => Spec.cbytes P.1) = none) ∧
      ∀ Q : Point, (∃ ctx, KeyAggContext.new H keys = .ok ctx ∧ ctx.aggregatedPubkey = Q) ↔
        Spec.key_agg H (keys.map fun P => Spec.cbytes P.1) = some ⟨Q.1, 1, 0⟩) := by
  have hspec := spec_key_agg hH keys
  unfold keyBytes at hspec
  rw [hspec]
  have hnew := new_eq H keys
  constructor
  · rw [hnew]
    constructor
    · intro h
      split at h
      · assumption
      · split at h <;> cases h
    · intro h
      exact if_pos h
  · intro h1 h2
    rw [if_neg (by rw [not_or]; exact ⟨h1, by unfold u32Max; omega⟩)] at hnew
    rw [hnew]
    by_cases h0 : keySum H keys = 0
    · rw [h0, notInf_zero]
      refine ⟨by simp, fun Q => ?_⟩
      simp
    · have : notInf (keySum H keys) = some ⟨_, h0⟩ := notInf_eq_some.2 rfl
      rw [this, if_neg h0]
      refine ⟨by simp, fun Q => ?_⟩
      simp only [Res.ok.injEq, exists_eq_left', Option.some.injEq, Spec.KeyAggCtx.mk.injEq, and_true]
      constructor
      · intro h; rw [← h]; rfl
      · intro h; exact Subtype.ext h

/-- **C01**, the error case in one formula: `KeyAggError` exactly when `Σ aᵢ·Pᵢ` is infinity, with the coefficients
of the specification. -/
theorem C01_error_iff_sum_infinite (H : Hash) (hH : TagsAgree H) (keys : List Point) (h0 : keys ≠ [])
    (hl : keys.length ≤ 4294967295) :
    KeyAggContext.new H keys = .err .keyAggError ↔
      (keys.map fun P => Spec.key_agg_coeff H (keys.map fun P => Spec.cbytes P.1) (Spec.cbytes P.1) • P.1).sum = 0 := by
  have hsum : (keys.map fun P => Spec.key_agg_coeff H (keys.map fun P => Spec.cbytes P.1) (Spec.cbytes P.1) • P.1).sum
      = keySum H keys := by
    unfold keySum
    congr 1
    refine List.map_congr_left fun P _ => ?_
    rw [nsmul_eq, spec_cbytes_point P]
    have := spec_key_agg_coeff hH keys P
    unfold keyBytes at this
    rw [this, ZMod.natCast_zmod_val]
  rw [hsum, ((C01_new_is_bip327_keyagg H hH keys).2 h0 hl).1]
  have hspec := spec_key_agg hH keys
  unfold keyBytes at hspec
  rw [hspec]
  by_cases h : keySum H keys = 0 <;> simp [h]

/-- The group `[G, -G]` under SHA-256 meets the hypotheses and is accepted. -/
example : TagsAgree sha256 ∧ exKeys ≠ [] ∧ exKeys.length ≤ 4294967295 ∧
    KeyAggContext.new sha256 exKeys = .ok exCtx :=
  ⟨sha256_tagsAgree, by simp [exKeys], by simp [exKeys], exCtx_new⟩

/-! ## C02 -/

/-- **C02**. `key_coefficient` and `effective_pubkey`, for every reachable context (any tweaks). -/
theorem C02_coefficients (H : Hash) (hH : TagsAgree H) (ctx : KeyAggContext) (hc : Reachable H ctx) (P : Point)
    (ε : Type) :
    (P ∉ ctx.pubkeys → (ctx.keyCoefficient P : Res ε _) = .ok none ∧ (ctx.effectivePubkey P : Res ε _) = .ok none) ∧
    (P ∈ ctx.pubkeys → ∃ a : MaybeScalar,
      (ctx.keyCoefficient P : Res ε _) = .ok (some a) ∧
      (ctx.effectivePubkey P : Res ε _) = .ok (some (a • P.1)) ∧
      a.val = Spec.key_agg_coeff H (ctx.pubkeys.map fun P => Spec.cbytes P.1) (Spec.cbytes P.1)) := by
  have hi := hc.inv
  rw [hi.keyCoefficient_eq, hi.effectivePubkey_eq]
  unfold KeyAggContext.pubkeys
  constructor
  · intro h
    rw [if_neg h, if_neg h]
    exact ⟨rfl, rfl⟩
  · intro h
    rw [if_pos h, if_pos h]
    refine ⟨_, rfl, rfl, ?_⟩
    rw [spec_cbytes_point P]
    exact (spec_key_agg_coeff hH _ P).symm

/-- **C02**, explicitly: the first key different from the first key of the group has coefficient 1. -/
theorem C02_second_key_one (H : Hash) (ctx : KeyAggContext) (hc : Reachable H ctx) (first P : Point)
    (pre post : List Point) (hk : ctx.pubkeys = first :: (pre ++ P :: post)) (hpre : ∀ Q ∈ pre, Q = first)
    (hP : P ≠ first) (ε : Type) :
    (ctx.keyCoefficient P : Res ε _) = .ok (some 1) := by
  have hi := hc.inv
  rw [hi.keyCoefficient_eq]
  have hk' : ctx.orderedPubkeys = first :: (pre ++ P :: post) := hk
  rw [hk', if_pos (by simp)]
  congr 2
  unfold coeffOf computeKeyAggregationCoefficient
  rw [if_pos]
  unfold secondKey
  simp only
  rw [List.find?_append]
  have : pre.find? (fun pubkey => decide (pubkey ≠ first)) = none := by
    rw [List.find?_eq_none]
    intro x hx
    simp [hpre x hx]
  rw [this]
  simp [hP]

example : Reachable sha256 exCtx ∧ Gpt ∈ exCtx.pubkeys ∧ mulG ⟨2, two_ne_zero_scalar⟩ ∉ exCtx.pubkeys := by
  refine ⟨exCtx_reachable, by simp [exCtx, baseCtx, exKeys, KeyAggContext.pubkeys], ?_⟩
  simp only [exCtx, baseCtx, exKeys, KeyAggContext.pubkeys, List.mem_cons, List.not_mem_nil, or_false, not_or]
  constructor
  · intro h
    have h' : (2 : MaybeScalar) • G = (1 : MaybeScalar) • G := by rw [one_smul]; exact congrArg Subtype.val h
    rw [smul_G_inj] at h'
    exact one_ne_zero (α := MaybeScalar) (by linear_combination h')
  · intro h
    have h' : (2 : MaybeScalar) • G = (-1 : MaybeScalar) • G := by
      rw [neg_smul, one_smul]; exact congrArg Subtype.val h
    rw [smul_G_inj] at h'
    have h3 : ((3 : ℕ) : MaybeScalar) = 0 := by push_cast; linear_combination h'
    rw [ZMod.natCast_eq_zero_iff] at h3
    exact absurd (Nat.le_of_dvd (by norm_num) h3) (by decide +kernel)

/-! ## C03 -/

/-- **C03**. Lookups by key and by index are coherent, in every reachable context. -/
theorem C03_lookup_coherent (H : Hash) (ctx : KeyAggContext) (hc : Reachable H ctx) (P : Point) :
    (∀ i, ctx.getPubkey i = ctx.pubkeys[i]?) ∧
    (ctx.pubkeyIndex P = none ↔ P ∉ ctx.pubkeys) ∧
    (∀ i, ctx.pubkeyIndex P = some i ↔ ctx.getPubkey i = some P ∧ ∀ j > i, ctx.getPubkey j ≠ some P) :=
  ⟨fun _ => rfl, hc.inv.pubkeyIndex_eq_none, fun _ => hc.inv.pubkeyIndex_eq_some⟩

/-- **C03**, the key list: it is the one given to `new`, after any number of tweaks of any kind. -/
theorem C03_pubkeys_preserved (H : Hash) (keys : List Point) (ctx : KeyAggContext) :
    (KeyAggContext.new H keys = .ok ctx → ctx.pubkeys = keys) ∧
    (∀ ctx' ts, ctx.withTweaks ts = .ok ctx' → ctx'.pubkeys = ctx.pubkeys) ∧
    (∀ ctx' t, ctx.withPlainTweak t = .ok ctx' → ctx'.pubkeys = ctx.pubkeys) ∧
    (∀ ctx' t, ctx.withXonlyTweak t = .ok ctx' → ctx'.pubkeys = ctx.pubkeys) ∧
    (∀ ctx' root, ctx.withTaprootTweak H root = .ok ctx' → ctx'.pubkeys = ctx.pubkeys) ∧
    (∀ ctx', ctx.withUnspendableTaprootTweak H = .ok ctx' → ctx'.pubkeys = ctx.pubkeys) := by
  have hx : ∀ ctx' t, ctx.withXonlyTweak t = .ok ctx' → ctx'.pubkeys = ctx.pubkeys := by
    intro ctx' t h
    obtain ⟨Q, -, rfl⟩ := withXonlyTweak_eq_ok.1 h
    rfl
  refine ⟨fun h => ?_, fun ctx' ts h => (withTweaks_keys h).1, fun ctx' t h => ?_, hx, fun ctx' root h => ?_,
    fun ctx' h => ?_⟩
  · obtain ⟨-, -, Q, -, rfl⟩ := new_eq_ok.1 h
    rfl
  · obtain ⟨Q, -, rfl⟩ := withPlainTweak_eq_ok.1 h
    rfl
  · obtain ⟨t, -, h⟩ := Res.bind_eq_ok.1 h
    exact hx _ t h
  · obtain ⟨t, -, h⟩ := Res.bind_eq_ok.1 h
    exact hx _ t h

/-- With duplicates the last index is reported. -/
example : HashMap.get? (indexMap [Gpt, negGpt, Gpt]) Gpt = some 2 := by
  rw [(indexMap_get _ _).1]
  refine ⟨rfl, fun j hj => ?_⟩
  rw [List.getElem?_eq_none (by simp; omega)]
  simp

/-! ## C04 -/

/-- **C04**. `with_tweaks` is the fold of BIP327 `ApplyTweak`, for every context and every sequence of tweaks: same
failures, same aggregate key, same accumulators; members are untouched and there is no panic. -/
theorem C04_with_tweaks_is_apply_tweak_fold (ctx : KeyAggContext) (ts : List (Scalar × Bool)) :
    match (ts.map fun t => (Spec.bytes_from_int t.1.1.val, t.2)).foldlM (m := Option)
        (fun c t => Spec.apply_tweak c t.1 t.2) (specCtx ctx) with
    | none => ctx.withTweaks ts = .err .tweakError
    | some c => ∃ ctx', ctx.withTweaks ts = .ok ctx' ∧ specCtx ctx' = c ∧
        ctx'.pubkeys = ctx.pubkeys ∧ ctx'.keyCoefficients = ctx.keyCoefficients ∧
        ctx'.effectivePubkeys = ctx.effectivePubkeys := by
  have hb : (ts.map fun t => (Spec.bytes_from_int t.1.1.val, t.2)) = tweakBytes ts := rfl
  rw [hb]
  rcases spec_apply_tweaks (specCtx_agree ctx) ts with ⟨c', ctx', h1, h2, h3⟩ | ⟨h1, h2⟩
  · rw [h1]
    have hbd := foldlM_bounds (specCtx_bounds ctx) h1
    exact ⟨ctx', h2, (eq_specCtx h3 hbd.1 hbd.2).symm, (withTweaks_keys h2).1, (withTweaks_keys h2).2.2⟩
  · rw [h1]
    exact h2

/-- **C04**, one step spelled out: `Q' = ±Q + t·G` with the minus sign exactly for x-only tweaks of an odd key, and
an error exactly when that is infinity. -/
theorem C04_single_tweak (ctx : KeyAggContext) (t : Scalar) (isXonly : Bool) :
    let Q' := (if isXonly && !Spec.has_even_y ctx.aggregatedPubkey.1 then -ctx.aggregatedPubkey.1
      else ctx.aggregatedPubkey.1) + t.1 • G
    (ctx.withTweak t isXonly = .err .tweakError ↔ Q' = 0) ∧
    (∀ ctx', ctx.withTweak t isXonly = .ok ctx' → ctx'.aggregatedPubkey.1 = Q') ∧
    ctx.withTweak t isXonly ≠ .panic := by
  intro Q'
  have hQ : Q' = negIf (isXonly && isOdd ctx.pubkey.1) ctx.pubkey.1 + t.1 • G := by
    unfold Q' KeyAggContext.aggregatedPubkey
    rw [spec_has_even_y, Bool.not_not]
    rfl
  rw [hQ]
  refine ⟨withTweak_eq_err, fun ctx' h => ?_, withTweak_ne_panic _ _ _⟩
  obtain ⟨Q, hQ, rfl⟩ := withTweak_eq_ok.1 h
  exact hQ.symm

/-- The error occurs: tweaking `Q` by the opposite of its discrete logarithm fails. -/
example (ctx : KeyAggContext) : ∃ t : Scalar, ctx.withTweak t false = .err .tweakError := by
  obtain ⟨d, hd⟩ := mulG_surjective ctx.pubkey
  refine ⟨⟨-d.1, neg_ne_zero.2 d.2⟩, withTweak_eq_err.2 ?_⟩
  rw [← hd]
  simp

/-! ## C05 -/

/-- **C05**. `aggregated_pubkey_untweaked` never panics and is the key of the untweaked context, for every reachable
context (any number of tweaks of any kind, also after decoding). -/
theorem C05_untweaked_recoverable (H : Hash) (ctx : KeyAggContext) (hc : Reachable H ctx) (ε : Type) :
    ∃ ctx0, KeyAggContext.new H ctx.pubkeys = .ok ctx0 ∧
      (ctx.aggregatedPubkeyUntweaked : Res ε Point) = .ok ctx0.aggregatedPubkey := by
  have hi := hc.inv
  refine ⟨_, new_eq_ok.2 ⟨hi.nonempty, hi.length_le, ⟨_, hi.sum_ne⟩, rfl, rfl⟩, ?_⟩
  unfold KeyAggContext.aggregatedPubkeyUntweaked KeyAggContext.aggregatedPubkey
  simp only
  rw [hi.pub, add_sub_cancel_right, negIf_negIf, Bool.xor_self, negIf_false]
  have : notInf (keySum H ctx.orderedPubkeys) = some ⟨_, hi.sum_ne⟩ := notInf_eq_some.2 rfl
  rw [this]
  rfl

example : Reachable sha256 exCtx := exCtx_reachable

/-! ## C06 -/

/-- **C06**, what holds. Tweaks that do not negate (plain ones, and x-only ones applied to an even key) are summed.
Missing: sequences with an x-only tweak of an odd key, for which the statement is false
(`C06_tweak_sum_not_sum`). -/
theorem C06_tweak_sum_partial (ctx ctx' : KeyAggContext) (ts : List (Scalar × Bool))
    (h : ctx.withTweaks ts = .ok ctx') (hpar : ∀ pre t post, ts = pre ++ (t, true) :: post →
      ∀ c, ctx.withTweaks pre = .ok c → Spec.has_even_y c.aggregatedPubkey.1 = true) :
    ctx'.tweakAcc = ctx.tweakAcc + docTweakSum ts ∧
    (ctx.tweakAcc = 0 → ctx'.tweakSum = notZero (docTweakSum ts)) := by
  have key : ctx'.tweakAcc = ctx.tweakAcc + docTweakSum ts := by
    induction ts generalizing ctx with
    | nil =>
      simp only [KeyAggContext.withTweaks, Res.ok.injEq] at h
      subst h; simp [docTweakSum]
    | cons t ts ih =>
      obtain ⟨t, x⟩ := t
      obtain ⟨c, hc, ht⟩ := withTweaks_cons_eq_ok.1 h
      have hstep : c.tweakAcc = ctx.tweakAcc + t.1 := by
        obtain ⟨Q, -, rfl⟩ := withTweak_eq_ok.1 hc
        simp only
        cases x
        · simp
        · have := hpar [] t ts rfl ctx rfl
          rw [spec_has_even_y] at this
          have : isOdd ctx.pubkey.1 = false := by simpa [KeyAggContext.aggregatedPubkey] using this
          rw [this]; simp
      rw [ih c ht, hstep]
      · simp only [docTweakSum, List.map_cons, List.sum_cons]
        ring
      · intro pre t' post he c' hc'
        exact hpar ((t, x) :: pre) t' post (by rw [he]; rfl) c' (withTweaks_cons_eq_ok.2 ⟨c, hc, hc'⟩)
  exact ⟨key, fun h0 => by unfold KeyAggContext.tweakSum; rw [key, h0, zero_add]⟩

/-- **C06 is false.** For every reachable untweaked context whose aggregate key is not `-G` there are two tweaks, a plain one and an
x-only one, after which `tweak_sum` is not the sum of the tweaks. -/
theorem C06_tweak_sum_not_sum (ctx : KeyAggContext) (h0 : ctx.tweakAcc = 0)
    (hQ : ctx.aggregatedPubkey ≠ negGpt) :
    ∃ (ts : List (Scalar × Bool)) (ctx' : KeyAggContext),
      ctx.withTweaks ts = .ok ctx' ∧ ctx'.tweakSum ≠ notZero (docTweakSum ts) := by
  obtain ⟨d, hd⟩ := mulG_surjective ctx.pubkey
  have ht1 : (-1 - d.1 : MaybeScalar) ≠ 0 := by
    intro h
    apply hQ
    change ctx.pubkey = _
    rw [← hd]
    apply Subtype.ext
    change d.1 • G = -G
    rw [show d.1 = -1 by linear_combination -h]
    simp
  have hodd : isOdd (-G) = true := by rw [isOdd_neg G_ne_zero, isOdd_G]; rfl
  let c1 : KeyAggContext := { ctx with pubkey := negGpt, tweakAcc := ctx.tweakAcc + (-1 - d.1) }
  have h1 : ctx.withTweak ⟨_, ht1⟩ false = .ok c1 := by
    refine withPlainTweak_eq_ok.2 ⟨negGpt, ?_, rfl⟩
    rw [← hd]
    change d.1 • G + (-1 - d.1) • G = -G
    rw [← add_smul]
    simp
  have h2G : (2 : MaybeScalar) • G ≠ 0 := fun h => two_ne_zero_scalar (smul_G_eq_zero.1 h)
  have hc1 : isOdd c1.pubkey.1 = true := hodd
  have h2 : c1.withTweak scalarOne true = .ok { c1 with pubkey := ⟨_, h2G⟩, parityAcc := !c1.parityAcc,
                                                         tweakAcc := -c1.tweakAcc + 1 } := by
    refine withXonlyTweak_eq_ok.2 ⟨⟨_, h2G⟩, ?_, ?_⟩
    · rw [hc1]
      change -(-G) + (1 : MaybeScalar) • G = (2 : MaybeScalar) • G
      rw [neg_neg, one_smul, two_smul]
    · rw [hc1, Bool.true_xor, negIf_true]
      rfl
  refine ⟨[(⟨_, ht1⟩, false), (scalarOne, true)], _,
    withTweaks_cons_eq_ok.2 ⟨c1, h1, withTweaks_cons_eq_ok.2 ⟨_, h2, rfl⟩⟩, ?_⟩
  unfold KeyAggContext.tweakSum docTweakSum
  simp only [List.map_cons, List.map_nil, List.sum_cons, List.sum_nil, add_zero]
  change notZero (-(ctx.tweakAcc + (-1 - d.1)) + 1) ≠ notZero ((-1 - d.1) + (1 : MaybeScalar))
  rw [h0]
  intro h
  have hinj : ∀ a b : MaybeScalar, notZero a = notZero b → a = b := by
    intro a b hab
    cases hb : notZero b with
    | none => rw [hb] at hab; rw [notZero_eq_none.1 hab, notZero_eq_none.1 hb]
    | some t => rw [hb] at hab; rw [notZero_eq_some.1 hab, notZero_eq_some.1 hb]
  have := hinj _ _ h
  apply ht1
  have h2 : (2 : MaybeScalar) * (-1 - d.1) = 0 := by linear_combination -this
  rcases mul_eq_zero.1 h2 with h | h
  · exact absurd h two_ne_zero_scalar
  · exact h

/-- A context of the kind: the example group under SHA-256. -/
example : ∃ (ctx : KeyAggContext), Reachable sha256 ctx ∧ ctx.tweakAcc = 0 ∧ ctx.aggregatedPubkey ≠ negGpt := by
  refine ⟨exCtx, exCtx_reachable, rfl, ?_⟩
  intro h
  have h1 : keySum sha256 exKeys = -G := congrArg Subtype.val h
  rw [exKeys_sum] at h1
  have h2 : ((exCoeff : MaybeScalar) - 1) • G = (-1 : MaybeScalar) • G := by rw [h1, neg_smul, one_smul]
  rw [smul_G_inj] at h2
  exact exCoeff_ne_zero (by linear_combination h2)

/-! ## C07 -/

/-- **C07**. Whatever `aggregated_seckey` returns is the discrete logarithm of the aggregate key. -/
theorem C07_seckey_sound (ctx : KeyAggContext) (sks : List Scalar) (d : Scalar)
    (h : ctx.aggregatedSeckey sks = .ok d) : d.1 • G = ctx.aggregatedPubkey.1 := by
  unfold KeyAggContext.aggregatedSeckey at h
  obtain ⟨g, -, h⟩ := Res.bind_eq_ok.1 h
  obtain ⟨d', -, h⟩ := Res.bind_eq_ok.1 h
  split at h
  · cases h
  rename_i hd
  rw [not_not] at hd
  cases h
  exact congrArg Subtype.val hd

/-- **C07**. It succeeds for the members' secret keys in order, in every reachable context. -/
theorem C07_seckey_complete (H : Hash) (ctx : KeyAggContext) (hc : Reachable H ctx) (sks : List Scalar)
    (hs : sks.map mulG = ctx.pubkeys) : ∃ d, ctx.aggregatedSeckey sks = .ok d := by
  have hi := hc.inv
  have hk : ctx.orderedPubkeys = sks.map mulG := hs.symm
  unfold KeyAggContext.aggregatedSeckey
  rw [seckeyLoop_eq, if_pos (by rw [hi.coeffs, hk]; simp)]
  simp only [List.drop_zero, zero_add, Res.bind_ok]
  set S := (List.zipWith (fun sk a => sk.1 * a) sks ctx.keyCoefficients).sum with hS
  have hG : S • G = keySum H ctx.orderedPubkeys := by
    rw [hS, hi.coeffs]
    unfold keySum
    rw [hk]
    exact zipWith_seckeys H (sks.map mulG) sks
  have hpub : (negIf ctx.parityAcc S + ctx.tweakAcc) • G = ctx.pubkey.1 := by
    rw [add_smul, ← negIf_smul, hG, hi.pub]
  have hne : negIf ctx.parityAcc S + ctx.tweakAcc ≠ 0 := by
    intro h0
    rw [h0, zero_smul] at hpub
    exact ctx.pubkey.2 hpub.symm
  have : notZero (negIf ctx.parityAcc S + ctx.tweakAcc) = some ⟨_, hne⟩ := notZero_eq_some.2 rfl
  rw [this, Res.okOr_some, Res.bind_ok, if_neg]
  · exact ⟨_, rfl⟩
  · rw [not_not]
    exact Subtype.ext hpub

/-- **C07**. More keys than members are an error, and it never panics. -/
theorem C07_seckey_too_many (H : Hash) (ctx : KeyAggContext) (hc : Reachable H ctx) (sks : List Scalar) :
    (ctx.pubkeys.length < sks.length → ctx.aggregatedSeckey sks = .err .invalidSecretKeysError) ∧
    ctx.aggregatedSeckey sks ≠ .panic := by
  have hi := hc.inv
  unfold KeyAggContext.aggregatedSeckey
  rw [seckeyLoop_eq]
  constructor
  · intro hl
    rw [if_neg]
    · rfl
    · rw [hi.coeffs]
      have : ctx.orderedPubkeys.length < sks.length := hl
      simp; omega
  · intro hp
    split at hp
    · rw [Res.bind_ok, Res.bind_eq_panic] at hp
      rcases hp with hp | ⟨_, -, hp⟩
      · exact Res.okOr_ne_panic hp
      · split at hp <;> cases hp
    · cases hp

/-- The members' secret keys of the example group are `1` and `-1`. -/
example : Reachable sha256 exCtx ∧
    [scalarOne, ⟨-1, neg_ne_zero.2 one_ne_zero⟩].map mulG = exCtx.pubkeys := by
  refine ⟨exCtx_reachable, ?_⟩
  simp only [List.map_cons, List.map_nil, exCtx, baseCtx, exKeys, KeyAggContext.pubkeys, List.cons.injEq, and_true]
  constructor
  · apply Subtype.ext; change (1 : MaybeScalar) • G = G; exact one_smul _ _
  · apply Subtype.ext; change (-1 : MaybeScalar) • G = -G; simp

/-! ## C08 -/

/-- **C08**, what holds: an accepted list has the same weighted sum as the true secret keys; so, in particular, a list
that differs from the true one in exactly one place (with nonzero coefficient there) is rejected. Missing: the full
statement, which is false (`C08_unaligned_accepted`). -/
theorem C08_aligned_partial (H : Hash) (ctx : KeyAggContext) (hc : Reachable H ctx) (pre post : List Scalar)
    (sk sk' : Scalar) (hs : (pre ++ sk :: post).map mulG = ctx.pubkeys) (hne : sk' ≠ sk)
    (hco : (ctx.keyCoefficient (mulG sk) : Res Unit _) ≠ .ok (some 0)) :
    ctx.aggregatedSeckey (pre ++ sk' :: post) = .err .invalidSecretKeysError := by
  have hi := hc.inv
  have hk : ctx.orderedPubkeys = (pre ++ sk :: post).map mulG := hs.symm
  have hmem : mulG sk ∈ ctx.orderedPubkeys := by rw [hk]; simp
  rw [hi.keyCoefficient_eq, if_pos hmem] at hco
  have hco : coeffOf H ctx.orderedPubkeys (mulG sk) ≠ 0 := by
    intro h; rw [h] at hco; exact hco rfl
  have hnp := (C07_seckey_too_many H ctx hc (pre ++ sk' :: post)).2
  cases hr : ctx.aggregatedSeckey (pre ++ sk' :: post) with
  | panic => exact absurd hr hnp
  | err e => cases e; rfl
  | ok d =>
    exfalso
    obtain ⟨d0, hd0⟩ := C07_seckey_complete H ctx hc _ hs
    have e1 := C07_seckey_sound _ _ _ hr
    have e2 := C07_seckey_sound _ _ _ hd0
    have hd : d = d0 := Subtype.ext (smul_G_inj.1 (e1.trans e2.symm))
    subst hd
    unfold KeyAggContext.aggregatedSeckey at hr hd0
    rw [seckeyLoop_eq, if_pos (by rw [hi.coeffs, hk]; simp)] at hr hd0
    simp only [List.drop_zero, zero_add, Res.bind_ok] at hr hd0
    obtain ⟨r1, hr1, hr⟩ := Res.bind_eq_ok.1 hr
    obtain ⟨r2, hr2, hd0⟩ := Res.bind_eq_ok.1 hd0
    rw [Res.okOr_eq_ok, notZero_eq_some] at hr1 hr2
    split at hr
    · cases hr
    split at hd0
    · cases hd0
    cases hr
    cases hd0
    have hsum := hr1.trans hr2.symm
    have hinj : ∀ a b : MaybeScalar, negIf ctx.parityAcc a = negIf ctx.parityAcc b → a = b := by
      intro a b hab
      cases hp : ctx.parityAcc <;> rw [hp] at hab <;> simpa using hab
    have hsum := hinj _ _ (add_right_cancel hsum)
    rw [hi.coeffs, hk] at hsum
    simp only [List.map_append, List.map_cons] at hsum
    have hlen : pre.length = ((pre.map mulG).map (coeffOf H (pre.map mulG ++ mulG sk :: post.map mulG))).length := by
      simp
    rw [List.zipWith_append hlen, List.zipWith_append hlen] at hsum
    simp only [List.zipWith_cons_cons, List.sum_append, List.sum_cons] at hsum
    have hsum := add_right_cancel (add_left_cancel hsum)
    rw [hk] at hco
    simp only [List.map_append, List.map_cons] at hco
    exact hne (Subtype.ext (mul_right_cancel₀ hco hsum))

/-- **C08 is false.** In every reachable context with at least two members in which the first coefficient is not
zero, a list with a single secret key is accepted. -/
theorem C08_unaligned_accepted (H : Hash) (ctx : KeyAggContext) (hc : Reachable H ctx) (first second : Point)
    (rest : List Point) (hk : ctx.pubkeys = first :: second :: rest)
    (hco : (ctx.keyCoefficient first : Res Unit _) ≠ .ok (some 0)) :
    ∃ sk : Scalar, (∃ d, ctx.aggregatedSeckey [sk] = .ok d) ∧ [sk].map mulG ≠ ctx.pubkeys := by
  have hi := hc.inv
  have hk' : ctx.orderedPubkeys = first :: second :: rest := hk
  rw [hi.keyCoefficient_eq, if_pos (by rw [hk']; simp)] at hco
  have hco : coeffOf H ctx.orderedPubkeys first ≠ 0 := by
    intro h; rw [h] at hco; exact hco rfl
  obtain ⟨S, hS⟩ := exists_dlog (keySum H ctx.orderedPubkeys)
  have hS0 : S ≠ 0 := by
    rintro rfl
    rw [zero_smul] at hS
    exact hi.sum_ne hS.symm
  refine ⟨⟨S * (coeffOf H ctx.orderedPubkeys first)⁻¹, mul_ne_zero hS0 (inv_ne_zero hco)⟩, ?_, by rw [hk]; simp⟩
  unfold KeyAggContext.aggregatedSeckey
  rw [seckeyLoop_eq, if_pos (by
    have : ctx.orderedPubkeys.length = rest.length + 2 := by rw [hk']; rfl
    rw [hi.coeffs, List.length_map, this, List.length_singleton]; omega)]
  have hz : (List.zipWith (fun (sk : Scalar) a => sk.1 * a)
      [(⟨S * (coeffOf H ctx.orderedPubkeys first)⁻¹, mul_ne_zero hS0 (inv_ne_zero hco)⟩ : Scalar)]
      (ctx.keyCoefficients.drop 0)).sum = S := by
    rw [hi.coeffs]
    rw [show ctx.orderedPubkeys.map (coeffOf H ctx.orderedPubkeys)
      = coeffOf H ctx.orderedPubkeys first :: (second :: rest).map (coeffOf H ctx.orderedPubkeys) by
        conv_lhs => rw [hk']
        rw [hk']; rfl]
    simp only [List.drop_zero, List.zipWith_cons_cons, List.zipWith_nil_left, List.sum_cons, List.sum_nil, add_zero]
    rw [mul_assoc, inv_mul_cancel₀ hco, mul_one]
  rw [hz, zero_add, Res.bind_ok]
  simp only
  have hpub : (negIf ctx.parityAcc S + ctx.tweakAcc) • G = ctx.pubkey.1 := by
    rw [add_smul, ← negIf_smul, hS, hi.pub]
  have hne : negIf ctx.parityAcc S + ctx.tweakAcc ≠ 0 := by
    intro h0
    rw [h0, zero_smul] at hpub
    exact ctx.pubkey.2 hpub.symm
  have : notZero (negIf ctx.parityAcc S + ctx.tweakAcc) = some ⟨_, hne⟩ := notZero_eq_some.2 rfl
  rw [this, Res.okOr_some, Res.bind_ok, if_neg]
  · exact ⟨_, rfl⟩
  · rw [not_not]
    exact Subtype.ext hpub

/-- The example group under SHA-256 is such a context. -/
example : ∃ sk : Scalar, (∃ d, exCtx.aggregatedSeckey [sk] = .ok d) ∧ [sk].map mulG ≠ exCtx.pubkeys := by
  refine C08_unaligned_accepted sha256 exCtx exCtx_reachable Gpt negGpt [] rfl ?_
  rw [exCtx_reachable.inv.keyCoefficient_eq, if_pos (by simp [exCtx, baseCtx, exKeys])]
  intro h
  simp only [Res.ok.injEq, Option.some.injEq] at h
  exact exCoeff_ne_zero (exKeys_coeff_G.symm.trans h)

/-! ## C09 -/

/-- **C09**. `with_taproot_tweak` gives the BIP341 output key for the current aggregate key, and fails exactly when
BIP341 does or the tweak hash is zero. -/
theorem C09_taproot_is_bip341 (H : Hash) (hH : TagsAgree H) (ctx : KeyAggContext) (root : Arr 32) :
    (∀ ctx', ctx.withTaprootTweak H root = .ok ctx' →
      Spec.taproot_tweak_pubkey H (Spec.xbytes ctx.aggregatedPubkey.1) root.1
        = some (!Spec.has_even_y ctx'.aggregatedPubkey.1, Spec.xbytes ctx'.aggregatedPubkey.1)) ∧
    (ctx.withTaprootTweak H root = .err .tweakError ↔
      Spec.taproot_tweak_pubkey H (Spec.xbytes ctx.aggregatedPubkey.1) root.1 = none ∨
      Spec.int_from_bytes (Spec.tagged_hash H "TapTweak" (Spec.xbytes ctx.aggregatedPubkey.1 ++ root.1)) = 0) ∧
    ctx.withTaprootTweak H root ≠ .panic :=
  taproot_internal_spec H hH ctx root.1

/-- **C09**, without a script tree: the hash is over the key alone. -/
theorem C09_unspendable_is_bip341 (H : Hash) (hH : TagsAgree H) (ctx : KeyAggContext) :
    (∀ ctx', ctx.withUnspendableTaprootTweak H = .ok ctx' →
      Spec.taproot_tweak_pubkey H (Spec.xbytes ctx.aggregatedPubkey.1) []
        = some (!Spec.has_even_y ctx'.aggregatedPubkey.1, Spec.xbytes ctx'.aggregatedPubkey.1)) ∧
    (ctx.withUnspendableTaprootTweak H = .err .tweakError ↔
      Spec.taproot_tweak_pubkey H (Spec.xbytes ctx.aggregatedPubkey.1) [] = none ∨
      Spec.int_from_bytes (Spec.tagged_hash H "TapTweak" (Spec.xbytes ctx.aggregatedPubkey.1 ++ [])) = 0) ∧
    ctx.withUnspendableTaprootTweak H ≠ .panic :=
  taproot_internal_spec H hH ctx []

example : TagsAgree sha256 := sha256_tagsAgree

/-! ## C13 -/

/-- **C13**. `==` on contexts, which looks at three fields only, is equality of all fields (hence equality of
whatever is computed from them). -/
theorem C13_eq_is_equality (H : Hash) (ctx ctx' : KeyAggContext) (h : Reachable H ctx) (h' : Reachable H ctx') :
    ctx.eq ctx' = true ↔ ctx = ctx' := by
  unfold KeyAggContext.eq
  simp only [Bool.and_eq_true, decide_eq_true_eq, beq_iff_eq]
  constructor
  · rintro ⟨⟨h1, h2⟩, h3⟩
    exact h.inv.ext h'.inv h1 h2 h3
  · rintro rfl
    exact ⟨⟨rfl, rfl⟩, rfl⟩

/-- Two reachable contexts with different histories: one made by `new`, one decoded. -/
example : Reachable sha256 exCtx ∧ ∃ ctx, KeyAggContext.fromBytes sha256 exCtx.toBytes = .ok ctx ∧
    Reachable sha256 ctx :=
  ⟨exCtx_reachable, exCtx, exCtx_reachable.inv.fromBytes_toBytes, exCtx_reachable⟩

/-! ## C14 -/

/-- **C14**. Contexts of sorted permutations are equal (or fail equally). -/
theorem C14_sorted_order_independent (H : Hash) (l1 l2 : List Point) (h : l1.Perm l2) :
    KeyAggContext.new H (sortKeys l1) = KeyAggContext.new H (sortKeys l2) ∧
    (sortKeys l1).Perm l1 ∧
    (sortKeys l1).Pairwise fun P Q => Spec.cbytes P.1 ≤ Spec.cbytes Q.1 := by
  refine ⟨by rw [sortKeys_perm h], List.mergeSort_perm _ _, ?_⟩
  have htr : ∀ a b c : Point, decide ((serPoint a.1).1 ≤ (serPoint b.1).1) = true →
      decide ((serPoint b.1).1 ≤ (serPoint c.1).1) = true → decide ((serPoint a.1).1 ≤ (serPoint c.1).1) = true := by
    intro a b c h1 h2
    simp only [decide_eq_true_eq] at *
    exact List.le_trans h1 h2
  have htot : ∀ a b : Point, (decide ((serPoint a.1).1 ≤ (serPoint b.1).1) ||
      decide ((serPoint b.1).1 ≤ (serPoint a.1).1)) = true := by
    intro a b
    simp only [Bool.or_eq_true, decide_eq_true_eq]
    exact List.le_total _ _
  have := List.pairwise_mergeSort htr htot l1
  refine List.Pairwise.imp ?_ this
  intro a b hab
  rw [spec_cbytes_point a, spec_cbytes_point b]
  simpa using hab

example : [Gpt, negGpt].Perm [negGpt, Gpt] := List.Perm.swap _ _ _

end Verif
