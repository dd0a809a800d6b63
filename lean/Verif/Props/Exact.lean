import Verif.Lemmas.Props.Exact
import Verif.Props.Group
import Verif.Props.Batch

/-!
# Properties C06, C08 (exact behaviour), C83, C84
-/

namespace Verif

/-! ## C06 -/

/-- **C06**, the exact behaviour. What `tweak_sum` reports is the sum of the tweaks, in which a tweak counts negatively
if an odd number of x-only tweaks of odd keys came after it. -/
theorem C06_tweak_sum_exact (ctx ctx' : KeyAggContext) (ts : List (Scalar × Bool)) (h0 : ctx.tweakAcc = 0)
    (h : ctx.withTweaks ts = .ok ctx') : ctx'.tweakSum = notZero (Spec.signedTweakSum ctx ts) := by
  suffices h : ctx'.tweakAcc = Spec.signedTweakSum ctx ts by unfold KeyAggContext.tweakSum; rw [h]
  induction ts using List.reverseRecOn generalizing ctx' with
  | nil =>
    simp only [KeyAggContext.withTweaks, Res.ok.injEq] at h
    subst h
    simp [Spec.signedTweakSum, h0]
  | append_singleton ts t ih =>
    obtain ⟨c, hc, ht⟩ := withTweaks_append.1 h
    obtain ⟨t, x⟩ := t
    obtain ⟨c', ht, hr⟩ := withTweaks_cons_eq_ok.1 ht
    cases hr
    have ih := ih c hc
    obtain ⟨Q, -, rfl⟩ := withTweak_eq_ok.1 ht
    simp only
    rw [signedTweakSum_step hc, ih]

/-- **C06**, what the value means. It links the tweaked key to the key before tweaking: the one is plus or minus the
other, plus `tweak_sum` times `G`. -/
theorem C06_tweak_sum_meaning (ctx ctx' : KeyAggContext) (ts : List (Scalar × Bool))
    (h : ctx.withTweaks ts = .ok ctx') :
    ctx'.aggregatedPubkey.1
      = ((-1 : MaybeScalar) ^ Spec.flipsFrom ctx ts 0) • ctx.aggregatedPubkey.1 + Spec.signedTweakSum ctx ts • G := by
  induction ts using List.reverseRecOn generalizing ctx' with
  | nil =>
    simp only [KeyAggContext.withTweaks, Res.ok.injEq] at h
    subst h
    have := flipsFrom_length ctx []
    rw [List.length_nil] at this
    rw [this]
    simp [Spec.signedTweakSum]
  | append_singleton ts t ih =>
    obtain ⟨c, hc, ht⟩ := withTweaks_append.1 h
    obtain ⟨t, x⟩ := t
    obtain ⟨c', ht, hr⟩ := withTweaks_cons_eq_ok.1 ht
    cases hr
    have ih := ih c hc
    obtain ⟨Q, hQ, rfl⟩ := withTweak_eq_ok.1 ht
    rw [signedTweakSum_step hc, flips_step hc t x 0 (by omega)]
    unfold KeyAggContext.aggregatedPubkey at ih ⊢
    rw [← hQ]
    generalize (x && isOdd c.pubkey.1) = b
    rw [ih]
    cases b
    · simp only [negIf_false, add_smul, add_assoc]
    · simp only [negIf_true, add_smul, neg_add, neg_smul, add_assoc]

/-- Tweaks of which one counts negatively. -/
example (ctx : KeyAggContext) (h0 : ctx.tweakAcc = 0) (hQ : ctx.aggregatedPubkey ≠ negGpt) :
    ∃ (ts : List (Scalar × Bool)) (ctx' : KeyAggContext), ctx.withTweaks ts = .ok ctx' ∧
      notZero (Spec.signedTweakSum ctx ts) ≠ notZero (docTweakSum ts) := by
  obtain ⟨ts, ctx', h, hne⟩ := C06_tweak_sum_not_sum ctx h0 hQ
  exact ⟨ts, ctx', h, by rwa [← C06_tweak_sum_exact ctx ctx' ts h0 h]⟩

/-! ## C08 -/

/-- **C08**, the exact behaviour. Let `a P` be the coefficients, and `true_sks` the members' secret keys, with aggregate
`d`. Exactly those lists of secret keys are accepted that are not longer than the list of members, and whose weighted
sum is the one of the true keys; and all of them give `d`. -/
theorem C08_accepted_iff (H : Hash) (ctx : KeyAggContext) (hc : Reachable H ctx) (a : Point → MaybeScalar)
    (ha : ∀ P ∈ ctx.pubkeys, (ctx.keyCoefficient P : Res Unit _) = .ok (some (a P)))
    (true_sks : List Scalar) (d : Scalar) (hs : true_sks.map mulG = ctx.pubkeys)
    (hd : ctx.aggregatedSeckey true_sks = .ok d) (sks : List Scalar) :
    ctx.aggregatedSeckey sks =
      if sks.length ≤ ctx.pubkeys.length ∧
        (List.zipWith (fun sk P => sk.1 * a P) sks ctx.pubkeys).sum
          = (List.zipWith (fun sk P => sk.1 * a P) true_sks ctx.pubkeys).sum
      then .ok d else .err .invalidSecretKeysError := by
  have hi := hc.inv
  have hk : ctx.orderedPubkeys = ctx.pubkeys := rfl
  have hco : ∀ l : List Scalar, List.zipWith (fun sk P => sk.1 * a P) l ctx.pubkeys
      = List.zipWith (fun sk a => sk.1 * a) l ctx.keyCoefficients := by
    have hmap : ctx.keyCoefficients = ctx.pubkeys.map a := by
      rw [hi.coeffs, hk]
      apply List.map_congr_left
      intro P hP
      have := ha P hP
      rw [hi.keyCoefficient_eq, if_pos (by rw [hk]; exact hP), hk] at this
      simpa using this
    intro l
    rw [hmap, List.zipWith_map_right]
  rw [hco, hco]
  have hdG := C07_seckey_sound _ _ _ hd
  have hlen : ctx.keyCoefficients.length = ctx.pubkeys.length := by rw [hi.coeffs, hk, List.length_map]
  unfold KeyAggContext.aggregatedSeckey at hd ⊢
  rw [seckeyLoop_eq] at hd ⊢
  rw [if_pos (by rw [hlen, ← hs]; simp)] at hd
  simp only [List.drop_zero, zero_add, Res.bind_ok, Nat.sub_zero, hlen] at hd ⊢
  obtain ⟨d', hd', hd⟩ := Res.bind_eq_ok.1 hd
  split at hd
  · cases hd
  rename_i hdp
  cases hd
  rw [Res.okOr_eq_ok, notZero_eq_some] at hd'
  by_cases hl : sks.length ≤ ctx.pubkeys.length
  · rw [if_pos hl]
    simp only [hl, true_and, Res.bind_ok]
    split
    · rename_i hsum
      rw [hsum, notZero_eq_some.2 hd', Res.okOr_some, Res.bind_ok, if_neg hdp]
      rfl
    · rename_i hsum
      cases hn : notZero (negIf ctx.parityAcc (List.zipWith (fun sk a => sk.1 * a) sks ctx.keyCoefficients).sum
        + ctx.tweakAcc) with
      | none => rfl
      | some d2 =>
        rw [Res.okOr_some, Res.bind_ok, if_pos]
        intro h2
        apply hsum
        have e2 := notZero_eq_some.1 hn
        have : d2 = d := mulG_injective (h2.trans (not_not.1 hdp).symm)
        rw [this] at e2
        have := add_right_cancel (e2.trans hd'.symm)
        cases hp : ctx.parityAcc <;> rw [hp] at this <;> simpa using this
  · rw [if_neg hl, if_neg fun h => hl h.1]
    rfl

/-- The members' secret keys of the example group, and their aggregate. -/
example : ∃ (a : Point → MaybeScalar) (sks : List Scalar) (d : Scalar), sks.length = 2 ∧ Reachable sha256 exCtx ∧
    (∀ P ∈ exCtx.pubkeys, (exCtx.keyCoefficient P : Res Unit _) = .ok (some (a P))) ∧
    sks.map mulG = exCtx.pubkeys ∧ exCtx.aggregatedSeckey sks = .ok d := by
  have hs : [scalarOne, ⟨-1, neg_ne_zero.2 one_ne_zero⟩].map mulG = exCtx.pubkeys := by
    simp only [List.map_cons, List.map_nil, exCtx, baseCtx, exKeys, KeyAggContext.pubkeys, List.cons.injEq, and_true]
    constructor
    · apply Subtype.ext; change (1 : MaybeScalar) • G = G; exact one_smul _ _
    · apply Subtype.ext; change (-1 : MaybeScalar) • G = -G; simp
  obtain ⟨d, hd⟩ := C07_seckey_complete sha256 exCtx exCtx_reachable _ hs
  refine ⟨coeffOf sha256 exCtx.pubkeys, _, d, rfl, exCtx_reachable, fun P hP => ?_, hs, hd⟩
  exact (exCtx_reachable.inv.keyCoefficient_eq P).trans (congrArg Res.ok (if_pos hP))

/-! ## C83 -/

/-- **C83**. A signature that is valid for one key and message is valid for another key and message exactly if the two
challenges carry the two (even) keys to the same point. -/
theorem C83_valid_for_another_iff (H : Hash) (hH : TagsAgree H) (P P' : Point) (sig : CompactSignature) (msg msg' : Bytes)
    (h : verifySingle H P sig msg = .ok ()) :
    verifySingle H P' sig msg' = .ok () ↔
      Spec.challengeBytes H sig.rx.1 P'.1 msg' • Spec.sgn P'.1 • P'.1
        = Spec.challengeBytes H sig.rx.1 P.1 msg • Spec.sgn P.1 • P.1 := by
  rw [spec_challengeBytes hH, spec_challengeBytes hH, sgn_smul, sgn_smul, ← toEvenY_val, ← toEvenY_val]
  obtain ⟨V, h1, h2, h3⟩ := verifySingle_eq_ok.1 h
  rw [verifySingle_eq_ok]
  constructor
  · rintro ⟨V', h1', h2', h3'⟩
    have hV : V.1 = V'.1 := eq_of_xonly_isOdd (h3.trans h3'.symm) (h2.trans h2'.symm)
    rw [h1, hV] at h1'
    exact (add_left_cancel h1').symm
  · intro he
    exact ⟨V, by rw [he]; exact h1, h2, h3⟩

/-- **C83**. So a signature binds its message: it is valid for another message exactly if the two challenge hashes agree
modulo the group order. -/
theorem C83_binds_message (H : Hash) (hH : TagsAgree H) (P : Point) (sig : CompactSignature) (msg msg' : Bytes)
    (h : verifySingle H P sig msg = .ok ()) :
    verifySingle H P sig msg' = .ok () ↔
      Spec.challengeBytes H sig.rx.1 P.1 msg' = Spec.challengeBytes H sig.rx.1 P.1 msg := by
  rw [C83_valid_for_another_iff H hH P P sig msg msg' h, sgn_smul, ← toEvenY_val, ← sub_eq_zero, ← sub_smul,
    smul_eq_zero_iff, sub_eq_zero]
  exact or_iff_left (toEvenY P).2

/-- A valid signature, and (under a constant hash) one valid for two messages. -/
example : ∃ (H : Hash) (P : Point) (sig : CompactSignature) (msg msg' : Bytes), TagsAgree H ∧ msg ≠ msg' ∧
    verifySingle H P sig msg = .ok () ∧ verifySingle H P sig msg' = .ok () := by
  obtain ⟨sig, hs, hv⟩ := C35_solo_signature_verifies stubHash scalarOne [] zeroSeed Unit
  have h : verifySingle stubHash (mulG scalarOne) sig.compact [] = .ok () := hv
  refine ⟨stubHash, _, _, [], [1], stubHash_tagsAgree, by simp, h, ?_⟩
  rw [C83_binds_message stubHash stubHash_tagsAgree _ _ _ _ h, spec_challengeBytes stubHash_tagsAgree,
    spec_challengeBytes stubHash_tagsAgree]
  unfold computeChallengeHashTweak
  rw [stubHash_tagHash _ (by decide), stubHash_tagHash _ (by decide)]

/-! ## C84 -/

/-- **C84**. Of all choices of the random coefficients at most one in `n - 1` makes a batch pass that has an invalid
item; it does not matter how many items there are, and how many of them are invalid. -/
theorem C84_few_coefficients_pass (H : Hash) (items : List BatchItem) (hw : ∀ x ∈ items, x.WellFormed)
    (hinv : ∃ x ∈ items, ¬ x.Valid H) :
    Nat.card {c : Fin (items.length - 1) → Scalar // verifyBatch H (coeffsRng c) (items.map (·.row H)) = .ok ()}
      * (orderN - 1) ≤ (orderN - 1) ^ (items.length - 1) := by
  rw [← card_scalar]
  by_cases hi : ∃ i x, 0 < i ∧ items[i]? = some x ∧ ¬ x.Valid H
  · obtain ⟨i, x, hi, hx, hv⟩ := hi
    have hlt : i - 1 < items.length - 1 := by
      have := (List.getElem?_eq_some_iff.1 hx).1
      omega
    have hwx := hw x (List.mem_of_getElem? hx)
    have hcard : Nat.card (Fin (items.length - 1) → Scalar) = Nat.card Scalar ^ (items.length - 1) := by
      rw [Nat.card_fun, Nat.card_fin]
    rw [← Nat.card_prod, ← hcard]
    apply Nat.card_le_card_of_injective
      fun cv => Function.update cv.1.1 ⟨i - 1, hlt⟩ cv.2
    rintro ⟨⟨c, hc⟩, v⟩ ⟨⟨c', hc'⟩, v'⟩ he
    simp only at he
    have hv' : v = v' := by simpa using congrFun he ⟨i - 1, hlt⟩
    have hother : ∀ j, j ≠ ⟨i - 1, hlt⟩ → c j = c' j := by
      intro j hj
      simpa [Function.update_of_ne hj] using congrFun he j
    have hsame := C49_at_most_one_coefficient H items i hi x hx hwx hv (coeffsRng c (zeroSeed)) (coeffsRng c' zeroSeed)
      (by
        intro j hj
        unfold coeffsRng
        split_ifs with hjm
        · exact hother _ fun h => hj (congrArg Fin.val h)
        · rfl) hc hc'
    have hcc : c = c' := by
      funext j
      by_cases hj : j = ⟨i - 1, hlt⟩
      · rw [hj]
        simpa [coeffsRng, hlt] using hsame
      · exact hother j hj
    subst hv' hcc
    rfl
  · have : IsEmpty {c : Fin (items.length - 1) → Scalar //
        verifyBatch H (coeffsRng c) (items.map (·.row H)) = .ok ()} := by
      constructor
      rintro ⟨c, hc⟩
      obtain ⟨x, hx, hxv⟩ := hinv
      cases items with
      | nil => simp at hx
      | cons y rest =>
        have hrest : ∀ z ∈ rest, z.Valid H := by
          intro z hz
          by_contra hzv
          obtain ⟨k, hk⟩ := List.getElem?_of_mem hz
          exact hi ⟨k + 1, z, by omega, by simpa using hk, hzv⟩
        have hy : ¬ y.Valid H := by
          rcases List.mem_cons.1 hx with rfl | hx
          · exact hxv
          · exact absurd (hrest x hx) hxv
        have := C48_single_invalid_rejected H (coeffsRng c) [] rest y (by simpa using hw) hy (by simp) hrest
        rw [List.nil_append, hc] at this
        cases this
    rw [Nat.card_of_isEmpty, zero_mul]
    exact Nat.zero_le _

/-- The bound is reached: two copies of an invalid item pass for one value of the single coefficient. -/
example (H : Hash) : ∃ (items : List BatchItem) (c : Fin (items.length - 1) → Scalar), items.length = 2 ∧
    (∀ x ∈ items, x.WellFormed) ∧ (∃ x ∈ items, ¬ x.Valid H) ∧
    verifyBatch H (coeffsRng c) (items.map (·.row H)) = .ok () := by
  obtain ⟨-, -, w, -, -, -, -, h5, h6, -, P, m, s, rfl⟩ := batch_examples H
  refine ⟨[.plain P m s, .plain P m s], fun _ => ⟨-1, neg_ne_zero.2 one_ne_zero⟩, rfl, by simpa using h5,
    ⟨_, by simp, h6⟩, ?_⟩
  rw [verifyBatch_eq_ok]
  simp only [List.map_cons, List.map_nil, batchDefect, batchCoeff, if_pos, scalarOne, coeffsRng]
  simp

end Verif
