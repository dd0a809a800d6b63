import Verif.Spec.Claims
import Mathlib.Data.List.Sort
import Verif.Lemmas.Reachable

/-!
# Lemmas and example data for `Props/KeyAgg`
-/

namespace Verif

theorem specCtx_agree (ctx : KeyAggContext) : CtxAgree (specCtx ctx) ctx := by
  refine ⟨rfl, ?_, ZMod.natCast_zmod_val _⟩
  unfold specCtx
  cases ctx.parityAcc
  · simp
  · simp only [if_true, negIf_true, cast_orderN_sub orderN_prime.one_lt.le, Nat.cast_one]

theorem apply_tweak_bounds {c c' : Spec.KeyAggCtx} {b : Bytes} {x : Bool} (h : Spec.apply_tweak c b x = some c') :
    c'.gacc < orderN ∧ c'.tacc < orderN := by
  unfold Spec.apply_tweak at h
  simp only at h
  generalize (if (x && !Spec.has_even_y c.Q) = true then orderN - 1 else 1) = g at h
  split_ifs at h <;>
    first
    | (simp only [Option.some.injEq] at h; subst h
       exact ⟨Nat.mod_lt _ orderN_prime.pos, Nat.mod_lt _ orderN_prime.pos⟩)
    | cases h

theorem eq_specCtx {c : Spec.KeyAggCtx} {ctx : KeyAggContext} (h : CtxAgree c ctx) (hg : c.gacc < orderN)
    (ht : c.tacc < orderN) : c = specCtx ctx := by
  obtain ⟨hQ, h1, h2⟩ := h
  obtain ⟨-, h1', h2'⟩ := specCtx_agree ctx
  have hval : ∀ a b : ℕ, a < orderN → b < orderN → (a : MaybeScalar) = (b : MaybeScalar) → a = b := by
    intro a b ha hb hab
    rwa [ZMod.natCast_eq_natCast_iff', Nat.mod_eq_of_lt ha, Nat.mod_eq_of_lt hb] at hab
  have hgs : (specCtx ctx).gacc < orderN := by
    unfold specCtx
    have := one_lt_orderN
    simp only
    split <;> omega
  obtain ⟨Q, g, t⟩ := c
  simp only at hg ht h1 h2
  have e1 := hval _ _ hg hgs (h1.trans h1'.symm)
  have e2 := hval _ _ ht (ZMod.val_lt ctx.tweakAcc) (h2.trans h2'.symm)
  rw [e1, e2]
  change Spec.KeyAggCtx.mk Q _ _ = _
  rw [show Q = ctx.aggregatedPubkey.1 from hQ]
  rfl

theorem specCtx_bounds (ctx : KeyAggContext) : (specCtx ctx).gacc < orderN ∧ (specCtx ctx).tacc < orderN := by
  constructor
  · unfold specCtx
    have := one_lt_orderN
    simp only
    split <;> omega
  · exact ZMod.val_lt ctx.tweakAcc

theorem foldlM_bounds {l : List (Bytes × Bool)} {c c' : Spec.KeyAggCtx}
    (hb : c.gacc < orderN ∧ c.tacc < orderN)
    (h : l.foldlM (m := Option) (fun c t => Spec.apply_tweak c t.1 t.2) c = some c') :
    c'.gacc < orderN ∧ c'.tacc < orderN := by
  induction l generalizing c with
  | nil => simp only [List.foldlM_nil, Option.pure_def, Option.some.injEq] at h; subst h; exact hb
  | cons a l ih =>
    rw [List.foldlM_cons, Option.bind_eq_bind, Option.bind_eq_some_iff] at h
    obtain ⟨c1, h1, h2⟩ := h
    exact ih (apply_tweak_bounds h1) h2

theorem seckeyLoop_eq (coeffs : List MaybeScalar) (sks : List Scalar) (i : ℕ) (acc : MaybeScalar) :
    KeyAggContext.seckeyLoop coeffs i sks acc
      = if sks.length ≤ coeffs.length - i then
          .ok (acc + (List.zipWith (fun sk a => sk.1 * a) sks (coeffs.drop i)).sum)
        else .err .invalidSecretKeysError := by
  induction sks generalizing i acc with
  | nil => simp [KeyAggContext.seckeyLoop]
  | cons sk sks ih =>
    rw [KeyAggContext.seckeyLoop]
    by_cases hi : i < coeffs.length
    · rw [List.getElem?_eq_getElem hi, Res.okOr_some, Res.bind_ok, ih]
      rw [List.drop_eq_getElem_cons hi, List.zipWith_cons_cons, List.sum_cons, List.length_cons]
      by_cases hl : sks.length ≤ coeffs.length - (i + 1)
      · rw [if_pos hl, if_pos (by omega), add_assoc]
      · rw [if_neg hl, if_neg (by omega)]
    · rw [List.getElem?_eq_none (by omega)]
      simp only [Res.okOr_none, Res.bind_err, List.length_cons]
      rw [if_neg (by omega)]

theorem zipWith_seckeys (H : Hash) (all : List Point) (sks : List Scalar) :
    ((List.zipWith (fun sk a => sk.1 * a) sks ((sks.map mulG).map (coeffOf H all))).sum) • G
      = ((sks.map mulG).map fun P => coeffOf H all P • P.1).sum := by
  induction sks with
  | nil => simp
  | cons sk sks ih =>
    simp only [List.map_cons, List.zipWith_cons_cons, List.sum_cons, add_smul, ih, mulG_val]
    rw [mul_comm, mul_smul]

theorem taproot_internal_spec (H : Hash) (hH : TagsAgree H) (ctx : KeyAggContext) (root : Bytes) :
    (∀ ctx', ctx.withTaprootTweakInternal H root = .ok ctx' →
      Spec.taproot_tweak_pubkey H (Spec.xbytes ctx.aggregatedPubkey.1) root
        = some (!Spec.has_even_y ctx'.aggregatedPubkey.1, Spec.xbytes ctx'.aggregatedPubkey.1)) ∧
    (ctx.withTaprootTweakInternal H root = .err .tweakError ↔
      Spec.taproot_tweak_pubkey H (Spec.xbytes ctx.aggregatedPubkey.1) root = none ∨
      Spec.int_from_bytes (Spec.tagged_hash H "TapTweak" (Spec.xbytes ctx.aggregatedPubkey.1 ++ root)) = 0) ∧
    ctx.withTaprootTweakInternal H root ≠ .panic := by
  unfold KeyAggContext.aggregatedPubkey KeyAggContext.withTaprootTweakInternal Spec.taproot_tweak_pubkey
  simp only
  rw [spec_xbytes, tagged_tapTweak hH]
  set th := tagHash H TAPROOT_TWEAK_TAG_DIGEST ((xonly ctx.pubkey.1).1 ++ root)
  have hx : Spec.lift_x (xonly ctx.pubkey.1).1 = some (negIf (isOdd ctx.pubkey.1) ctx.pubkey.1) := by
    rw [spec_lift_x_xonly, toEvenY_val]
  rw [hx]
  unfold Spec.int_from_bytes
  by_cases hn : beNat th.1 ≥ orderN
  · rw [if_pos hn]
    have hp : parseScalar th.1 = none := by
      unfold parseScalar parseMaybeScalar
      rw [if_neg (by omega)]; rfl
    rw [hp]
    simp
  · rw [if_neg hn]
    by_cases h0 : beNat th.1 = 0
    · have hp : parseScalar th.1 = none := by
        unfold parseScalar parseMaybeScalar
        rw [if_pos ⟨th.2, by omega⟩, h0]
        simp
      rw [hp]
      simp [h0]
    · have hcast : ((beNat th.1 : ℕ) : MaybeScalar) ≠ 0 := by
        rw [Ne, ZMod.natCast_eq_zero_iff]
        intro hd
        exact absurd (Nat.le_of_dvd (by omega) hd) (by omega)
      have hp : parseScalar th.1 = some ⟨_, hcast⟩ := by
        unfold parseScalar parseMaybeScalar
        rw [if_pos ⟨th.2, by omega⟩]
        exact notZero_eq_some.2 rfl
      rw [hp, Res.okOr_some, Res.bind_ok]
      simp only [Option.bind_eq_bind, Option.bind_some]
      have hG : beNat th.1 • Spec.G = ((beNat th.1 : ℕ) : MaybeScalar) • G := by rw [nsmul_eq, spec_G]
      rw [hG]
      have hx' : ctx.withXonlyTweak ⟨_, hcast⟩ = ctx.withTweak ⟨_, hcast⟩ true := rfl
      rw [hx']
      refine ⟨fun ctx' h => ?_, ?_, withTweak_ne_panic _ _ _⟩
      · obtain ⟨Q, hQ, rfl⟩ := withTweak_eq_ok.1 h
        simp only [Bool.true_and] at hQ
        rw [hQ, if_neg Q.2]
      · rw [withTweak_eq_err]
        simp only [Bool.true_and]
        by_cases hz : negIf (isOdd ctx.pubkey.1) ctx.pubkey.1 + ((beNat th.1 : ℕ) : MaybeScalar) • G = 0
        · simp [hz]
        · rw [if_neg hz]; simp [hz, h0]

theorem sortKeys_perm {l1 l2 : List Point} (h : l1.Perm l2) : sortKeys l1 = sortKeys l2 := by
  have htr : ∀ a b c : Point, decide ((serPoint a.1).1 ≤ (serPoint b.1).1) = true →
      decide ((serPoint b.1).1 ≤ (serPoint c.1).1) = true → decide ((serPoint a.1).1 ≤ (serPoint c.1).1) = true := by
    intro a b c h1 h2
    simp only [decide_eq_true_eq] at *
    exact List.le_trans h1 h2
  have htot : ∀ a b : Point, (decide ((serPoint a.1).1 ≤ (serPoint b.1).1) ||
      decide ((serPoint b.1).1 ≤ (serPoint a.1).1)) = true := by
    intro a b
    simp only [Bool.or_eq_true, decide_eq_true_eq]
    exact List.le_total _ _
  have hp : (sortKeys l1).Perm (sortKeys l2) :=
    ((List.mergeSort_perm l1 _).trans h).trans (List.mergeSort_perm l2 _).symm
  refine hp.eq_of_pairwise ?_ (List.pairwise_mergeSort htr htot l1) (List.pairwise_mergeSort htr htot l2)
  intro a b _ _ h1 h2
  simp only [decide_eq_true_eq] at h1 h2
  exact serPoint_point_inj.1 (List.le_antisymm h1 h2)

end Verif
