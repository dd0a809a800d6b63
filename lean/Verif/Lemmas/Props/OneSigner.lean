import Verif.Spec.OneSigner
import Verif.Lemmas.Spread
import Verif.Lemmas.Props.Decision
import Verif.Lemmas.Props.SessionForger
import Verif.Lemmas.Props.Uniform
import Verif.Lemmas.Props.Exact
import Verif.Props.Group
import Verif.Lemmas.Props.Cancel

/-!
# Helpers of `Props/OneSigner`
-/

namespace Verif.OneSigner

open Verif.CmaForger Verif.Decision

/-! ## Chances -/

open Classical in
theorem chance_eq_sum {Ω : Type} [Fintype Ω] (E : Ω → Prop) :
    Spec.chance E = (∑ ω, if E ω then (1 : ℚ) else 0) / Fintype.card Ω := by
  unfold Spec.chance
  rw [Nat.card_eq_fintype_card, Set.ncard_eq_toFinset_card', Finset.sum_boole]
  congr 3
  ext ω
  simp

/-- Values computed from the entries of a random table, in terms of chances. -/
theorem spread_chance {ι α K F : Type} [Finite ι] [Finite α] [Nonempty α] [Finite K] [Nonempty K] [Fintype F] [DecidableEq F] (A : K → ι)
    (hA : Function.Injective A) (g : K → α → F) (S : (ι → α) → Set F) {δ η : ℚ} (hδ : 0 ≤ δ)
    (hδ2 : (Nat.card F : ℚ) ≤ δ ^ 2 * Nat.card K)
    (hη : ∀ [Fintype α] [Fintype K], ∑ p, ∑ c, |Spread.weight g p c - 1 / Nat.card F| ≤ η * Nat.card K) :
    |(Spec.chance fun q : (ι → α) × K => g q.2 (q.1 (A q.2)) ∈ S q.1) - Spec.chance fun q : (ι → α) × F => q.2 ∈ S q.1|
      ≤ δ + η := by
  classical
  letI := Fintype.ofFinite ι
  letI := Fintype.ofFinite α
  letI := Fintype.ofFinite K
  have hT : (0 : ℚ) < Fintype.card (ι → α) := by exact_mod_cast Fintype.card_pos
  have hK : (0 : ℚ) < Fintype.card K := by exact_mod_cast Fintype.card_pos
  have h := Spread.spread A hA g S hδ (by rwa [← Nat.card_eq_fintype_card, ← Nat.card_eq_fintype_card])
    (by have := hη; rwa [Nat.card_eq_fintype_card, Nat.card_eq_fintype_card] at this)
  rw [chance_eq_sum, chance_eq_sum, Fintype.sum_prod_type, Fintype.sum_prod_type, Fintype.card_prod, Fintype.card_prod,
    Nat.cast_mul, Nat.cast_mul]
  have hp : 0 < (Fintype.card (ι → α) : ℚ) * Fintype.card K := mul_pos hT hK
  rw [← mul_le_mul_iff_left₀ hp, ← abs_of_pos hp, ← abs_mul, abs_of_pos hp]
  refine le_of_eq_of_le (congrArg abs ?_) h
  rw [← Finset.mul_sum, ← Finset.sum_div]
  field_simp

/-- Hashing and reducing instead of drawing a scalar. -/
theorem chance_reduceOrOne {Ω : Type} [Finite Ω] [Nonempty Ω] (E : Ω → Scalar → Prop) :
    |(Spec.chance fun q : Ω × Arr 32 => E q.1 (SecNonceBuilder.reduceOrOne q.2)) - Spec.chance fun q : Ω × Scalar => E q.1 q.2|
      ≤ 1 / 2 ^ 127 := by
  letI := Fintype.ofFinite Ω
  have hΩ : (0 : ℚ) < Fintype.card Ω := by exact_mod_cast Fintype.card_pos
  rw [chance_prod (fun ω h => E ω (SecNonceBuilder.reduceOrOne h)), chance_prod, ← sub_div, ← Finset.sum_sub_distrib, abs_div,
    abs_of_pos hΩ, div_le_iff₀ hΩ]
  refine (Finset.abs_sum_le_sum_abs _ _).trans ?_
  calc _ ≤ ∑ _ω : Ω, (1 : ℚ) / 2 ^ 127 := by
        refine Finset.sum_le_sum fun ω _ => ?_
        have := (prob_reduceOrOne {k | E ω k}).le
        unfold Spec.prob Spec.share at this
        unfold Spec.chance
        rw [arr_card]
        have e : ((256 ^ 32 : ℕ) : ℚ) = 2 ^ 256 := by norm_num
        rw [e, card_scalar]
        exact this
    _ = _ := by rw [Finset.sum_const, Finset.card_univ, nsmul_eq_mul, mul_comm]

/-! ## The nonce of a session -/

/-- The discrete logarithm of the session nonce: the others have the nonces `r`, the member `p`, and the answer for the nonce
coefficient is `a`. -/
def value (r : MaybeScalar × MaybeScalar) (p : Scalar × Scalar) (a : Arr 32) : MaybeScalar :=
  (r.1 + p.1.1) + reduceFrom a * (r.2 + p.2.1)

/-- The answers that reduce to `x`. -/
theorem one_le_count [Fintype (Arr 32)] (x : MaybeScalar) : (1 : ℚ) ≤ ∑ a : Arr 32, if reduceFrom a = x then (1 : ℚ) else 0 := by
  have hx : reduceFrom (serScalar x) = x := by
    unfold reduceFrom serScalar beArr
    rw [beNat_beBytes_of_lt ((ZMod.val_lt x).trans orderN_lt)]
    exact ZMod.natCast_zmod_val x
  have := Finset.single_le_sum (f := fun a : Arr 32 => if reduceFrom a = x then (1 : ℚ) else 0)
    (fun a _ => by split <;> norm_num) (Finset.mem_univ (serScalar x))
  simpa only [hx, if_true] using this

theorem card_arr [Fintype (Arr 32)] : (Fintype.card (Arr 32) : ℚ) = 2 ^ 256 := by
  rw [← Nat.card_eq_fintype_card, arr_card]
  norm_num

/-- The answers are spread almost evenly. -/
theorem bias [Fintype (Arr 32)] :
    ∑ x : MaybeScalar, |(∑ a : Arr 32, if reduceFrom a = x then (1 : ℚ) else 0) / Fintype.card (Arr 32) - 1 / orderN|
      ≤ 1 / 2 ^ 126 := by
  rw [card_arr]
  have hn0 : (0 : ℚ) < orderN := by exact_mod_cast orderN_prime.pos
  have e : ((256 ^ 32 : ℕ) : ℚ) = 2 ^ 256 := by norm_num
  have hlt : (orderN : ℚ) < 2 ^ 256 := by rw [← e]; exact_mod_cast orderN_lt
  have hcl : (2 : ℚ) ^ 256 < orderN + 2 ^ 129 := by
    rw [← e]
    have := orderN_close
    exact_mod_cast (by omega : 256 ^ 32 < orderN + 2 ^ 129)
  have hs : ∑ x : MaybeScalar, (∑ a : Arr 32, if reduceFrom a = x then (1 : ℚ) else 0) = 2 ^ 256 := by
    rw [Finset.sum_comm]
    simp only [Finset.sum_ite_eq, Finset.mem_univ, if_true, Finset.sum_const, Finset.card_univ, nsmul_eq_mul, mul_one]
    exact card_arr
  have hcard : ((Finset.univ : Finset MaybeScalar).card : ℚ) = orderN := by
    rw [Finset.card_univ, ZMod.card]
  have hB : (2 : ℚ) ^ 129 = 2 ^ 256 / 2 ^ 127 := by norm_num
  rw [hB] at hcl
  generalize (2 : ℚ) ^ 256 = W at *
  generalize (orderN : ℚ) = n at *
  have hW : 0 < W := hn0.trans hlt
  calc _ ≤ ∑ x : MaybeScalar, (((∑ a : Arr 32, if reduceFrom a = x then (1 : ℚ) else 0) - 1) / W + (1 / n - 1 / W)) := by
        refine Finset.sum_le_sum fun x _ => ?_
        have h1 := one_le_count x
        generalize (∑ a : Arr 32, if reduceFrom a = x then (1 : ℚ) else 0) = N at *
        have h2 : 0 ≤ (N - 1) / W := div_nonneg (by linarith) hW.le
        have h3 : 0 ≤ 1 / n - 1 / W := sub_nonneg.2 (one_div_le_one_div_of_le hn0 hlt.le)
        have h4 : N / W - 1 / n = (N - 1) / W - (1 / n - 1 / W) := by ring
        rw [h4, abs_le]
        constructor <;> linarith
    _ = 2 * ((W - n) / W) := by
        rw [Finset.sum_add_distrib, ← Finset.sum_div, Finset.sum_sub_distrib, hs, Finset.sum_const, Finset.sum_const,
          nsmul_eq_mul, nsmul_eq_mul, hcard]
        field_simp
        ring
    _ ≤ 1 / 2 ^ 126 := by
        have h5 : (W - n) / W ≤ 1 / 2 ^ 127 := by
          rw [div_le_iff₀ hW]
          linarith
        calc 2 * ((W - n) / W) ≤ 2 * (1 / 2 ^ 127) := by linarith
          _ = _ := by norm_num

theorem value_bias [Fintype (Arr 32)] (r : MaybeScalar × MaybeScalar) (p : Scalar × Scalar) (h : r.2 + p.2.1 ≠ 0) :
    ∑ c, |Spread.weight (value r) p c - 1 / orderN| ≤ 1 / 2 ^ 126 := by
  have hc : ∀ x : MaybeScalar, Spread.weight (value r) p ((r.1 + p.1.1) + x * (r.2 + p.2.1))
      = (∑ a : Arr 32, if reduceFrom a = x then (1 : ℚ) else 0) / Fintype.card (Arr 32) := by
    intro x
    unfold Spread.weight value
    congr 1
    refine Finset.sum_congr rfl fun a _ => ?_
    simp only [add_right_inj, mul_left_inj' h]
  have hb : Function.Bijective fun x : MaybeScalar => (r.1 + p.1.1) + x * (r.2 + p.2.1) := by
    constructor
    · intro x y hxy
      exact mul_right_cancel₀ h (add_left_cancel hxy)
    · intro c
      refine ⟨(c - (r.1 + p.1.1)) / (r.2 + p.2.1), ?_⟩
      dsimp only
      rw [div_mul_cancel₀ _ h]
      ring
  rw [← hb.sum_comp fun c => |Spread.weight (value r) p c - 1 / orderN|]
  simp only [hc]
  exact bias

theorem value_bias_le [Fintype (Arr 32)] (r : MaybeScalar × MaybeScalar) (p : Scalar × Scalar) :
    ∑ c, |Spread.weight (value r) p c - 1 / orderN| ≤ 2 := by
  have : Nonempty (Arr 32) := ⟨zeroSeed⟩
  have hn0 : (0 : ℚ) < orderN := by exact_mod_cast orderN_prime.pos
  calc _ ≤ ∑ c, (Spread.weight (value r) p c + 1 / orderN) := by
        refine Finset.sum_le_sum fun c _ => ?_
        have h1 := Spread.weight_nonneg (value r) p c
        have h2 : (0 : ℚ) ≤ 1 / orderN := by positivity
        rw [abs_le]
        constructor <;> linarith
    _ = 2 := by
        rw [Finset.sum_add_distrib, Spread.sum_weight, Finset.sum_const, Finset.card_univ, ZMod.card, nsmul_eq_mul,
          mul_one_div_cancel hn0.ne']
        norm_num

/-- All nonces of the member taken together. -/
theorem total_bias [Fintype (Arr 32)] [Fintype (Scalar × Scalar)] (r : MaybeScalar × MaybeScalar) :
    ∑ p, ∑ c, |Spread.weight (value r) p c - 1 / Nat.card MaybeScalar|
      ≤ (1 / 2 ^ 126 + 2 / (orderN - 1 : ℕ)) * Nat.card (Scalar × Scalar) := by
  classical
  letI : Fintype Scalar := Fintype.ofFinite _
  have hn1 : (0 : ℚ) < (orderN - 1 : ℕ) := by
    have := one_lt_orderN
    exact_mod_cast (by omega : 0 < orderN - 1)
  have hcard : Fintype.card Scalar = orderN - 1 := by rw [← Nat.card_eq_fintype_card, card_scalar]
  rw [show Nat.card MaybeScalar = orderN from Nat.card_zmod _, Nat.card_prod, card_scalar, Nat.cast_mul]
  have hsum : ∀ f : Scalar × Scalar → ℚ, ∑ p, f p = ∑ k1 : Scalar, ∑ k2 : Scalar, f (k1, k2) := by
    intro f
    convert Fintype.sum_prod_type f
  rw [hsum]
  have hin : ∀ k1 : Scalar, ∑ k2 : Scalar, ∑ c, |Spread.weight (value r) (k1, k2) c - 1 / orderN|
      ≤ (orderN - 1 : ℕ) * (1 / 2 ^ 126 : ℚ) + 2 := by
    intro k1
    have hle : ∀ k2 : Scalar, ∑ c, |Spread.weight (value r) (k1, k2) c - 1 / orderN|
        ≤ 1 / 2 ^ 126 + if r.2 + k2.1 = 0 then (2 : ℚ) else 0 := by
      intro k2
      split
      · have := value_bias_le r (k1, k2)
        have h0 : (0 : ℚ) ≤ 1 / 2 ^ 126 := by positivity
        linarith
      · rename_i h
        rw [add_zero]
        exact value_bias r (k1, k2) h
    refine (Finset.sum_le_sum fun k2 _ => hle k2).trans ?_
    rw [Finset.sum_add_distrib, Finset.sum_const, Finset.card_univ, hcard, nsmul_eq_mul]
    refine add_le_add le_rfl ?_
    by_cases hr : r.2 = 0
    · rw [Finset.sum_eq_zero]
      · norm_num
      · intro k2 _
        rw [if_neg]
        rw [hr, zero_add]
        exact k2.2
    · have hr' : -r.2 ≠ 0 := neg_ne_zero.2 hr
      rw [Finset.sum_eq_single (⟨-r.2, hr'⟩ : Scalar)]
      · split <;> norm_num
      · intro k2 _ hk
        rw [if_neg]
        intro h
        exact hk (Subtype.ext (by rw [eq_neg_iff_add_eq_zero, add_comm]; exact h))
      · intro h
        exact absurd (Finset.mem_univ _) h
  refine (Finset.sum_le_sum fun k1 _ => hin k1).trans ?_
  rw [Finset.sum_const, Finset.card_univ, hcard, nsmul_eq_mul]
  have : (2 : ℚ) / (orderN - 1 : ℕ) * ((orderN - 1 : ℕ) * (orderN - 1 : ℕ)) = 2 * (orderN - 1 : ℕ) := by
    field_simp
  rw [add_mul, this]
  generalize ((orderN - 1 : ℕ) : ℚ) = m
  generalize (1 : ℚ) / 2 ^ 126 = ε
  exact le_of_eq (by ring)

theorem enough : (Nat.card MaybeScalar : ℚ) ≤ (1 / 2 ^ 127) ^ 2 * Nat.card (Scalar × Scalar) := by
  rw [show Nat.card MaybeScalar = orderN from Nat.card_zmod _, Nat.card_prod, card_scalar]
  have h : orderN * 2 ^ 254 ≤ (orderN - 1) * (orderN - 1) := by decide +kernel
  have hq : (orderN : ℚ) * 2 ^ 254 ≤ ((orderN - 1) * (orderN - 1) : ℕ) := by exact_mod_cast h
  have e : ((1 : ℚ) / 2 ^ 127) ^ 2 = 1 / 2 ^ 254 := by norm_num
  rw [e, div_mul_eq_mul_div, one_mul, le_div_iff₀ (by positivity)]
  exact hq

/-! ## The hash functions -/

section

variable (H : Hash) (Q : Point) (msg : Bytes) (B : AggNonce → Arr 32)

theorem withCoefficients_query (an : AggNonce) :
    Spec.withCoefficients H Q msg B (Spec.noncecoefQuery an Q msg) = B an := by
  have h : ∃ an', Spec.noncecoefQuery an Q msg = Spec.noncecoefQuery an' Q msg := ⟨an, rfl⟩
  unfold Spec.withCoefficients
  rw [dif_pos h]
  have := h.choose_spec
  unfold Spec.noncecoefQuery at this
  exact congrArg B (C66_inputs_determined.2.1 _ _ _ _ _ _ this).1.symm

theorem withCoefficients_of_not {x : Bytes} (hx : ¬ Asking.DrawnNonce x) : Spec.withCoefficients H Q msg B x = H x := by
  unfold Spec.withCoefficients
  rw [dif_neg]
  rintro ⟨an, rfl⟩
  exact hx (Asking.drawnNonce_noncecoefQuery _ _ _)

theorem withCoefficients_nonceCoefficient (an : AggNonce) :
    an.nonceCoefficient (Spec.withCoefficients H Q msg B) Q msg = reduceFrom (B an) := by
  rw [(C66_what_is_hashed _).2.2.1]
  exact congrArg reduceFrom (withCoefficients_query H Q msg B an)

theorem withCoefficients_ctxInv {ctx : KeyAggContext} (hi : CtxInv H ctx) : CtxInv (Spec.withCoefficients H Q msg B) ctx :=
  SessionForger.ctxInv_congr (fun _ _ hx => withCoefficients_of_not H Q msg B hx) hi

theorem noncecoefQuery_length (an : AggNonce) : 64 ≤ (Spec.noncecoefQuery an Q msg).length := by
  unfold Spec.noncecoefQuery
  rw [taggedInput_eq (D := MUSIG_NONCECOEF_TAG_DIGEST) (by simp [tagTable])]
  simp only [List.length_append]
  have : MUSIG_NONCECOEF_TAG_DIGEST.length = 32 := rfl
  omega

theorem withCoefficients_tagsAgree (hH : TagsAgree H) : TagsAgree (Spec.withCoefficients H Q msg B) := by
  have key : ∀ t : Bytes, t.length < 64 → Spec.withCoefficients H Q msg B t = H t := by
    intro t ht
    unfold Spec.withCoefficients
    rw [dif_neg]
    rintro ⟨an, rfl⟩
    have := noncecoefQuery_length Q msg an
    omega
  constructor <;> rw [key _ (by decide +kernel)]
  exacts [hH.keyAggList, hH.keyAggCoeff, hH.musigAux, hH.musigNonce, hH.musigNoncecoef, hH.bip340Aux, hH.bip340Nonce,
    hH.bip340Challenge, hH.bip340Batch, hH.tapTweak]

end

/-! ## One session -/

/-- The sums of the secret nonces. -/
def total (nonces : List SecNonce) : MaybeScalar × MaybeScalar :=
  ((nonces.map fun n => n.k1.1).sum, (nonces.map fun n => n.k2.1).sum)

theorem sum_public (nonces : List SecNonce) :
    AggNonce.sum (nonces.map SecNonce.publicNonce) = ⟨(total nonces).1 • G, (total nonces).2 • G⟩ := by
  have hs : ∀ f : SecNonce → MaybeScalar, (nonces.map fun n => f n • G).sum = (nonces.map f).sum • G := by
    intro f
    induction nonces with
    | nil => simp
    | cons n l ih => simp [add_smul, ih]
  rw [AggNonce.sum_eq, List.map_map, List.map_map]
  unfold total
  rw [← hs, ← hs]
  rfl

theorem signWith_eq (H : Hash) (hH : TagsAgree H) (d k : Scalar) (msg : Bytes) :
    Spec.signWith H d k msg = (xonly (mulG k).1).1 ++ (serScalar (Spec.sgn (mulG k).1 * k.1
      + computeChallengeHashTweak H (xonly (mulG k).1) (mulG d) msg * (Spec.sgn (mulG d).1 * d.1))).1 := by
  unfold Spec.signWith
  rw [spec_G]
  change Spec.xbytes (mulG k).1 ++ Spec.bytes_from_int (Spec.sgn (mulG k).1 * k.1
    + Spec.challenge H (mulG k).1 (mulG d).1 msg * (Spec.sgn (mulG d).1 * d.1)).val = _
  rw [spec_challenge hH, spec_xbytes, spec_bytes_from_int _ (ZMod.val_lt _), ZMod.natCast_zmod_val]

section

variable {H : Hash} {ctx : KeyAggContext} {sks : List Scalar} {d : Scalar} (hH : TagsAgree H) (hi : CtxInv H ctx)
  (hk : ctx.pubkeys = sks.map mulG) (hd : ctx.aggregatedSeckey sks = .ok d) {nonces : List SecNonce}
  (hl : nonces.length = sks.length) (msg : Bytes)

include hH hd in
/-- A signature that verifies is determined by its nonce. -/
theorem verified_bytes {k : Scalar} {sig : LiftedSignature} (hs : sig.R = toEvenY (mulG k))
    (hv : verifySingleLifted H ctx.pubkey sig msg = .ok ()) : sig.toBytes = Spec.signWith H d k msg := by
  have hev : isOdd sig.R.1 = false := by rw [hs, isOdd_toEvenY]
  have hdp : mulG d = ctx.pubkey := Subtype.ext (C07_seckey_sound ctx sks d hd)
  rw [verifySingleLifted_eq_ok hev, ← hdp, hs, toEvenY_val, toEvenY_val, xonly_negIf, ← sgn_smul, ← sgn_smul, mulG_val,
    mulG_val, ← mul_smul, ← mul_smul, ← mul_smul, ← add_smul, smul_G_inj] at hv
  rw [signWith_eq H hH]
  change (xonly sig.R.1).1 ++ (serScalar sig.s).1 = _
  rw [hs, xonly_toEvenY, hv, mul_assoc]
  rfl

include hi hk hl in
theorem aggregates (T : MaybePoint) (an : AggNonce) (han : an = AggNonce.sum (nonces.map SecNonce.publicNonce))
    (hR : an.R1 + an.nonceCoefficient H ctx.pubkey msg • an.R2 ≠ 0) :
    ∃ (sigs : List PartialSignature) (asig : AdaptorSignature),
      List.Forall₂ (fun (m : Scalar × SecNonce) s => signPartialAdaptor H ctx m.1 m.2 an T msg = .ok s) (sks.zip nonces) sigs ∧
      aggregatePartialAdaptorSignatures H ctx an T sigs msg = .ok asig := by
  have hk' : ctx.orderedPubkeys = sks.map mulG := hk
  have hl1 : ((sks.zip nonces).map fun m => (mulG m.1, m.2.publicNonce)).map (·.1) = ctx.orderedPubkeys := by
    rw [List.map_map, hk']
    change (sks.zip nonces).map (mulG ∘ Prod.fst) = _
    rw [← List.map_map, List.map_fst_zip hl.ge]
  have hl2 : ((sks.zip nonces).map fun m => (mulG m.1, m.2.publicNonce)).map (·.2) = nonces.map SecNonce.publicNonce := by
    rw [List.map_map]
    change (sks.zip nonces).map (SecNonce.publicNonce ∘ Prod.snd) = _
    rw [← List.map_map, List.map_snd_zip hl.le]
  have hag := agg_verifies hi T msg _ ((sks.zip nonces).map fun m => partialSigValue H ctx m.1 m.2 an T msg) hl1
    (by
      rw [hl2, ← han, List.map_map, List.map_map]
      exact List.map_congr_left fun m _ => partialSigValue_smul _ _ _ _ _ _ _) (by rw [hl2, ← han]; exact hR)
  rw [hl2, ← han] at hag
  generalize hsl : ((sks.zip nonces).map fun m => partialSigValue H ctx m.1 m.2 an T msg) = sl at hag
  refine ⟨sl, ⟨(sessionR H ctx an msg).1, aggValue H ctx an T sl msg⟩, ?_, by rw [aggregateAdaptor_eq, if_pos hag]⟩
  subst hsl
  rw [List.forall₂_map_right_iff]
  have hm : ∀ m ∈ sks.zip nonces, signPartialAdaptor H ctx m.1 m.2 an T msg = .ok (partialSigValue H ctx m.1 m.2 an T msg) := by
    intro m hm
    rw [signPartialAdaptor_eq hi, if_pos]
    rw [hk']
    exact List.mem_map_of_mem (List.of_mem_zip hm).1
  generalize sks.zip nonces = l at hm
  induction l with
  | nil => exact .nil
  | cons m l ih => exact .cons (hm m (.head _)) (ih fun m' h => hm m' (.tail _ h))

/-- The adaptor signature of a group, completed. -/
theorem groupSigns_iff {sig : LiftedSignature} :
    Spec.GroupSigns H ctx sks nonces msg sig ↔ Spec.GroupSignsAdapted H ctx sks nonces 0 msg sig := by
  unfold Spec.GroupSigns Spec.GroupSignsAdapted aggregatePartialSignatures signPartial
  rw [spec_G, zero_smul]
  refine exists_congr fun sigs => and_congr Iff.rfl ?_
  rw [Res.bind_eq_ok]
  refine exists_congr fun asig => and_congr Iff.rfl ?_
  cases asig.adapt 0 <;> simp [Res.unwrap]

include hH hi hk hd hl in
/-- With a session nonce that is not zero the group makes the signature of one signer with that nonce. -/
theorem session (D : Bytes → Prop) {c t : MaybeScalar} (hc : c ≠ 0) (hct : c + t ≠ 0)
    (hcv : c = (total nonces).1
      + (AggNonce.sum (nonces.map SecNonce.publicNonce)).nonceCoefficient H ctx.pubkey msg * (total nonces).2) :
    (∃ sig, Spec.GroupSignsAdapted H ctx sks nonces t msg sig ∧ D sig.toBytes) ↔ D (Spec.signWith H d ⟨c + t, hct⟩ msg) := by
  have hsum : (AggNonce.sum (nonces.map SecNonce.publicNonce)).R1
      + (AggNonce.sum (nonces.map SecNonce.publicNonce)).nonceCoefficient H ctx.pubkey msg
        • (AggNonce.sum (nonces.map SecNonce.publicNonce)).R2 = c • G := by
    rw [hcv]
    generalize hb : (AggNonce.sum (nonces.map SecNonce.publicNonce)).nonceCoefficient H ctx.pubkey msg = b
    rw [sum_public, add_smul, mul_smul]
  have hne : (c • G : MaybePoint) ≠ 0 := (mulG ⟨c, hc⟩).2
  have hR : (sessionR H ctx (AggNonce.sum (nonces.map SecNonce.publicNonce)) msg).1 = c • G := by
    unfold sessionR
    rw [finalNonce_eq_of_ne (by rw [hsum]; exact hne), hsum]
  have hbytes : ∀ sigs asig sig, aggregatePartialAdaptorSignatures H ctx (AggNonce.sum (nonces.map SecNonce.publicNonce))
      (t • G) sigs msg = .ok asig → asig.adapt t = some sig → sig.toBytes = Spec.signWith H d ⟨c + t, hct⟩ msg := by
    intro sigs asig sig ha hs
    obtain ⟨rfl, hv⟩ := aggregateAdaptor_eq_ok.1 ha
    refine verified_bytes hH hd msg ?_ ((verify_adapt hs).2 hv)
    obtain ⟨R, h1, h2, -⟩ := adapt_eq_some.1 hs
    rw [h2]
    congr 1
    apply Subtype.ext
    rw [h1, mulG_val, hR, add_smul]
  unfold Spec.GroupSignsAdapted
  rw [spec_G]
  constructor
  · rintro ⟨sig, ⟨sigs, -, asig, ha, hs⟩, hD⟩
    rwa [← hbytes sigs asig sig ha hs]
  · intro hD
    obtain ⟨sigs, asig, h1, h2⟩ := aggregates hi hk hl msg (t • G) _ rfl (by rw [hsum]; exact hne)
    have hRT : asig.R + t • G = (mulG ⟨c + t, hct⟩).1 := by
      rw [(aggregateAdaptor_eq_ok.1 h2).1, mulG_val, hR, add_smul]
    have hs : ∃ sig, asig.adapt t = some sig := by
      unfold AdaptorSignature.adapt
      rw [hRT, notInf_val]
      exact ⟨_, rfl⟩
    obtain ⟨sig, hs⟩ := hs
    exact ⟨sig, ⟨sigs, h1, asig, h2, hs⟩, by rwa [hbytes sigs asig sig h2 hs]⟩

end

/-! ## All sessions -/

instance : Finite AggNonce :=
  Finite.of_injective (fun an : AggNonce => (an.R1, an.R2)) fun a b h => by
    cases a; cases b; simpa using h

/-- The sum of the public nonces when the member has the secret nonces `p`, and the others `r` in total. -/
def place (r : MaybeScalar × MaybeScalar) (p : Scalar × Scalar) : AggNonce := ⟨(r.1 + p.1.1) • G, (r.2 + p.2.1) • G⟩

theorem place_injective (r : MaybeScalar × MaybeScalar) : Function.Injective (place r) := by
  intro p q h
  simp only [place, AggNonce.mk.injEq, smul_G_inj, add_right_inj] at h
  exact Prod.ext (Subtype.ext h.1) (Subtype.ext h.2)

theorem total_insert (before after : List SecNonce) (p : Scalar × Scalar) :
    total (before ++ ⟨p.1, p.2⟩ :: after)
      = ((total (before ++ after)).1 + p.1.1, (total (before ++ after)).2 + p.2.1) := by
  unfold total
  simp only [List.map_append, List.sum_append, List.map_cons, List.sum_cons, Prod.mk.injEq]
  constructor <;> ring

theorem chance_scalar {Ω : Type} [Finite Ω] [Nonempty Ω] (E : Ω → MaybeScalar → Prop) (h0 : ∀ ω, ¬ E ω 0) :
    (Spec.chance fun q : Ω × MaybeScalar => E q.1 q.2)
      = (Spec.chance fun q : Ω × Scalar => E q.1 q.2.1) * ((orderN - 1 : ℕ) / orderN) := by
  have hΩ : (0 : ℚ) < Nat.card Ω := by exact_mod_cast Nat.card_pos
  have hn1 : (0 : ℚ) < (orderN - 1 : ℕ) := by
    have := one_lt_orderN
    exact_mod_cast (by omega : 0 < orderN - 1)
  have hn0 : (0 : ℚ) < orderN := by exact_mod_cast orderN_prime.pos
  have hs : {q : Ω × MaybeScalar | E q.1 q.2}.ncard = {q : Ω × Scalar | E q.1 q.2.1}.ncard := by
    symm
    refine Set.ncard_congr (fun q _ => (q.1, q.2.1)) (fun q h => h) ?_ ?_
    · rintro ⟨a, b⟩ ⟨a', b'⟩ _ _ h
      simp only [Prod.mk.injEq] at h
      exact Prod.ext h.1 (Subtype.ext h.2)
    · rintro ⟨a, c⟩ h
      have hc : c ≠ 0 := by
        rintro rfl
        exact h0 a h
      exact ⟨(a, ⟨c, hc⟩), h, rfl⟩
  unfold Spec.chance
  rw [hs, Nat.card_prod, Nat.card_prod, card_scalar, show Nat.card MaybeScalar = orderN from Nat.card_zmod _]
  rw [Nat.cast_mul, Nat.cast_mul]
  generalize ((orderN - 1 : ℕ) : ℚ) = m at hn1 ⊢
  generalize (orderN : ℚ) = n at hn0 ⊢
  field_simp

theorem chance_value {Ω : Type} [Finite Ω] (z : MaybeScalar) : (Spec.chance fun q : Ω × MaybeScalar => q.2 = z) ≤ 1 / orderN := by
  refine chance_snd (fun (_ : Ω) (c : MaybeScalar) => c = z) (1 / orderN) (fun _ => ?_) (by positivity)
  unfold Spec.chance
  rw [show Nat.card MaybeScalar = orderN from Nat.card_zmod _, Set.ofPred_eq_eq_singleton, Set.ncard_singleton, Nat.cast_one]

theorem bound : (1 : ℚ) / 2 ^ 127 + (1 / 2 ^ 126 + 2 / (orderN - 1 : ℕ)) + (1 / orderN + 1 / orderN) ≤ 1 / 2 ^ 125 := by
  have h1 : (2 : ℚ) / (orderN - 1 : ℕ) ≤ 1 / 2 ^ 129 := by
    have hn1 : (0 : ℚ) < (orderN - 1 : ℕ) := by
      have := one_lt_orderN
      exact_mod_cast (by omega : 0 < orderN - 1)
    rw [div_le_div_iff₀ hn1 (by positivity), one_mul]
    have h : 2 * 2 ^ 129 ≤ orderN - 1 := by decide +kernel
    exact_mod_cast h
  have h2 : (1 : ℚ) / orderN ≤ 1 / 2 ^ 129 := by
    refine one_div_le_one_div_of_le (by positivity) ?_
    have h : 2 ^ 129 ≤ orderN := by decide +kernel
    exact_mod_cast h
  have h3 : (1 : ℚ) / 2 ^ 127 + (1 / 2 ^ 126 + 1 / 2 ^ 129) + (1 / 2 ^ 129 + 1 / 2 ^ 129) ≤ 1 / 2 ^ 125 := by norm_num
  linarith

section

variable {ι : Type}

/-- The session nonce, plus the adaptor secret. -/
def adapted (A : Scalar × Scalar → ι) (r : MaybeScalar × MaybeScalar) (t : MaybeScalar) (B : ι → Arr 32) (p : Scalar × Scalar) :
    MaybeScalar :=
  value (r.1 + t, r.2) p (B (A p))

theorem adapted_eq (A : Scalar × Scalar → ι) (r : MaybeScalar × MaybeScalar) (t : MaybeScalar) (B : ι → Arr 32) (p : Scalar × Scalar) :
    adapted A r t B p = value r p (B (A p)) + t := by
  unfold adapted value
  dsimp only
  ring

/-- The session nonce is not zero, nor with the adaptor secret added, and it passes the test. -/
def Passes (A : Scalar × Scalar → ι) (r : MaybeScalar × MaybeScalar) (t : MaybeScalar) (D : (ι → Arr 32) → Scalar → Prop)
    (B : ι → Arr 32) (p : Scalar × Scalar) : Prop :=
  (∃ hc : adapted A r t B p ≠ 0, D B ⟨_, hc⟩) ∧ adapted A r t B p ≠ t

/-- The session nonce is zero, or is with the adaptor secret added. -/
def Vanishes (A : Scalar × Scalar → ι) (r : MaybeScalar × MaybeScalar) (t : MaybeScalar) (B : ι → Arr 32) (p : Scalar × Scalar) : Prop :=
  adapted A r t B p = 0 ∨ adapted A r t B p = t

theorem compare_bounds [Finite ι] {A : Scalar × Scalar → ι} (hA : Function.Injective A)
    (r : MaybeScalar × MaybeScalar) (t : MaybeScalar) (D : (ι → Arr 32) → Scalar → Prop) :
    (Spec.chance fun q : (ι → Arr 32) × Scalar => D q.1 q.2) - 1 / 2 ^ 125
        ≤ (Spec.chance fun q : (ι → Arr 32) × (Scalar × Scalar) => Passes A r t D q.1 q.2) ∧
      (Spec.chance fun q : (ι → Arr 32) × (Scalar × Scalar) => Passes A r t D q.1 q.2 ∨ Vanishes A r t q.1 q.2)
        ≤ (Spec.chance fun q : (ι → Arr 32) × Scalar => D q.1 q.2) + 1 / 2 ^ 125 := by
  have : Nonempty (Arr 32) := ⟨zeroSeed⟩
  have : Nonempty (Scalar × Scalar) := ⟨(scalarOne, scalarOne)⟩
  have hs := fun S => spread_chance A hA (value (r.1 + t, r.2)) S (δ := 1 / 2 ^ 127)
    (η := 1 / 2 ^ 126 + 2 / (orderN - 1 : ℕ)) (by positivity) enough (fun {_} {_} => total_bias _)
  have h1 := hs fun B => {c | (∃ hc : c ≠ 0, D B ⟨c, hc⟩) ∧ c ≠ t}
  have h2 := hs fun B => {c | ((∃ hc : c ≠ 0, D B ⟨c, hc⟩) ∧ c ≠ t) ∨ c = 0 ∨ c = t}
  simp only [Set.mem_ofPred_eq] at h1 h2
  have e3 := chance_scalar (fun (B : ι → Arr 32) c => ∃ hc : c ≠ 0, D B ⟨c, hc⟩) (fun _ h => h.1 rfl)
  have e4 : (fun q : (ι → Arr 32) × Scalar => ∃ hc : q.2.1 ≠ 0, D q.1 ⟨q.2.1, hc⟩) = fun q => D q.1 q.2 := by
    funext q
    exact propext ⟨fun h => h.2, fun h => ⟨q.2.2, h⟩⟩
  have z0 := chance_value (Ω := ι → Arr 32) 0
  have zt := chance_value (Ω := ι → Arr 32) t
  have e5 : (Spec.chance fun q : (ι → Arr 32) × MaybeScalar => ((∃ hc : q.2 ≠ 0, D q.1 ⟨q.2, hc⟩) ∧ q.2 ≠ t) ∨ q.2 = 0 ∨ q.2 = t)
      ≤ (Spec.chance fun q : (ι → Arr 32) × MaybeScalar => ∃ hc : q.2 ≠ 0, D q.1 ⟨q.2, hc⟩) + (1 / orderN + 1 / orderN) :=
    (chance_or _ _).trans (add_le_add (chance_mono fun q h => h.1) ((chance_or _ _).trans (add_le_add z0 zt)))
  have e8 : (Spec.chance fun q : (ι → Arr 32) × MaybeScalar => ∃ hc : q.2 ≠ 0, D q.1 ⟨q.2, hc⟩)
      ≤ (Spec.chance fun q : (ι → Arr 32) × MaybeScalar => (∃ hc : q.2 ≠ 0, D q.1 ⟨q.2, hc⟩) ∧ q.2 ≠ t) + 1 / orderN := by
    refine le_trans (chance_mono (F := fun q : (ι → Arr 32) × MaybeScalar =>
      ((∃ hc : q.2 ≠ 0, D q.1 ⟨q.2, hc⟩) ∧ q.2 ≠ t) ∨ q.2 = t) fun q h => ?_) ((chance_or _ _).trans (add_le_add le_rfl zt))
    by_cases hq : q.2 = t
    · exact .inr hq
    · exact .inl ⟨h, hq⟩
  have e6 := Decision.chance_le_one fun q : (ι → Arr 32) × Scalar => D q.1 q.2
  have e7 := chance_nonneg fun q : (ι → Arr 32) × Scalar => D q.1 q.2
  have hb := bound
  simp only [e4] at e3
  unfold Passes Vanishes adapted
  rw [abs_le] at h1 h2
  generalize (Spec.chance fun q : (ι → Arr 32) × Scalar => D q.1 q.2) = x at *
  rw [e3] at e8 e5
  have hn0 : (0 : ℚ) < orderN := by exact_mod_cast orderN_prime.pos
  have hn : (((orderN - 1 : ℕ) : ℚ) / orderN) = 1 - 1 / orderN := by
    rw [Nat.cast_pred orderN_prime.pos, sub_div, div_self hn0.ne']
  rw [hn] at e8 e5
  have hε : (0 : ℚ) ≤ 1 / orderN := by positivity
  have hx : x * (1 / orderN) ≤ 1 * (1 / orderN) := mul_le_mul_of_nonneg_right e6 hε
  have hx0 : 0 ≤ x * (1 / orderN) := mul_nonneg e7 hε
  rw [mul_sub, mul_one] at e8 e5
  constructor
  · linarith [h1.1]
  · linarith [h2.2]

/-- The chance of an event that hangs on the session nonce, except where that nonce is zero. -/
theorem compare [Finite ι] {A : Scalar × Scalar → ι} (hA : Function.Injective A)
    (r : MaybeScalar × MaybeScalar) (t : MaybeScalar) (E : (ι → Arr 32) × (Scalar × Scalar) → Prop)
    (D : (ι → Arr 32) → Scalar → Prop)
    (h : ∀ q (hc : adapted A r t q.1 q.2 ≠ 0), adapted A r t q.1 q.2 ≠ t → (E q ↔ D q.1 ⟨_, hc⟩)) :
    |Spec.chance E - Spec.chance fun q : (ι → Arr 32) × Scalar => D q.1 q.2| ≤ 1 / 2 ^ 125 := by
  obtain ⟨h1, h2⟩ := compare_bounds hA r t D
  have e1 : (Spec.chance fun q : (ι → Arr 32) × (Scalar × Scalar) => Passes A r t D q.1 q.2) ≤ Spec.chance E :=
    chance_mono fun q hq => (h q hq.1.1 hq.2).2 hq.1.2
  have e2 : Spec.chance E ≤ Spec.chance fun q : (ι → Arr 32) × (Scalar × Scalar) =>
      Passes A r t D q.1 q.2 ∨ Vanishes A r t q.1 q.2 := by
    refine chance_mono fun q hq => ?_
    by_cases hv : Vanishes A r t q.1 q.2
    · exact .inr hv
    · obtain ⟨hc, ht⟩ := not_or.1 hv
      exact .inl ⟨⟨hc, (h q hc ht).1 hq⟩, ht⟩
  rw [abs_le]
  constructor <;> linarith

end

/-! ## Nonces of the library -/

theorem tagHash_withCoefficients (H : Hash) (Q : Point) (msg : Bytes) (B : AggNonce → Arr 32) {t : Bytes}
    (hl : t.length = MUSIG_NONCECOEF_TAG_DIGEST.length) (hne : t ≠ MUSIG_NONCECOEF_TAG_DIGEST) (x : Bytes) :
    tagHash (Spec.withCoefficients H Q msg B) t x = tagHash H t x := by
  unfold tagHash Spec.withCoefficients
  rw [dif_neg]
  rintro ⟨an, h⟩
  unfold Spec.noncecoefQuery at h
  rw [taggedInput_eq (D := MUSIG_NONCECOEF_TAG_DIGEST) (by simp [tagTable])] at h
  exact tagged_ne hl hne h

theorem tagHash_withNonces (H : Hash) (b : SecNonceBuilder) (a : Arr 32 × Arr 32) {t : Bytes}
    (hl : t.length = MUSIG_NONCE_TAG_DIGEST.length) (hne : t ≠ MUSIG_NONCE_TAG_DIGEST) (x : Bytes) :
    tagHash (Spec.withNonces H b a) t x = tagHash H t x := by
  unfold tagHash Spec.withNonces
  rw [nonceQuery_eq, nonceQuery_eq, Hash.answering_of_ne _ _ (tagged_ne hl hne), Hash.answering_of_ne _ _ (tagged_ne hl hne)]

theorem nonceQuery_length (H : Hash) (b : SecNonceBuilder) (i : UInt8) : 64 ≤ (Spec.nonceQuery H b i).length := by
  rw [nonceQuery_eq]
  simp only [List.length_append]
  have : MUSIG_NONCE_TAG_DIGEST.length = 32 := rfl
  omega

theorem withNonces_tagsAgree {H : Hash} (hH : TagsAgree H) (b : SecNonceBuilder) (a : Arr 32 × Arr 32) :
    TagsAgree (Spec.withNonces H b a) :=
  tagsAgree_answering (tagsAgree_answering hH (nonceQuery_length _ _ _) _) (nonceQuery_length _ _ _) _

theorem withNonces_ctxInv {H : Hash} (b : SecNonceBuilder) (a : Arr 32 × Arr 32) {ctx : KeyAggContext} (hi : CtxInv H ctx) :
    CtxInv (Spec.withNonces H b a) ctx := by
  have hc : coeffOf (Spec.withNonces H b a) ctx.orderedPubkeys = coeffOf H ctx.orderedPubkeys := by
    funext K
    unfold coeffOf computeKeyAggregationCoefficient hashPubkeys
    simp only [tagHash_withNonces H b a (t := KEYAGG_LIST_TAG_DIGEST) rfl (by decide),
      tagHash_withNonces H b a (t := KEYAGG_COEFF_TAG_DIGEST) rfl (by decide)]
  have hk : keySum (Spec.withNonces H b a) ctx.orderedPubkeys = keySum H ctx.orderedPubkeys := by
    unfold keySum
    rw [hc]
  exact ⟨hi.nonempty, hi.length_le, hi.indexes, by rw [hc]; exact hi.coeffs, by rw [hc]; exact hi.eff, by rw [hk]; exact hi.sum_ne,
    by rw [hk]; exact hi.pub⟩

theorem build_withCoefficients (H : Hash) (Q : Point) (msg : Bytes) (B : AggNonce → Arr 32) (b : SecNonceBuilder) :
    b.build (Spec.withCoefficients H Q msg B) = b.build H := by
  unfold SecNonceBuilder.build SecNonceBuilder.hashInput
  simp only [tagHash_withCoefficients H Q msg B (t := MUSIG_NONCE_TAG_DIGEST) rfl (by decide),
    tagHash_withCoefficients H Q msg B (t := MUSIG_AUX_TAG_DIGEST) rfl (by decide)]

theorem build_withNonces (H : Hash) (b : SecNonceBuilder) (a : Arr 32 × Arr 32) :
    b.build (Spec.withNonces H b a) = ⟨SecNonceBuilder.reduceOrOne a.1, SecNonceBuilder.reduceOrOne a.2⟩ := by
  have hq : Spec.nonceQuery H b 1 = Spec.nonceQuery (H.answering (Spec.nonceQuery H b 0) a.1) b 1 := by
    rw [nonceQuery_eq, nonceQuery_eq, nonceQuery_eq, hashInput_answering]
  unfold Spec.withNonces
  rw [hq, build_answering, build_answering]
  rfl

theorem signWith_congr {H H' : Hash} (hH : TagsAgree H) (hH' : TagsAgree H')
    (h : ∀ x, tagHash H' BIP0340_CHALLENGE_TAG_DIGEST x = tagHash H BIP0340_CHALLENGE_TAG_DIGEST x) (d k : Scalar) (msg : Bytes) :
    Spec.signWith H' d k msg = Spec.signWith H d k msg := by
  rw [signWith_eq _ hH, signWith_eq _ hH']
  unfold computeChallengeHashTweak
  rw [h]

/-- The signature of `sign_solo` is that of its nonce. -/
theorem signSolo_bytes {ε : Type} {H : Hash} (hH : TagsAgree H) (d : Scalar) (msg : Bytes) (seed : Arr 32) :
    ∃ sig, signSolo (ε := ε) H d msg seed = .ok sig ∧ sig.toBytes = Spec.signWith H d (soloNonce H d msg seed) msg := by
  unfold signSolo
  rw [signSoloAdaptor_eq, adapt_zero]
  refine ⟨_, rfl, ?_⟩
  rw [signWith_eq H hH]
  change (xonly (toEvenY _).1).1 ++ (serScalar _).1 = _
  rw [xonly_toEvenY, add_zero, sgn_mul, sgn_mul]
  rfl

theorem solo_answering {H : Hash} (hH : TagsAgree H) (Q : Point) (msg : Bytes) (B : AggNonce → Arr 32) (d : Scalar)
    (seed a : Arr 32) (D : Bytes → Prop) :
    (∃ sig, signSolo (ε := Unit) ((Spec.withCoefficients H Q msg B).answering (Spec.soloNonceQuery H d msg seed) a) d msg seed
      = .ok sig ∧ D sig.toBytes)
    ↔ D (Spec.signWith (Spec.withCoefficients H Q msg B) d (SecNonceBuilder.reduceOrOne a) msg) := by
  have hB := withCoefficients_tagsAgree H Q msg B hH
  have hq : Spec.soloNonceQuery H d msg seed = Spec.soloNonceQuery (Spec.withCoefficients H Q msg B) d msg seed := by
    rw [soloNonceQuery_eq hH, soloNonceQuery_eq hB, tagHash_withCoefficients H Q msg B (t := BIP0340_AUX_TAG_DIGEST) rfl (by decide)]
  have hlen : 64 ≤ (Spec.soloNonceQuery (Spec.withCoefficients H Q msg B) d msg seed).length := by
    rw [soloNonceQuery_eq hB, List.length_append, List.length_append]
    have : BIP0340_NONCE_TAG_DIGEST.length = 32 := rfl
    omega
  rw [hq]
  obtain ⟨sig, hs, hb⟩ := signSolo_bytes (ε := Unit) (tagsAgree_answering hB hlen a) d msg seed
  rw [soloNonce_answering hB, signWith_congr hB (tagsAgree_answering hB hlen a)] at hb
  · rw [hs, ← hb]
    constructor
    · rintro ⟨_, h, hD⟩
      cases h
      exact hD
    · intro hD
      exact ⟨sig, rfl, hD⟩
  · intro x
    unfold tagHash
    rw [soloNonceQuery_eq hB, Hash.answering_of_ne _ _ (tagged_ne (by decide) (by decide))]

/-- Two nonces that are hashed and reduced. -/
theorem chance_reduce_two {Ω : Type} [Finite Ω] [Nonempty Ω] (E : Ω → Scalar × Scalar → Prop) :
    |(Spec.chance fun q : Ω × (Arr 32 × Arr 32) =>
        E q.1 (SecNonceBuilder.reduceOrOne q.2.1, SecNonceBuilder.reduceOrOne q.2.2))
      - Spec.chance fun q : Ω × (Scalar × Scalar) => E q.1 q.2| ≤ 1 / 2 ^ 126 := by
  have : Nonempty (Arr 32) := ⟨zeroSeed⟩
  have : Nonempty Scalar := ⟨scalarOne⟩
  have h1 := chance_reduceOrOne (Ω := Ω × Arr 32) fun ω k => E ω.1 (SecNonceBuilder.reduceOrOne ω.2, k)
  have h2 := chance_reduceOrOne (Ω := Ω × Scalar) fun ω k => E ω.1 (k, ω.2)
  have e1 : (Spec.chance fun q : (Ω × Arr 32) × Arr 32 =>
      E q.1.1 (SecNonceBuilder.reduceOrOne q.1.2, SecNonceBuilder.reduceOrOne q.2))
      = Spec.chance fun q : Ω × (Arr 32 × Arr 32) =>
        E q.1 (SecNonceBuilder.reduceOrOne q.2.1, SecNonceBuilder.reduceOrOne q.2.2) :=
    chance_equiv (Equiv.prodAssoc Ω (Arr 32) (Arr 32)) fun q : Ω × (Arr 32 × Arr 32) =>
      E q.1 (SecNonceBuilder.reduceOrOne q.2.1, SecNonceBuilder.reduceOrOne q.2.2)
  have e2 : (Spec.chance fun q : (Ω × Arr 32) × Scalar => E q.1.1 (SecNonceBuilder.reduceOrOne q.1.2, q.2))
      = Spec.chance fun q : (Ω × Scalar) × Arr 32 => E q.1.1 (SecNonceBuilder.reduceOrOne q.2, q.1.2) :=
    chance_equiv (((Equiv.prodAssoc Ω (Arr 32) Scalar).trans ((Equiv.refl Ω).prodCongr (Equiv.prodComm _ _))).trans
      (Equiv.prodAssoc Ω Scalar (Arr 32)).symm) fun q : (Ω × Scalar) × Arr 32 =>
        E q.1.1 (SecNonceBuilder.reduceOrOne q.2, q.1.2)
  have e3 : (Spec.chance fun q : (Ω × Scalar) × Scalar => E q.1.1 (q.2, q.1.2))
      = Spec.chance fun q : Ω × (Scalar × Scalar) => E q.1 q.2 :=
    chance_equiv ((Equiv.prodAssoc Ω Scalar Scalar).trans ((Equiv.refl Ω).prodCongr (Equiv.prodComm _ _)))
      fun q : Ω × (Scalar × Scalar) => E q.1 q.2
  rw [e1, e2] at h1
  rw [e3] at h2
  refine (abs_sub_le _ _ _).trans ((add_le_add h1 h2).trans (le_of_eq (by norm_num)))

end Verif.OneSigner
