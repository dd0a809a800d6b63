import Verif.Spec.Uniform
import Verif.Lemmas.Nonces
import Verif.Lemmas.Props.Nonces
import Verif.Lemmas.Props.Bip340
import Verif.Lemmas.Bip340
import Verif.Lemmas.KeyAgg
import Verif.Lemmas.Signing
import Verif.Props.Hashes
import Mathlib.Tactic.Linarith
import Mathlib.Tactic.FieldSimp
import Mathlib.Tactic.NormNum
import Mathlib.Data.Rat.Cast.Order

/-!
# Helpers of `Props/Uniform`: counting 32-byte strings
-/

namespace Verif

/-- 32-byte strings are the numbers below `256 ^ 32`. -/
def arrEquiv : Arr 32 ≃ Fin (256 ^ 32) where
  toFun h := ⟨beNat h.1, by have := beNat_lt h.1; rwa [h.2] at this⟩
  invFun v := beArr 32 v.1
  left_inv h := Subtype.ext (beBytes_beNat' h.2)
  right_inv v := Fin.ext (beNat_beBytes_of_lt v.2)

instance : Finite (Arr 32) := Finite.of_equiv _ arrEquiv.symm

theorem arr_card : Nat.card (Arr 32) = 256 ^ 32 := by
  rw [Nat.card_congr arrEquiv, Nat.card_eq_fintype_card, Fintype.card_fin]

theorem beNat_arr_lt (h : Arr 32) : beNat h.1 < 256 ^ 32 := by
  have := beNat_lt h.1; rwa [h.2] at this

theorem beNat_beArr {v : ℕ} (h : v < 256 ^ 32) : beNat (beArr 32 v).1 = v := beNat_beBytes_of_lt h

theorem arr_ext_beNat {h h' : Arr 32} (e : beNat h.1 = beNat h'.1) : h = h' :=
  Subtype.ext (beNat_injective (h.2.trans h'.2.symm) e)

/-- At most two strings reduce to the same number modulo `n`. -/
theorem ncard_mod_le (r : ℕ) : {h : Arr 32 | beNat h.1 % orderN = r}.ncard ≤ 2 := by
  have hsub : {h : Arr 32 | beNat h.1 % orderN = r} ⊆ {beArr 32 r, beArr 32 (r + orderN)} := by
    intro h hr
    have h1 := beNat_arr_lt h
    have h2 := two_pow_256_lt_two_orderN
    have h3 := Nat.div_add_mod (beNat h.1) orderN
    have hr' : beNat h.1 % orderN = r := hr
    have h6 : beNat h.1 < orderN * 2 := by omega
    have h4 : beNat h.1 / orderN < 2 := Nat.div_lt_of_lt_mul h6
    rw [hr'] at h3
    generalize beNat h.1 / orderN = q at h3 h4
    have h5 : q = 0 ∨ q = 1 := by omega
    rcases h5 with h5 | h5 <;> rw [h5] at h3
    · left
      refine arr_ext_beNat ?_
      rw [beNat_beArr] <;> omega
    · right
      refine arr_ext_beNat ?_
      rw [beNat_beArr] <;> omega
  refine (Set.ncard_le_ncard hsub (Set.toFinite _)).trans ?_
  refine (Set.ncard_insert_le _ _).trans ?_
  rw [Set.ncard_singleton]

/-- The strings that are their own reduction, and no zero. -/
def goodArr : Set (Arr 32) := {h | 1 ≤ beNat h.1 ∧ beNat h.1 < orderN}

theorem reduceOrOne_good {h : Arr 32} (hg : h ∈ goodArr) :
    (SecNonceBuilder.reduceOrOne h).1.val = beNat h.1 := by
  have h1 : 1 ≤ beNat h.1 := hg.1
  rw [SecNonceBuilder.reduceOrOne_val, Nat.mod_eq_of_lt hg.2, if_neg (by omega)]

theorem scalar_ext_val {a b : Scalar} (h : a.1.val = b.1.val) : a = b :=
  Subtype.ext (ZMod.val_injective _ h)

/-- Each scalar is hit by exactly one good string. -/
theorem ncard_good (S : Set Scalar) : {h | h ∈ goodArr ∧ SecNonceBuilder.reduceOrOne h ∈ S}.ncard = S.ncard := by
  refine Set.ncard_congr (fun h _ => SecNonceBuilder.reduceOrOne h) (fun h hh => hh.2) ?_ ?_
  · intro a b ha hb e
    have := congrArg (fun s : Scalar => s.1.val) e
    simp only [reduceOrOne_good ha.1, reduceOrOne_good hb.1] at this
    exact arr_ext_beNat this
  · intro s hs
    have hlt : s.1.val < orderN := ZMod.val_lt _
    have hpos : s.1.val ≠ 0 := fun h => s.2 ((ZMod.val_eq_zero _).1 h)
    have hb : beNat (beArr 32 s.1.val).1 = s.1.val := beNat_beArr (hlt.trans orderN_lt)
    have hg : beArr 32 s.1.val ∈ goodArr := by
      constructor <;> rw [hb] <;> omega
    have he : SecNonceBuilder.reduceOrOne (beArr 32 s.1.val) = s := scalar_ext_val (by rw [reduceOrOne_good hg, hb])
    exact ⟨_, ⟨hg, he.symm ▸ hs⟩, he⟩

theorem ncard_compl_good : (goodArrᶜ).ncard + (orderN - 1) = 256 ^ 32 := by
  have h1 := Set.ncard_add_ncard_compl goodArr
  rw [arr_card] at h1
  have h2 : goodArr.ncard = orderN - 1 := by
    have h3 : goodArr.ncard = (Set.Ico 1 orderN).ncard := by
      refine Set.ncard_congr (fun h _ => beNat h.1) (fun h hh => hh) (fun a b _ _ e => arr_ext_beNat e) ?_
      intro v hv
      have hb := beNat_beArr (hv.2.trans orderN_lt)
      refine ⟨beArr 32 v, ?_, hb⟩
      constructor <;> rw [hb]
      · exact hv.1
      · exact hv.2
    rw [h3, Set.ncard_eq_toFinset_card', Set.toFinset_Ico, Nat.card_Ico]
  omega

/-- The number of strings that give a scalar of `S`. -/
theorem ncard_reduceOrOne (S : Set Scalar) :
    S.ncard ≤ {h | SecNonceBuilder.reduceOrOne h ∈ S}.ncard ∧
      {h | SecNonceBuilder.reduceOrOne h ∈ S}.ncard + (orderN - 1) ≤ S.ncard + 256 ^ 32 := by
  constructor
  · rw [← ncard_good S]
    exact Set.ncard_le_ncard (fun h hh => hh.2) (Set.toFinite _)
  · have h1 : {h | SecNonceBuilder.reduceOrOne h ∈ S} ⊆
        {h | h ∈ goodArr ∧ SecNonceBuilder.reduceOrOne h ∈ S} ∪ goodArrᶜ := by
      intro h hh
      by_cases hg : h ∈ goodArr
      · exact .inl ⟨hg, hh⟩
      · exact .inr hg
    have h2 := Set.ncard_le_ncard h1 (Set.toFinite _)
    have h3 := Set.ncard_union_le {h | h ∈ goodArr ∧ SecNonceBuilder.reduceOrOne h ∈ S} goodArrᶜ
    rw [ncard_good] at h3
    have h4 := ncard_compl_good
    omega

theorem orderN_close : 256 ^ 32 + 1 < orderN + 2 ^ 129 := by decide +kernel

/-- A count that is nearly that of `S` gives a probability that is nearly the share of `S`. -/
theorem prob_close {N c : ℕ} (hS : c ≤ orderN - 1) (h1 : c ≤ N) (h2 : N + (orderN - 1) ≤ c + 256 ^ 32) :
    |(N : ℚ) / 2 ^ 256 - (c : ℚ) / (orderN - 1 : ℕ)| < 1 / 2 ^ 127 := by
  have hn := one_lt_orderN
  have hlt := orderN_lt
  have hcl := orderN_close
  obtain ⟨m, hm⟩ : ∃ m, orderN - 1 = m := ⟨_, rfl⟩
  rw [hm] at hS h2 ⊢
  have hm0 : 0 < m := by omega
  have hm1 : m < 256 ^ 32 := by omega
  have hm2 : 256 ^ 32 < m + 2 ^ 129 := by omega
  have e : ((256 ^ 32 : ℕ) : ℚ) = 2 ^ 256 := by norm_num
  have hmq : (0 : ℚ) < m := by exact_mod_cast hm0
  have hm1q : (m : ℚ) < 2 ^ 256 := by rw [← e]; exact_mod_cast hm1
  have hm2q : (2 : ℚ) ^ 256 < m + 2 ^ 129 := by rw [← e]; exact_mod_cast hm2
  have h1q : (c : ℚ) ≤ N := by exact_mod_cast h1
  have h2q : (N : ℚ) + m ≤ c + 2 ^ 256 := by rw [← e]; exact_mod_cast h2
  have hSq : (c : ℚ) ≤ m := by exact_mod_cast hS
  have hc0 : (0 : ℚ) ≤ c := by positivity
  obtain ⟨W, hW⟩ : ∃ W : ℚ, W = 2 ^ 256 := ⟨_, rfl⟩
  have hB : (2 : ℚ) ^ 129 = W / 2 ^ 127 := by rw [hW]; norm_num
  rw [← hW] at hm1q hm2q h2q ⊢
  rw [hB] at hm2q
  have hW0 : 0 < W := hmq.trans hm1q
  have hd : W - m < W * (1 / 2 ^ 127) := by
    have : W / 2 ^ 127 = W * (1 / 2 ^ 127) := by ring
    linarith
  obtain ⟨ε, hε⟩ : ∃ ε : ℚ, ε = 1 / 2 ^ 127 := ⟨_, rfl⟩
  rw [← hε] at hd ⊢
  clear hB hm2q e hcl hlt hm1 hm2 h2 hε hW
  have hx : (c : ℚ) / m - c / W = c / m * ((W - m) / W) := by
    field_simp
  have hcm : (c : ℚ) / m ≤ 1 := by rw [div_le_one hmq]; exact hSq
  have hcm0 : 0 ≤ (c : ℚ) / m := by positivity
  have hr : (W - m) / W < ε := by rw [div_lt_iff₀ hW0]; linarith
  have hr0 : 0 ≤ (W - m) / W := div_nonneg (by linarith) hW0.le
  have hprod : (c : ℚ) / m * ((W - m) / W) ≤ (W - m) / W := by nlinarith
  have hprod0 : 0 ≤ (c : ℚ) / m * ((W - m) / W) := mul_nonneg hcm0 hr0
  have hN1 : (c : ℚ) / W ≤ N / W := by gcongr
  have hN2 : (N : ℚ) / W ≤ c / W + (W - m) / W := by
    rw [← add_div]; gcongr; linarith
  rw [abs_lt]
  constructor <;> linarith

theorem ncard_scalar_le (S : Set Scalar) : S.ncard ≤ orderN - 1 := by
  have := (ncard_good S).symm.le.trans (Set.ncard_le_ncard (fun h hh => hh.1) (Set.toFinite goodArr))
  have h1 := Set.ncard_add_ncard_compl goodArr
  have h2 := ncard_compl_good
  rw [arr_card] at h1
  omega

theorem prob_reduceOrOne (S : Set Scalar) :
    |Spec.prob (fun h => SecNonceBuilder.reduceOrOne h ∈ S) - Spec.share S| < 1 / 2 ^ 127 := by
  obtain ⟨h1, h2⟩ := ncard_reduceOrOne S
  exact prob_close (ncard_scalar_le S) h1 h2

/-! ## Hash functions changed at one string -/

theorem Hash.answering_same (H : Hash) (x : Bytes) (h : Arr 32) : H.answering x h x = h := if_pos rfl

theorem Hash.answering_of_ne (H : Hash) {x y : Bytes} (h : Arr 32) (hne : y ≠ x) : H.answering x h y = H y := if_neg hne

/-- Strings that begin with different digests of the same length are different. -/
theorem tagged_ne {d d' x x' : Bytes} (hl : d.length = d'.length) (hne : d ≠ d') : d ++ d ++ x ≠ d' ++ d' ++ x' := by
  intro h
  rw [List.append_assoc, List.append_assoc] at h
  exact hne (List.append_inj h hl).1

theorem nonceQuery_eq (H : Hash) (b : SecNonceBuilder) (i : UInt8) :
    Spec.nonceQuery H b i = MUSIG_NONCE_TAG_DIGEST ++ MUSIG_NONCE_TAG_DIGEST ++ (b.hashInput H ++ [i]) := by
  unfold Spec.nonceQuery
  rw [taggedInput_musigNonce, hashInput_eq_bytes]

theorem hashInput_answering (H : Hash) (b : SecNonceBuilder) (x : Bytes) (h : Arr 32) :
    b.hashInput (H.answering (MUSIG_NONCE_TAG_DIGEST ++ MUSIG_NONCE_TAG_DIGEST ++ x) h) = b.hashInput H := by
  unfold SecNonceBuilder.hashInput tagHash
  rw [Hash.answering_of_ne H h (tagged_ne (by decide) (by decide))]

theorem build_answering (H : Hash) (b : SecNonceBuilder) (i : UInt8) (h : Arr 32) :
    b.build (H.answering (Spec.nonceQuery H b i) h) =
      ⟨if i = 0 then SecNonceBuilder.reduceOrOne h else (b.build H).k1,
        if i = 1 then SecNonceBuilder.reduceOrOne h else (b.build H).k2⟩ := by
  have key : ∀ j : UInt8, tagHash (H.answering (Spec.nonceQuery H b i) h) MUSIG_NONCE_TAG_DIGEST
      (b.hashInput (H.answering (Spec.nonceQuery H b i) h) ++ [j])
      = if i = j then h else tagHash H MUSIG_NONCE_TAG_DIGEST (b.hashInput H ++ [j]) := by
    intro j
    rw [nonceQuery_eq, hashInput_answering]
    unfold tagHash Hash.answering
    by_cases hij : i = j
    · subst hij
      rw [if_pos rfl, if_pos rfl]
    · rw [if_neg hij, if_neg]
      intro e
      have := List.append_cancel_left (List.append_cancel_left e)
      exact hij (List.singleton_inj.1 this).symm
  unfold SecNonceBuilder.build
  simp only [key]
  split_ifs <;> rfl

theorem soloNonceQuery_eq {H : Hash} (hH : TagsAgree H) (sk : Scalar) (msg : Bytes) (seed : Arr 32) :
    Spec.soloNonceQuery H sk msg seed = BIP0340_NONCE_TAG_DIGEST ++ BIP0340_NONCE_TAG_DIGEST ++
      ((xorBytes (tagHash H BIP0340_AUX_TAG_DIGEST seed.1) (serScalar (sk.negIf (isOdd (mulG sk).1)).1)).1
        ++ (xonly (mulG sk).1).1 ++ msg) := by
  have hP : sk.1.val • Spec.G = (mulG sk).1 := by rw [spec_G, ← smul_def]; rfl
  have hd : Spec.bytes_from_int (if (!isOdd (mulG sk).1) = true then sk.1.val else orderN - sk.1.val)
      = (serScalar (sk.negIf (isOdd (mulG sk).1)).1).1 := by
    rw [spec_bytes_from_int _ (spec_neg_scalar_lt sk _), spec_neg_scalar, Scalar.negIf_val]
  unfold Spec.soloNonceQuery Spec.soloNonceInput
  simp only
  rw [hP, spec_has_even_y, hd, tagged_bip340Aux hH, taggedInput_eq (D := BIP0340_NONCE_TAG_DIGEST) (by simp [tagTable]),
    spec_xbytes]
  have hx : Spec.bytes_xor (serScalar (sk.negIf (isOdd (mulG sk).1)).1).1 (tagHash H BIP0340_AUX_TAG_DIGEST seed.1).1
      = (xorBytes (tagHash H BIP0340_AUX_TAG_DIGEST seed.1) (serScalar (sk.negIf (isOdd (mulG sk).1)).1)).1 :=
    zipWith_xor_comm _ _
  rw [hx]

theorem soloNonce_answering {H : Hash} (hH : TagsAgree H) (sk : Scalar) (msg : Bytes) (seed h : Arr 32) :
    soloNonce (H.answering (Spec.soloNonceQuery H sk msg seed) h) sk msg seed = SecNonceBuilder.reduceOrOne h := by
  unfold soloNonce
  have haux : tagHash (H.answering (Spec.soloNonceQuery H sk msg seed) h) BIP0340_AUX_TAG_DIGEST seed.1
      = tagHash H BIP0340_AUX_TAG_DIGEST seed.1 := by
    unfold tagHash
    rw [soloNonceQuery_eq hH, Hash.answering_of_ne H h (tagged_ne (by decide) (by decide))]
  simp only [haux]
  rw [soloNonceQuery_eq hH]
  unfold tagHash
  rw [Hash.answering_same]

/-! ## Bounds -/

theorem prob_le_two {E : Arr 32 → Prop} (hE : ∀ h h', E h → E h' → reduceFrom h = reduceFrom h') :
    Spec.prob E ≤ 2 / 2 ^ 256 := by
  unfold Spec.prob
  gcongr
  have : {h | E h}.ncard ≤ 2 := by
    by_cases hex : ∃ h, E h
    · obtain ⟨h0, h0E⟩ := hex
      refine (Set.ncard_le_ncard (fun h hh => ?_) (Set.toFinite _)).trans (ncard_mod_le (reduceFrom h0).val)
      change beNat h.1 % orderN = _
      rw [← reduceFrom_val, hE h h0 hh h0E]
    · have : {h | E h} = ∅ := Set.eq_empty_iff_forall_notMem.2 fun h hh => hex ⟨h, hh⟩
      rw [this, Set.ncard_empty]
      omega
  exact_mod_cast this

theorem prob_le_one {E : Arr 32 → Prop} (hE : ∀ h h', E h → E h' → h = h') : Spec.prob E ≤ 1 / 2 ^ 256 := by
  unfold Spec.prob
  gcongr
  have : {h | E h}.ncard ≤ 1 := (Set.ncard_le_one_iff (Set.toFinite _)).2 fun ha hb => hE _ _ ha hb
  exact_mod_cast this

theorem prob_or_le (E F : Arr 32 → Prop) : Spec.prob (fun h => E h ∨ F h) ≤ Spec.prob E + Spec.prob F := by
  unfold Spec.prob
  rw [← add_div]
  gcongr
  exact_mod_cast Set.ncard_union_le {h | E h} {h | F h}

theorem prob_mono {E F : Arr 32 → Prop} (h : ∀ x, E x → F x) : Spec.prob E ≤ Spec.prob F := by
  have : {x | E x}.ncard ≤ {x | F x}.ncard := Set.ncard_le_ncard h (Set.toFinite _)
  have hq : ({x | E x}.ncard : ℚ) ≤ ({x | F x}.ncard : ℚ) := by exact_mod_cast this
  unfold Spec.prob
  exact div_le_div_of_nonneg_right hq (by positivity)

theorem le_prob_of_exists {E : Arr 32 → Prop} (h : ∃ x, E x) : 1 / 2 ^ 256 ≤ Spec.prob E := by
  unfold Spec.prob
  gcongr
  exact_mod_cast (Set.ncard_pos (Set.toFinite _)).2 h

theorem reduceFrom_surjective (s : MaybeScalar) : ∃ h, reduceFrom h = s := by
  refine ⟨beArr 32 s.val, ?_⟩
  apply ZMod.val_injective
  have hlt : s.val < orderN := ZMod.val_lt s
  rw [reduceFrom_val, beNat_beArr (hlt.trans orderN_lt), Nat.mod_eq_of_lt hlt]

theorem smul_left_cancel {a b : MaybeScalar} {P : MaybePoint} (hP : P ≠ 0) (h : a • P = b • P) : a = b := by
  have : (a - b) • P = 0 := by rw [sub_smul, h, sub_self]
  exact sub_eq_zero.1 ((smul_eq_zero_iff.1 this).resolve_right hP)

theorem challenge_answering (H : Hash) (rx : Arr 32) (P : Point) (msg : Bytes) (h : Arr 32) :
    computeChallengeHashTweak (H.answering (Spec.challengeQuery rx.1 P msg) h) rx P msg = reduceFrom h := by
  rw [(C66_what_is_hashed _).2.2.2.1]
  congr 1
  exact Hash.answering_same _ _ _

theorem nonceCoefficient_answering (H : Hash) (an : AggNonce) (Q : Point) (msg : Bytes) (h : Arr 32) :
    an.nonceCoefficient (H.answering (Spec.noncecoefQuery an Q msg) h) Q msg = reduceFrom h := by
  rw [(C66_what_is_hashed _).2.2.1]
  congr 1
  exact Hash.answering_same _ _ _

theorem nonceCoefficient_answering_challenge (H : Hash) (an : AggNonce) (Q : Point) (msg rx : Bytes) (P : Point)
    (h : Arr 32) :
    an.nonceCoefficient (H.answering (Spec.challengeQuery rx P msg) h) Q msg = an.nonceCoefficient H Q msg := by
  rw [(C66_what_is_hashed _).2.2.1, (C66_what_is_hashed _).2.2.1]
  congr 1
  refine Hash.answering_of_ne _ _ ?_
  exact C66_domain_separation _ _ (by simp [Spec.tags]) (by simp [Spec.tags]) (by decide) _ _

theorem coeffOf_answering (H : Hash) (keys : List Point) (P K : Point) (hP : secondKey keys ≠ some P) (h : Arr 32) :
    coeffOf (H.answering (Spec.coeffQuery H keys P) h) keys K = if K = P then reduceFrom h else coeffOf H keys K := by
  have hL : hashPubkeys (H.answering (Spec.coeffQuery H keys P) h) keys = hashPubkeys H keys := by
    rw [(C66_what_is_hashed _).1, (C66_what_is_hashed _).1]
    refine Hash.answering_of_ne _ _ ?_
    exact C66_domain_separation _ _ (by simp [Spec.tags]) (by simp [Spec.tags]) (by decide) _ _
  have hq : Spec.coeffQuery H keys P
      = Spec.taggedInput "KeyAgg coefficient" ((hashPubkeys H keys).1 ++ Spec.cbytes P.1) := by
    rw [(C66_what_is_hashed _).1]; rfl
  unfold coeffOf
  rw [hL, hq]
  by_cases hK : K = P
  · subst hK
    rw [if_pos rfl, (C66_what_is_hashed _).2.1 _ _ _ hP, Hash.answering_same]
  · rw [if_neg hK]
    by_cases h2 : secondKey keys = some K
    · unfold computeKeyAggregationCoefficient
      rw [if_pos h2, if_pos h2]
    · rw [(C66_what_is_hashed _).2.1 _ _ _ h2, (C66_what_is_hashed _).2.1 _ _ _ h2, Hash.answering_of_ne]
      intro e
      unfold Spec.taggedInput at e
      have := List.append_cancel_left (List.append_cancel_left e)
      rw [spec_cbytes_point, spec_cbytes_point, serPoint_point_inj] at this
      exact hK this

theorem sum_split (l : List Point) (P : Point) (e : MaybeScalar) (g : Point → MaybeScalar) :
    (l.map fun K => (if K = P then e else g K) • K.1).sum
      = e • (((l.count P : ℕ) : MaybeScalar) • P.1) + ((l.filter (· ≠ P)).map fun K => g K • K.1).sum := by
  induction l with
  | nil => simp
  | cons K l ih =>
    rw [List.map_cons, List.sum_cons, ih]
    by_cases h : K = P
    · subst h
      rw [if_pos rfl, List.count_cons_self, List.filter_cons_of_neg (by simp), Nat.cast_succ, add_smul, smul_add, one_smul]
      abel
    · rw [if_neg h, List.count_cons_of_ne h, List.filter_cons_of_pos (by simpa using h), List.map_cons, List.sum_cons]
      abel

/-- The answer to the query of one coefficient is determined, modulo `n`, by the sum. -/
theorem keySum_answering_inj (H : Hash) (keys : List Point) (P : Point) (hm : P ∈ keys) (hl : keys.length ≤ u32Max)
    (hP : secondKey keys ≠ some P) (h h' : Arr 32)
    (e : keySum (H.answering (Spec.coeffQuery H keys P) h) keys = keySum (H.answering (Spec.coeffQuery H keys P) h') keys) :
    reduceFrom h = reduceFrom h' := by
  unfold keySum at e
  simp only [coeffOf_answering H keys P _ hP] at e
  rw [sum_split, sum_split] at e
  have e' := add_right_cancel e
  refine smul_left_cancel ?_ e'
  intro h0
  rcases smul_eq_zero_iff.1 h0 with h0 | h0
  · have hpos := List.count_pos_iff.2 hm
    have hle := List.count_le_length (a := P) (l := keys)
    have hn : u32Max < orderN := by decide +kernel
    have := (ZMod.natCast_eq_zero_iff _ _).1 h0
    exact absurd (Nat.le_of_dvd hpos this) (by omega)
  · exact P.2 h0

theorem secondKey_of_spec {keys : List Point} {P : Point}
    (h : Spec.get_second_key (keys.map fun K => Spec.cbytes K.1) ≠ Spec.cbytes P.1) : secondKey keys ≠ some P := by
  intro h2
  apply h
  have := spec_get_second_key keys
  unfold keyBytes at this
  rw [this, h2, spec_cbytes_point]

end Verif
