import Verif.Spec.Claims
import Verif.Lemmas.Props.Nonces
import Verif.Lemmas.SigAgg

/-!
# Lemmas and example data for `Props/Bip340`
-/

namespace Verif

theorem spec_schnorr_verify {H : Hash} (hH : TagsAgree H) (P : Point) (sig : CompactSignature) (msg : Bytes) :
    Spec.schnorr_verify H msg (Spec.xbytes P.1) sig.toBytes = true ↔ verifySingle H P sig msg = .ok () := by
  have htake : sig.toBytes.take 32 = sig.rx.1 := by
    unfold CompactSignature.toBytes
    rw [List.take_left' sig.rx.2]
  have hdrop : sig.toBytes.drop 32 = (serScalar sig.s).1 := by
    unfold CompactSignature.toBytes
    rw [List.drop_left' sig.rx.2]
  rw [verifySingle_eq_ok]
  unfold Spec.schnorr_verify
  rw [spec_xbytes, spec_lift_x_xonly]
  simp only
  rw [htake, hdrop]
  unfold Spec.int_from_bytes
  rw [beNat_serScalar, tagged_bip340Challenge hH]
  set e := computeChallengeHashTweak H sig.rx P msg with he
  have hev : beNat (tagHash H BIP0340_CHALLENGE_TAG_DIGEST (sig.rx.1 ++ (xonly P.1).1 ++ msg)).1 % orderN = e.val := by
    rw [he]; unfold computeChallengeHashTweak; rw [reduceFrom_val]
  rw [hev]
  have hR : sig.s.val • Spec.G + (orderN - e.val) • (toEvenY P).1 = sig.s • G - e • (toEvenY P).1 := by
    rw [spec_G, nsmul_eq, nsmul_eq, cast_orderN_sub (ZMod.val_lt e).le, serScalar_val, serScalar_val, neg_smul,
      sub_eq_add_neg]
  rw [hR]
  have hs : ¬ sig.s.val ≥ orderN := by have := ZMod.val_lt sig.s; omega
  constructor
  · intro h
    split at h
    · cases h
    split at h
    · cases h
    rename_i h0
    split at h
    · cases h
    rename_i ho
    simp only [decide_eq_true_eq] at h
    refine ⟨⟨_, h0⟩, by simp, ?_, ?_⟩
    · rw [spec_has_even_y] at ho
      simpa using ho
    · rw [spec_x] at h
      apply Subtype.ext
      rw [xonly_eq]
      change beBytes 32 (xNat (sig.s • G - e • (toEvenY P).1)) = sig.rx.1
      rw [h, beBytes_beNat' sig.rx.2]
  · rintro ⟨V, hV, ho, hx⟩
    have hV' : sig.s • G - e • (toEvenY P).1 = V.1 := by rw [hV, add_sub_cancel_right]
    rw [hV', if_neg, if_neg V.2, if_neg]
    · rw [spec_x, ← hx, beNat_xonly]
      simp
    · rw [spec_has_even_y, ho]; simp
    · rw [not_or]
      refine ⟨?_, hs⟩
      rw [← hx, beNat_xonly]
      have := xNat_lt V.1
      omega

/-- The nonce of solo signing. -/
def soloNonce (H : Hash) (sk : Scalar) (msg : Bytes) (seed : Arr 32) : Scalar :=
  SecNonceBuilder.reduceOrOne (tagHash H BIP0340_NONCE_TAG_DIGEST
    ((xorBytes (tagHash H BIP0340_AUX_TAG_DIGEST seed.1) (serScalar (sk.negIf (isOdd (mulG sk).1)).1)).1
      ++ (xonly (mulG sk).1).1 ++ msg))

theorem signSoloAdaptor_eq (H : Hash) (sk : Scalar) (msg : Bytes) (seed : Arr 32) (T : MaybePoint) :
    signSoloAdaptor H sk msg seed T =
      ⟨(mulG (soloNonce H sk msg seed)).1,
        negIf (isOdd ((mulG (soloNonce H sk msg seed)).1 + T)) (soloNonce H sk msg seed).1
          + computeChallengeHashTweak H (xonly ((mulG (soloNonce H sk msg seed)).1 + T)) (mulG sk) msg
            * negIf (isOdd (mulG sk).1) sk.1⟩ := rfl

theorem zipWith_xor_comm (a b : Bytes) : List.zipWith (· ^^^ ·) a b = List.zipWith (· ^^^ ·) b a := by
  induction a generalizing b with
  | nil => cases b <;> rfl
  | cons x a ih =>
    cases b with
    | nil => rfl
    | cons y b => rw [List.zipWith_cons_cons, List.zipWith_cons_cons, ih, UInt8.xor_comm]

theorem spec_neg_scalar (sk : Scalar) (b : Bool) :
    ((if (!b) = true then sk.1.val else orderN - sk.1.val : ℕ) : MaybeScalar) = negIf b sk.1 := by
  cases b
  · simp
  · simp only [Bool.not_true, Bool.false_eq_true, if_false, negIf_true]
    rw [cast_orderN_sub (ZMod.val_lt _).le, serScalar_val]

theorem spec_neg_scalar_lt (sk : Scalar) (b : Bool) :
    (if (!b) = true then sk.1.val else orderN - sk.1.val : ℕ) < orderN := by
  have h1 := ZMod.val_lt sk.1
  have h2 : sk.1.val ≠ 0 := by rw [Ne, ZMod.val_eq_zero]; exact sk.2
  split <;> omega

theorem solo_nonce_eq {H : Hash} (hH : TagsAgree H) (sk : Scalar) (msg : Bytes) (aux : Arr 32) :
    (Spec.solo_nonce H sk msg aux.1 = 0 → soloNonce H sk msg aux = scalarOne) ∧
    (Spec.solo_nonce H sk msg aux.1 ≠ 0 → (soloNonce H sk msg aux).1.val = Spec.solo_nonce H sk msg aux.1) := by
  have hP : sk.1.val • Spec.G = (mulG sk).1 := by rw [spec_G, ← smul_def]; rfl
  have hd : Spec.bytes_from_int (if (!isOdd (mulG sk).1) = true then sk.1.val else orderN - sk.1.val)
      = (serScalar (sk.negIf (isOdd (mulG sk).1)).1).1 := by
    rw [spec_bytes_from_int _ (spec_neg_scalar_lt sk _), spec_neg_scalar, Scalar.negIf_val]
  have hk : Spec.solo_nonce H sk msg aux.1 = (reduceFrom (tagHash H BIP0340_NONCE_TAG_DIGEST
    ((xorBytes (tagHash H BIP0340_AUX_TAG_DIGEST aux.1) (serScalar (sk.negIf (isOdd (mulG sk).1)).1)).1
      ++ (xonly (mulG sk).1).1 ++ msg))).val := by
    unfold Spec.solo_nonce
    simp only
    rw [hP, spec_has_even_y, hd, tagged_bip340Aux hH, tagged_bip340Nonce hH, spec_xbytes, reduceFrom_val]
    unfold Spec.bytes_xor xorBytes
    rw [zipWith_xor_comm]
    rfl
  have hv := SecNonceBuilder.reduceOrOne_val (tagHash H BIP0340_NONCE_TAG_DIGEST
    ((xorBytes (tagHash H BIP0340_AUX_TAG_DIGEST aux.1) (serScalar (sk.negIf (isOdd (mulG sk).1)).1)).1
      ++ (xonly (mulG sk).1).1 ++ msg))
  rw [← reduceFrom_val, ← hk] at hv
  constructor
  · intro h
    rw [if_pos h] at hv
    apply Subtype.ext
    apply ZMod.val_injective
    change (soloNonce H sk msg aux).1.val = (1 : MaybeScalar).val
    rw [ZMod.val_one'' (by have := one_lt_orderN; omega)]
    exact hv
  · intro h
    rw [if_neg h] at hv
    exact hv

theorem reveal_of_adapt {sig : AdaptorSignature} {t : MaybeScalar} {f : LiftedSignature} (h : sig.adapt t = some f) :
    sig.revealSecret f = some (if sig.R = 0 ∧ isOdd (t • G) = true then -t else t) := by
  obtain ⟨R, hR, hfR, hfs⟩ := adapt_eq_some.1 h
  have hval : f.R.1 = negIf (isOdd R.1) R.1 := by rw [hfR, toEvenY_val]
  cases ho : isOdd R.1 with
  | false =>
    rw [ho, negIf_false] at hval hfs
    rw [if_neg]
    · refine revealSecret_first (by rw [hfs]; ring) ?_
      rw [hval, hR, add_sub_cancel_left]
    · rintro ⟨h0, h1⟩
      rw [hR, h0, zero_add] at ho
      rw [ho] at h1
      cases h1
  | true =>
    rw [ho, negIf_true] at hval hfs
    have e1 : f.s - sig.s = -t := by rw [hfs]; ring
    by_cases h0 : sig.R = 0
    · rw [if_pos]
      · refine revealSecret_first e1 ?_
        rw [hval, hR, h0, neg_smul]; abel
      · refine ⟨h0, ?_⟩
        rw [hR, h0, zero_add] at ho
        exact ho
    · rw [if_neg (fun h => h0 h.1)]
      have := revealSecret_second (sig := sig) (f := f) e1 ?_ ?_
      · rw [this, neg_neg]
      · rw [hval, hR, neg_smul]
        intro he
        have : (2 : MaybeScalar) • sig.R = 0 := by
          rw [two_smul]
          have h2 : -(t • G) + (sig.R + sig.R) = -(t • G) := by
            nth_rw 1 [he]; abel
          simpa using h2
        rw [smul_eq_zero_iff] at this
        exact this.elim two_ne_zero_scalar h0
      · rw [hval, hR, neg_smul]; abel

/-- What encrypting an adaptor signature again does to its validity. -/
theorem encrypt_adaptor_valid_iff (H : Hash) (P : Point) (sig : AdaptorSignature) (msg : Bytes) (T : MaybePoint)
    (t : Scalar) (h : verifySingleAdaptor H P sig msg T = .ok ()) :
    verifySingleAdaptor H P (sig.encrypt t) msg (T + t.1 • G) = .ok () ↔ isOdd (sig.R + T) = false := by
  rw [verifySingleAdaptor_eq_ok] at *
  unfold AdaptorSignature.encrypt
  simp only
  have hRT : sig.R - t.1 • G + (T + t.1 • G) = sig.R + T := by abel
  rw [hRT, sub_smul, h]
  cases ho : isOdd (sig.R + T) with
  | false =>
    simp only [negIf_false, iff_true]
    abel
  | true =>
    simp only [negIf_true, Bool.true_eq_false, iff_false]
    intro he
    have h2 : (2 : MaybeScalar) • (t.1 • G) = 0 := by
      rw [two_smul]
      have := congrArg (fun x => x + sig.R + t.1 • G
        - computeChallengeHashTweak H (xonly (sig.R + T)) P msg • (toEvenY P).1) he
      have h3 : (t.1 • G + t.1 • G : MaybePoint) = 0 := by
        have e1 : -sig.R + computeChallengeHashTweak H (xonly (sig.R + T)) P msg • (toEvenY P).1 - t.1 • G + sig.R
          + t.1 • G - computeChallengeHashTweak H (xonly (sig.R + T)) P msg • (toEvenY P).1 = 0 := by abel
        have e2 : -(sig.R - t.1 • G) + computeChallengeHashTweak H (xonly (sig.R + T)) P msg • (toEvenY P).1 + sig.R
          + t.1 • G - computeChallengeHashTweak H (xonly (sig.R + T)) P msg • (toEvenY P).1
            = t.1 • G + t.1 • G := by abel
        rw [← e2, ← this, e1]
      exact h3
    rw [smul_eq_zero_iff, smul_G_eq_zero] at h2
    exact h2.elim two_ne_zero_scalar t.2

theorem valid_adaptor_exists (H : Hash) (sk : Scalar) (k : MaybeScalar) (T : MaybePoint) (msg : Bytes) :
    ∃ s, verifySingleAdaptor H (mulG sk) ⟨k • G, s⟩ msg T = .ok () := by
  refine ⟨negIf (isOdd (k • G + T)) k + computeChallengeHashTweak H (xonly (k • G + T)) (mulG sk) msg
    * negIf (isOdd (mulG sk).1) sk.1, ?_⟩
  rw [verifySingleAdaptor_eq_ok]
  simp only
  rw [add_smul, ← negIf_smul, mul_smul, ← negIf_smul, toEvenY_val]
  rfl

end Verif
