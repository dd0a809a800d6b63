import Verif.Lemmas.Props.Bip340
import Verif.Props.Nonces
import Verif.Lemmas.SigAgg

/-!
# Properties C33-C42: single-key signatures and adaptor signatures
-/

namespace Verif

/-! ## C33 -/

/-- **C33**. On 64 bytes, `verify_single` accepts exactly what BIP340 `Verify` accepts for the x-only key; every other
outcome, also for strings of another length, is `BadSignature`. -/
theorem C33_verify_single_is_bip340 (H : Hash) (hH : TagsAgree H) (P : Point) (sig msg : Bytes) :
    (verifySingleBytes H P sig msg = .ok () ↔
      sig.length = 64 ∧ Spec.schnorr_verify H msg (Spec.xbytes P.1) sig = true) ∧
    (verifySingleBytes H P sig msg ≠ .ok () → verifySingleBytes H P sig msg = .err .badSignature) := by
  have hdec := CompactSignature.fromBytes_cases sig
  unfold verifySingleBytes
  rcases hdec with ⟨c, hc, hb⟩ | ⟨e, hc, hbad⟩
  · rw [hc]
    simp only
    refine ⟨?_, fun h => ?_⟩
    · have hl : sig.length = 64 := by rw [← hb]; exact c.toBytes_length
      have hv := spec_schnorr_verify hH P c msg
      rw [hb] at hv
      exact ⟨fun h => ⟨hl, hv.2 h⟩, fun h => hv.1 h.2⟩
    · exact verifySingle_dichotomy.resolve_left h
  · rw [hc]
    simp only
    refine ⟨⟨fun h => (by cases h), fun ⟨h1, h2⟩ => ?_⟩, fun _ => rfl⟩
    exfalso
    have hs : Spec.int_from_bytes (sig.drop 32) ≥ orderN := hbad h1
    unfold Spec.schnorr_verify at h2
    rw [spec_xbytes, spec_lift_x_xonly] at h2
    simp only at h2
    rw [if_pos (Or.inr hs)] at h2
    cases h2

/-- **C33**. The same for signatures given as `CompactSignature` or `LiftedSignature`. -/
theorem C33_verify_single_typed (H : Hash) (hH : TagsAgree H) (P : Point) (msg : Bytes) :
    (∀ sig : CompactSignature, verifySingle H P sig msg = .ok () ↔
      Spec.schnorr_verify H msg (Spec.xbytes P.1) sig.toBytes = true) ∧
    (∀ sig : LiftedSignature, verifySingleLifted H P sig msg = .ok () ↔
      Spec.schnorr_verify H msg (Spec.xbytes P.1) sig.toBytes = true) ∧
    (∀ sig : CompactSignature, verifySingle H P sig msg ≠ .ok () → verifySingle H P sig msg = .err .badSignature) ∧
    (∀ sig : LiftedSignature, verifySingleLifted H P sig msg ≠ .ok () →
      verifySingleLifted H P sig msg = .err .badSignature) :=
  ⟨fun sig => (spec_schnorr_verify hH P sig msg).symm, fun sig => (spec_schnorr_verify hH P sig.compact msg).symm,
    fun _ h => verifySingle_dichotomy.resolve_left h, fun _ h => verifySingle_dichotomy.resolve_left h⟩

/-! ## C34 -/

/-- **C34**. The parity of the public key does not matter. -/
theorem C34_parity_insensitive (H : Hash) (P : Point) (msg : Bytes) :
    (∀ sig, verifySingle H (Point.neg P) sig msg = verifySingle H P sig msg) ∧
    (∀ sig, verifySingleLifted H (Point.neg P) sig msg = verifySingleLifted H P sig msg) ∧
    (∀ sig, verifySingleBytes H (Point.neg P) sig msg = verifySingleBytes H P sig msg) ∧
    (∀ sig T, verifySingleAdaptor H (Point.neg P) sig msg T = verifySingleAdaptor H P sig msg T) ∧
    (∀ rx, computeChallengeHashTweak H rx (Point.neg P) msg = computeChallengeHashTweak H rx P msg) := by
  have hw : ∀ sig, verifySingleWith H (Point.neg P) sig msg = verifySingleWith H P sig msg := by
    intro sig
    unfold verifySingleWith
    rw [toEvenY_neg]
  refine ⟨fun sig => hw _, fun sig => hw _, fun sig => ?_, fun sig T => ?_, fun rx => chal_neg H rx P msg⟩
  · unfold verifySingleBytes
    simp only [hw]
  · unfold verifySingleAdaptor
    rw [toEvenY_neg]

/-- A key and its negation are different, and one of them has odd Y. -/
example : Point.neg Gpt ≠ Gpt ∧ isOdd (Point.neg Gpt).1 = true := by
  refine ⟨negGpt_ne, ?_⟩
  change isOdd (-G) = true
  rw [isOdd_neg G_ne_zero, isOdd_G]; rfl

/-! ## C35-C37 -/

/-- **C37**. Solo adaptor signatures verify; adapting with the discrete log of the adaptor point gives a valid
signature, unless the adapted nonce is infinity, in which case `adapt` returns `None`. -/
theorem C37_solo_adaptor (H : Hash) (sk : Scalar) (msg : Bytes) (seed : Arr 32) :
    (∀ T, verifySingleAdaptor H (mulG sk) (signSoloAdaptor H sk msg seed T) msg T = .ok ()) ∧
    (∀ t : MaybeScalar,
      ((signSoloAdaptor H sk msg seed (t • G)).adapt t = none ↔
        (signSoloAdaptor H sk msg seed (t • G)).R + t • G = 0) ∧
      ∀ f, (signSoloAdaptor H sk msg seed (t • G)).adapt t = some f →
        verifySingleLifted H (mulG sk) f msg = .ok ()) := by
  have hv : ∀ T, verifySingleAdaptor H (mulG sk) (signSoloAdaptor H sk msg seed T) msg T = .ok () := by
    intro T
    rw [verifySingleAdaptor_eq_ok, signSoloAdaptor_eq]
    simp only
    rw [add_smul, ← negIf_smul, mul_smul, ← negIf_smul, toEvenY_val]
    rfl
  refine ⟨hv, fun t => ⟨adapt_eq_none, fun f hf => ?_⟩⟩
  exact (verify_adapt hf).2 (hv _)

/-- Both outcomes of `adapt` occur: for the negated nonce as secret there is no adapted signature. -/
example (H : Hash) (sk : Scalar) (msg : Bytes) (seed : Arr 32) :
    (∃ t : MaybeScalar, (signSoloAdaptor H sk msg seed (t • G)).adapt t = none) ∧
    (∃ (t : MaybeScalar) (f : LiftedSignature), (signSoloAdaptor H sk msg seed (t • G)).adapt t = some f) := by
  constructor
  · refine ⟨-(soloNonce H sk msg seed).1, adapt_eq_none.2 ?_⟩
    rw [signSoloAdaptor_eq]
    simp only [mulG_val]
    rw [neg_smul, add_neg_cancel]
  · refine ⟨0, ?_⟩
    rw [signSoloAdaptor_eq]
    exact ⟨_, adapt_zero _ _⟩

/-- **C35**. `sign_solo` never panics and its signature verifies under the signer's key. -/
theorem C35_solo_signature_verifies (H : Hash) (sk : Scalar) (msg : Bytes) (seed : Arr 32) (ε : Type) :
    ∃ sig, (signSolo H sk msg seed : Res ε _) = .ok sig ∧ verifySingleLifted H (mulG sk) sig msg = .ok () := by
  have hex : ∃ f, (signSoloAdaptor H sk msg seed 0).adapt 0 = some f := by
    rw [signSoloAdaptor_eq]
    exact ⟨_, adapt_zero _ _⟩
  obtain ⟨f, hf⟩ := hex
  refine ⟨f, ?_, ?_⟩
  · unfold signSolo
    rw [hf]
    rfl
  · have := ((C37_solo_adaptor H sk msg seed).2 0).2
    rw [zero_smul] at this
    exact this f hf

/-- C33 with SHA-256: for every key and message there is a string that BIP340 and `verify_single` accept; neither accepts it with
a byte appended. -/
example (sk : Scalar) (msg : Bytes) : ∃ sig : Bytes, verifySingleBytes sha256 (mulG sk) sig msg = .ok () ∧
    Spec.schnorr_verify sha256 msg (Spec.xbytes (mulG sk).1) sig = true ∧
    verifySingleBytes sha256 (mulG sk) (sig ++ [0]) msg = .err .badSignature := by
  obtain ⟨f, -, hf⟩ := C35_solo_signature_verifies sha256 sk msg zeroSeed Unit
  have hv : verifySingleBytes sha256 (mulG sk) f.toBytes msg = .ok () := by
    unfold verifySingleBytes
    rw [show f.toBytes = f.compact.toBytes from rfl, CompactSignature.fromBytes_toBytes]
    exact hf
  have hb := (C33_verify_single_is_bip340 sha256 sha256_tagsAgree (mulG sk) f.toBytes msg).1.1 hv
  refine ⟨f.toBytes, hv, hb.2, (C33_verify_single_is_bip340 sha256 sha256_tagsAgree _ _ _).2 fun h => ?_⟩
  have := ((C33_verify_single_is_bip340 sha256 sha256_tagsAgree _ _ _).1.1 h).1
  rw [List.length_append, hb.1] at this
  simp at this

/-- **C36**. `sign_solo` returns exactly the bytes of BIP340 default signing; BIP340 fails only when the nonce hash is
zero modulo `n`, in which case `sign_solo` signs with the nonce 1. -/
theorem C36_solo_is_bip340_sign (H : Hash) (hH : TagsAgree H) (sk : Scalar) (msg : Bytes) (aux : Arr 32) (ε : Type) :
    (∀ bytes, Spec.schnorr_sign H (Spec.bytes_from_int sk.1.val) msg aux.1 = some bytes →
      ∃ sig, (signSolo H sk msg aux : Res ε _) = .ok sig ∧ sig.toBytes = bytes) ∧
    (Spec.schnorr_sign H (Spec.bytes_from_int sk.1.val) msg aux.1 = none ↔ Spec.solo_nonce H sk msg aux.1 = 0) ∧
    (Spec.solo_nonce H sk msg aux.1 = 0 → ∃ sig, (signSolo H sk msg aux : Res ε _) = .ok sig ∧ sig.R = Gpt) := by
  have hsk : Spec.int_from_bytes (Spec.bytes_from_int sk.1.val) = sk.1.val := by
    unfold Spec.int_from_bytes Spec.bytes_from_int
    exact beNat_beBytes_of_lt ((ZMod.val_lt sk.1).trans orderN_lt)
  have h0 : ¬ (sk.1.val = 0 ∨ sk.1.val ≥ orderN) := by
    have h1 := ZMod.val_lt sk.1
    have h2 : sk.1.val ≠ 0 := by rw [Ne, ZMod.val_eq_zero]; exact sk.2
    omega
  have hP : sk.1.val • Spec.G = (mulG sk).1 := by rw [spec_G, ← smul_def]; rfl
  obtain ⟨hn0, hn1⟩ := solo_nonce_eq hH sk msg aux
  have hunf : Spec.schnorr_sign H (Spec.bytes_from_int sk.1.val) msg aux.1 =
      if Spec.solo_nonce H sk msg aux.1 = 0 then none
      else some (Spec.xbytes (Spec.solo_nonce H sk msg aux.1 • Spec.G) ++ Spec.bytes_from_int
        (((if Spec.has_even_y (Spec.solo_nonce H sk msg aux.1 • Spec.G) = true then Spec.solo_nonce H sk msg aux.1
            else orderN - Spec.solo_nonce H sk msg aux.1)
          + Spec.int_from_bytes (Spec.tagged_hash H "BIP0340/challenge"
              (Spec.xbytes (Spec.solo_nonce H sk msg aux.1 • Spec.G) ++ Spec.xbytes (sk.1.val • Spec.G) ++ msg)) % orderN
            * (if Spec.has_even_y (sk.1.val • Spec.G) = true then sk.1.val else orderN - sk.1.val)) % orderN)) := by
    unfold Spec.schnorr_sign
    simp only
    rw [hsk, if_neg h0]
    rfl
  have hsolo : ∀ k : Scalar, soloNonce H sk msg aux = k → (signSolo H sk msg aux : Res ε _) = .ok
      (LiftedSignature.new (mulG k) (negIf (isOdd (mulG k).1) k.1
          + computeChallengeHashTweak H (xonly (mulG k).1) (mulG sk) msg * negIf (isOdd (mulG sk).1) sk.1)) := by
    rintro k rfl
    unfold signSolo
    rw [signSoloAdaptor_eq, adapt_zero, Res.unwrap_some, add_zero]
  refine ⟨fun bytes hb => ?_, ?_, fun hz => ?_⟩
  · rw [hunf] at hb
    split at hb
    · cases hb
    rename_i hnz
    have hk := hn1 hnz
    set k := soloNonce H sk msg aux with hkdef
    rw [← hk] at hb
    refine ⟨_, hsolo k rfl, ?_⟩
    simp only [Option.some.injEq] at hb
    rw [← hb]
    have hR : k.1.val • Spec.G = (mulG k).1 := by rw [spec_G, ← smul_def]; rfl
    rw [hR, hP, spec_xbytes, spec_xbytes, spec_has_even_y, spec_has_even_y, spec_bytes_from_int_mod, Nat.cast_add,
      Nat.cast_mul, spec_neg_scalar, spec_neg_scalar, cast_mod_orderN, tagged_bip340Challenge hH]
    unfold LiftedSignature.toBytes LiftedSignature.compact CompactSignature.new CompactSignature.toBytes
      LiftedSignature.new
    simp only
    rw [xonly_toEvenY]
    rfl
  · rw [hunf]
    split <;> simp [*]
  · refine ⟨_, hsolo _ (hn0 hz), ?_⟩
    unfold LiftedSignature.new
    simp only
    have : mulG scalarOne = Gpt := Subtype.ext (one_smul _ _)
    rw [this, toEvenY_of_even isOdd_G]

/-! ## C38 -/

/-- **C38**. An adaptor signature is valid for `t•G` exactly if adapting it with `t` gives a valid signature. -/
theorem C38_adaptor_valid_iff_adapted_valid (H : Hash) (P : Point) (sig : AdaptorSignature) (msg : Bytes)
    (t : MaybeScalar) (h : sig.R + t • G ≠ 0) :
    ∃ f, sig.adapt t = some f ∧
      (verifySingleAdaptor H P sig msg (t • G) = .ok () ↔ verifySingleLifted H P f msg = .ok ()) := by
  cases hf : sig.adapt t with
  | none => exact absurd (adapt_eq_none.1 hf) h
  | some f => exact ⟨f, rfl, (verify_adapt hf).symm⟩

example : (⟨G, 0⟩ : AdaptorSignature).R + (1 : MaybeScalar) • G ≠ 0 := by
  change G + (1 : MaybeScalar) • G ≠ 0
  rw [one_smul, ← two_smul MaybeScalar, Ne, smul_G_eq_zero]
  exact two_ne_zero_scalar

/-! ## C39, C40 -/

/-- **C39**, true part: the secret is revealed, if the nonce of the adaptor signature is finite or the adapted nonce
has even Y. Missing: an infinite nonce with an odd `t•G`, see `C39_negated_secret_revealed`. -/
theorem C39_reveal_partial (sig : AdaptorSignature) (t : MaybeScalar) (f : LiftedSignature)
    (h : sig.adapt t = some f) (hR : sig.R ≠ 0 ∨ isOdd (sig.R + t • G) = false) :
    sig.revealSecret f = some t := by
  rw [reveal_of_adapt h, if_neg]
  rintro ⟨h0, h1⟩
  rcases hR with hR | hR
  · exact hR h0
  · rw [h0, zero_add] at hR
    rw [hR] at h1
    cases h1

/-- An adaptor signature with a finite nonce, adapted. -/
example : (⟨G, 5⟩ : AdaptorSignature).adapt 0 = some ⟨Gpt, 5⟩ := by
  have := adapt_zero Gpt 5
  rw [show LiftedSignature.new Gpt 5 = ⟨toEvenY Gpt, 5⟩ from rfl, toEvenY_of_even isOdd_G] at this
  exact this

/-- **C39** is false in general: for an adaptor signature with infinite nonce and a secret with odd `t•G`, the negated
secret is returned, which is different. -/
theorem C39_negated_secret_revealed (s t : MaybeScalar) (ht : isOdd (t • G) = true) :
    ∃ f, (⟨0, s⟩ : AdaptorSignature).adapt t = some f ∧
      (⟨0, s⟩ : AdaptorSignature).revealSecret f = some (-t) ∧ -t ≠ t := by
  have h0 : t • G ≠ 0 := by
    intro h
    rw [h] at ht
    exact absurd ht (by decide)
  cases hf : (⟨0, s⟩ : AdaptorSignature).adapt t with
  | none =>
    rw [adapt_eq_none, zero_add] at hf
    exact absurd hf h0
  | some f =>
    refine ⟨f, rfl, ?_, ?_⟩
    · rw [reveal_of_adapt hf, if_pos ⟨rfl, ht⟩]
    · intro h
      have : (2 : MaybeScalar) * t = 0 := by
        nth_rw 1 [two_mul, ← h]; ring
      rcases mul_eq_zero.1 this with h2 | h2
      · exact two_ne_zero_scalar h2
      · rw [h2, zero_smul] at h0
        exact h0 rfl

/-- **C39** is false: a concrete case, the secret `-1`. -/
theorem C39_reveal_secret_false : ¬ ∀ (sig : AdaptorSignature) (t : MaybeScalar) (f : LiftedSignature),
    sig.adapt t = some f → sig.revealSecret f = some t := by
  intro hall
  have ho : isOdd ((-1 : MaybeScalar) • G) = true := by
    rw [neg_smul, one_smul, isOdd_neg G_ne_zero, isOdd_G]; rfl
  obtain ⟨f, h1, h2, h3⟩ := C39_negated_secret_revealed 0 (-1) ho
  rw [hall _ _ _ h1] at h2
  exact h3 (Option.some.inj h2).symm

/-- **C40**. A revealed secret adapts the adaptor signature to the final signature, and if nothing is revealed, no
secret does. -/
theorem C40_reveal_sound (sig : AdaptorSignature) (f : LiftedSignature) (hf : isOdd f.R.1 = false) :
    (∀ t, sig.revealSecret f = some t → sig.adapt t = some f) ∧
    (sig.revealSecret f = none → ∀ t, sig.adapt t ≠ some f) := by
  constructor
  · intro t h
    unfold AdaptorSignature.revealSecret at h
    simp only at h
    split at h
    · rename_i he
      cases h
      refine adapt_eq_some.2 ⟨f.R, ?_, (toEvenY_of_even hf).symm, ?_⟩
      · rw [he]; abel
      · rw [hf, negIf_false]; ring
    · split at h
      · rename_i he
        cases h
        refine adapt_eq_some.2 ⟨Point.neg f.R, ?_, ?_, ?_⟩
        · rw [neg_smul, he, Point.neg_val]; abel
        · rw [toEvenY_neg, toEvenY_of_even hf]
        · rw [Point.neg_val, isOdd_neg f.R.2, hf]
          simp
      · cases h
  · intro h t ht
    rw [reveal_of_adapt ht] at h
    cases h

/-- Both cases occur. -/
example : (⟨G, 5⟩ : AdaptorSignature).revealSecret ⟨Gpt, 5⟩ = some 0 ∧
    (⟨G, 5⟩ : AdaptorSignature).revealSecret ⟨Gpt, 6⟩ = none := by
  constructor
  · exact revealSecret_first (sub_self _) (by simp [Gpt])
  · refine revealSecret_none (t := 1) (by ring) ?_ ?_
    · simpa [Gpt] using G_ne_zero
    · simpa [Gpt] using G_ne_zero

/-! ## C41, C42 -/

/-- **C41**. Encrypting a valid signature gives an adaptor signature valid for `t•G`, which adapts back. Lifted
signatures have even nonces (C44). -/
theorem C41_encrypt_valid (H : Hash) (P : Point) (sig : LiftedSignature) (msg : Bytes) (t : Scalar)
    (hev : isOdd sig.R.1 = false) :
    (verifySingleLifted H P sig msg = .ok () ↔
      verifySingleAdaptor H P (sig.encrypt t) msg (t.1 • G) = .ok ()) ∧
    (sig.encrypt t).adapt t.1 = some sig := by
  have ha : (sig.encrypt t).adapt t.1 = some sig := by
    refine adapt_eq_some.2 ⟨sig.R, ?_, (toEvenY_of_even hev).symm, ?_⟩
    · unfold LiftedSignature.encrypt AdaptorSignature.encrypt AdaptorSignature.new
      simp
    · unfold LiftedSignature.encrypt AdaptorSignature.encrypt AdaptorSignature.new
      rw [hev]; simp
  exact ⟨verify_adapt ha, ha⟩

/-- A valid signature with an even nonce, for any hash, key and message. -/
example (H : Hash) (sk : Scalar) (msg : Bytes) : ∃ sig : LiftedSignature, isOdd sig.R.1 = false ∧
    verifySingleLifted H (mulG sk) sig msg = .ok () := by
  obtain ⟨sig, h1, h2⟩ := C35_solo_signature_verifies H sk msg zeroSeed Unit
  unfold signSolo at h1
  rw [signSoloAdaptor_eq, adapt_zero] at h1
  cases h1
  exact ⟨_, isOdd_toEvenY _, h2⟩

/-- **C42**, true part: stacking works when `R + T` has even Y. Missing: odd `R + T`, see `C42_stacking_fails_odd`. -/
theorem C42_stacking_partial (H : Hash) (P : Point) (sig : AdaptorSignature) (msg : Bytes) (T : MaybePoint)
    (t : Scalar) (h : verifySingleAdaptor H P sig msg T = .ok ()) (he : isOdd (sig.R + T) = false) :
    verifySingleAdaptor H P (sig.encrypt t) msg (T + t.1 • G) = .ok () :=
  (encrypt_adaptor_valid_iff H P sig msg T t h).2 he

/-- **C42** is false whenever `R + T` has odd Y: encrypting again then always destroys validity. -/
theorem C42_stacking_fails_odd (H : Hash) (P : Point) (sig : AdaptorSignature) (msg : Bytes) (T : MaybePoint)
    (t : Scalar) (h : verifySingleAdaptor H P sig msg T = .ok ()) (ho : isOdd (sig.R + T) = true) :
    verifySingleAdaptor H P (sig.encrypt t) msg (T + t.1 • G) = .err .badSignature := by
  have := mt (encrypt_adaptor_valid_iff H P sig msg T t h).1 (by rw [ho]; simp)
  exact (verifySingleAdaptor_dichotomy _ _ _ _ _).resolve_left this

/-- **C42** is false: for every hash, key and message there is a valid adaptor signature (for the adaptor point
infinity, nonce `-G`) for which stacking fails. -/
theorem C42_stacking_false (H : Hash) (sk : Scalar) (msg : Bytes) (t : Scalar) :
    ∃ sig T, verifySingleAdaptor H (mulG sk) sig msg T = .ok () ∧
      verifySingleAdaptor H (mulG sk) (sig.encrypt t) msg (T + t.1 • G) = .err .badSignature := by
  obtain ⟨s, hs⟩ := valid_adaptor_exists H sk (-1) 0 msg
  refine ⟨_, 0, hs, C42_stacking_fails_odd H _ _ _ _ _ hs ?_⟩
  simp only [add_zero]
  rw [neg_smul, one_smul, isOdd_neg G_ne_zero, isOdd_G]; rfl

/-- The even case also occurs, for every hash, key and message. -/
example (H : Hash) (sk : Scalar) (msg : Bytes) : ∃ sig T, verifySingleAdaptor H (mulG sk) sig msg T = .ok () ∧
    isOdd (sig.R + T) = false := by
  obtain ⟨s, hs⟩ := valid_adaptor_exists H sk 1 0 msg
  refine ⟨_, 0, hs, ?_⟩
  simp only [add_zero]
  rw [one_smul, isOdd_G]

end Verif
