import Verif.Lemmas.Props.Conversions
import Verif.Model.Conversions
import Verif.Props.Bip340
import Verif.Props.Encoding

/-!
# Property C86
-/

namespace Verif

/-- **C86**. A 64-byte signature object of `secp256k1` converts to a compact signature exactly when its second half is
below the group order, to a lifted one exactly when moreover its first half is the x coordinate of a point, and what
one gets is the signature with these bytes. No conversion panics. -/
theorem C86_secp256k1_accepts_iff (b : Arr 64) :
    (∀ c, CompactSignature.ofSecp256k1 b = .ok c ↔ c.toSecp256k1 = b) ∧
    ((∃ c, CompactSignature.ofSecp256k1 b = .ok c) ↔ Spec.int_from_bytes (b.1.drop 32) < orderN) ∧
    (∀ l, LiftedSignature.ofSecp256k1 b = .ok l ↔ Spec.has_even_y l.R.1 = true ∧ l.toSecp256k1 = b) ∧
    ((∃ l, LiftedSignature.ofSecp256k1 b = .ok l) ↔
      Spec.int_from_bytes (b.1.drop 32) < orderN ∧ (Spec.lift_x (b.1.take 32)).isSome = true) ∧
    CompactSignature.ofSecp256k1 b ≠ .panic ∧ LiftedSignature.ofSecp256k1 b ≠ .panic := by
  have hc : ∀ c, CompactSignature.ofSecp256k1 b = .ok c ↔ c.toSecp256k1 = b := by
    intro c
    unfold CompactSignature.ofSecp256k1 CompactSignature.toSecp256k1
    rw [CompactSignature.fromBytes_eq_ok, Subtype.ext_iff, c.toArr_val]
    exact eq_comm
  have hl : ∀ l, LiftedSignature.ofSecp256k1 b = .ok l ↔ Spec.has_even_y l.R.1 = true ∧ l.toSecp256k1 = b := by
    intro l
    unfold LiftedSignature.ofSecp256k1 LiftedSignature.toSecp256k1
    rw [LiftedSignature.fromBytes_eq_ok, Subtype.ext_iff, l.toArr_val, spec_has_even_y, Bool.not_eq_true', eq_comm (a := b.1)]
  have hce : (∃ c, CompactSignature.ofSecp256k1 b = .ok c) ↔ Spec.int_from_bytes (b.1.drop 32) < orderN := by
    constructor
    · rintro ⟨c, h⟩
      rw [← (hc c).1 h]
      change beNat (c.toBytes.drop 32) < orderN
      unfold CompactSignature.toBytes
      rw [List.drop_left' c.rx.2, beNat_serScalar]
      exact ZMod.val_lt _
    · intro h
      rcases CompactSignature.fromBytes_cases b.1 with ⟨c, h1, -⟩ | ⟨e, -, h2⟩
      · exact ⟨c, h1⟩
      · exact absurd h (not_lt.2 (h2 b.2))
  refine ⟨hc, hce, hl, ?_, CompactSignature.fromBytes_ne_panic _, LiftedSignature.fromBytes_ne_panic _⟩
  rw [← hce]
  have hlift : ∀ c : CompactSignature, c.toSecp256k1 = b → (Spec.lift_x (b.1.take 32)) = (liftX c.rx).map (·.1) := by
    rintro c rfl
    have : c.toSecp256k1.1.take 32 = c.rx.1 := List.take_left' c.rx.2
    rw [this, spec_lift_x]
  constructor
  · rintro ⟨l, h⟩
    obtain ⟨h1, h2⟩ := (hl l).1 h
    refine ⟨⟨l.compact, (hc _).2 h2⟩, ?_⟩
    rw [hlift l.compact h2, Option.isSome_map]
    have := CompactSignature.liftNonce_eq_some.2 ⟨by rwa [spec_has_even_y, Bool.not_eq_true'] at h1, rfl⟩
    unfold CompactSignature.liftNonce at this
    cases hx : liftX l.compact.rx with
    | none => rw [hx] at this; cases this
    | some _ => rfl
  · rintro ⟨⟨c, h⟩, h2⟩
    rw [hlift c ((hc c).1 h), Option.isSome_map] at h2
    obtain ⟨R, hR⟩ := Option.isSome_iff_exists.1 h2
    have h3 : c.liftNonce = some ⟨R, c.s⟩ := by unfold CompactSignature.liftNonce; rw [hR]
    obtain ⟨h4, h5⟩ := CompactSignature.liftNonce_eq_some.1 h3
    refine ⟨⟨R, c.s⟩, (hl _).2 ⟨by rw [spec_has_even_y, h4]; rfl, ?_⟩⟩
    rw [← (hc c).1 h, ← h5]
    rfl

/-- **C86**. Going to `secp256k1` and back loses nothing, and a lifted signature and its compact form become the same
object. -/
theorem C86_secp256k1_roundtrip (c : CompactSignature) (l : LiftedSignature) :
    CompactSignature.ofSecp256k1 c.toSecp256k1 = .ok c ∧
    (Spec.has_even_y l.R.1 = true → LiftedSignature.ofSecp256k1 l.toSecp256k1 = .ok l) ∧
    l.compact.toSecp256k1 = l.toSecp256k1 ∧
    c.toSecp256k1.1 = c.rx.1 ++ Spec.bytes_from_int c.s.val ∧
    l.toSecp256k1.1 = Spec.xbytes l.R.1 ++ Spec.bytes_from_int l.s.val :=
  ⟨((C86_secp256k1_accepts_iff _).1 c).2 rfl, fun h => ((C86_secp256k1_accepts_iff _).2.2.1 l).2 ⟨h, rfl⟩, rfl, rfl,
    (C43_signature_layout c ⟨0, 0⟩ l).2.2⟩

/-- **C86**. A `secp256k1` signature object is valid in the sense of BIP340 exactly when it converts and `verify_single`
accepts the result, for either form. -/
theorem C86_secp256k1_verify (H : Hash) (hH : TagsAgree H) (P : Point) (msg : Bytes) (b : Arr 64) :
    (Spec.schnorr_verify H msg (Spec.xbytes P.1) b.1 = true ↔
      ∃ c, CompactSignature.ofSecp256k1 b = .ok c ∧ verifySingle H P c msg = .ok ()) ∧
    (Spec.schnorr_verify H msg (Spec.xbytes P.1) b.1 = true ↔
      ∃ l, LiftedSignature.ofSecp256k1 b = .ok l ∧ verifySingleLifted H P l msg = .ok ()) := by
  obtain ⟨hc, hce, hl, -, -, -⟩ := C86_secp256k1_accepts_iff b
  have hcv : Spec.schnorr_verify H msg (Spec.xbytes P.1) b.1 = true ↔
      ∃ c, CompactSignature.ofSecp256k1 b = .ok c ∧ verifySingle H P c msg = .ok () := by
    constructor
    · intro h
      have h64 := ((C33_verify_single_is_bip340 H hH P b.1 msg).1).2 ⟨b.2, h⟩
      unfold verifySingleBytes at h64
      cases hb : CompactSignature.fromBytes b.1 with
      | ok c => rw [hb] at h64; exact ⟨c, hb, h64⟩
      | err e => rw [hb] at h64; exact absurd h64 (by intro h; cases h)
      | panic => rw [hb] at h64; cases h64
    · rintro ⟨c, h1, h2⟩
      rw [← (hc c).1 h1]
      exact ((C33_verify_single_typed H hH P msg).1 c).1 h2
  refine ⟨hcv, hcv.trans ⟨?_, ?_⟩⟩
  · rintro ⟨c, h1, h2⟩
    have hv := h2
    unfold verifySingle verifySingleWith at hv
    simp only [Res.bind_eq_ok, Res.okOr_eq_ok] at hv
    obtain ⟨c', hc', V, hV, h3⟩ := hv
    cases hc'
    split at h3
    · cases h3
    rename_i ho
    split at h3
    swap
    · cases h3
    rename_i hx
    have hlift : c.liftNonce = some ⟨V, c.s⟩ :=
      CompactSignature.liftNonce_eq_some.2 ⟨by simpa using ho, by unfold LiftedSignature.compact CompactSignature.new; rw [hx]⟩
    obtain ⟨h4, h5⟩ := CompactSignature.liftNonce_eq_some.1 hlift
    refine ⟨⟨V, c.s⟩, (hl _).2 ⟨by rw [spec_has_even_y, h4]; rfl, ?_⟩, ?_⟩
    · rw [← (hc c).1 h1]
      unfold LiftedSignature.toSecp256k1 LiftedSignature.toArr CompactSignature.toSecp256k1
      rw [h5]
    · unfold verifySingleLifted
      rw [h5]
      exact h2
  · rintro ⟨l, h1, h2⟩
    exact ⟨l.compact, (hc _).2 ((hl l).1 h1).2, h2⟩

/-- Valid signature objects exist. -/
example (sk : Scalar) (msg : Bytes) :
    ∃ b : Arr 64, Spec.schnorr_verify sha256 msg (Spec.xbytes (mulG sk).1) b.1 = true := by
  obtain ⟨l, -, h⟩ := C35_solo_signature_verifies sha256 sk msg zeroSeed Unit
  exact ⟨l.toSecp256k1, ((C33_verify_single_typed sha256 sha256_tagsAgree _ msg).2.1 l).1 h⟩

/-- **C86**. A pair `(R, s)` of `k256` becomes the signature with the even one of `R` and `-R` and the same `s`. Both forms
agree, both give the pair back with the even nonce, and verify alike. -/
theorem C86_k256_pair (H : Hash) (R : Point) (s : MaybeScalar) (P : Point) (msg : Bytes) :
    let even : Point := (LiftedSignature.ofK256 (R, s)).R
    Spec.has_even_y even.1 = true ∧ (even.1 = R.1 ∨ even.1 = -R.1) ∧ (Spec.has_even_y R.1 = true → even = R) ∧
    (LiftedSignature.ofK256 (R, s)).compact = CompactSignature.ofK256 (R, s) ∧
    (LiftedSignature.ofK256 (R, s)).toK256 = (even, s) ∧
    (LiftedSignature.ofK256 (R, s)).toK256Affine = (even.1, s) ∧
    (CompactSignature.ofK256 (R, s)).toK256 = some (even, s) ∧
    LiftedSignature.ofK256 (Point.neg R, s) = LiftedSignature.ofK256 (R, s) ∧
    verifySingle H P (CompactSignature.ofK256 (R, s)) msg = verifySingleLifted H P (LiftedSignature.ofK256 (R, s)) msg := by
  have hcomp : (LiftedSignature.ofK256 (R, s)).compact = CompactSignature.ofK256 (R, s) := by
    unfold LiftedSignature.ofK256 CompactSignature.ofK256 LiftedSignature.compact LiftedSignature.new CompactSignature.new
    rw [xonly_toEvenY]
  have heven : isOdd (LiftedSignature.ofK256 (R, s)).R.1 = false := isOdd_toEvenY R
  refine ⟨by rw [spec_has_even_y, heven]; rfl, ?_, ?_, hcomp, rfl, rfl, ?_, ?_, ?_⟩
  · change (toEvenY R).1 = _ ∨ (toEvenY R).1 = _
    rw [toEvenY_val]
    cases isOdd R.1
    · exact Or.inl rfl
    · exact Or.inr rfl
  · intro h
    rw [spec_has_even_y, Bool.not_eq_true'] at h
    exact toEvenY_of_even h
  · unfold CompactSignature.toK256
    rw [← hcomp, CompactSignature.liftNonce_eq_some.2 ⟨heven, rfl⟩]
    rfl
  · unfold LiftedSignature.ofK256 LiftedSignature.new
    rw [toEvenY_neg]
  · unfold verifySingle verifySingleLifted
    rw [hcomp]

/-- **C86**. A signature survives the way through a `k256` pair. A compact signature converts exactly when its nonce is
the x coordinate of a point. -/
theorem C86_k256_roundtrip (c : CompactSignature) (l : LiftedSignature) :
    (Spec.has_even_y l.R.1 = true → LiftedSignature.ofK256 l.toK256 = l) ∧
    (∀ pair, c.toK256 = some pair → CompactSignature.ofK256 pair = c ∧ Spec.has_even_y pair.1.1 = true) ∧
    (c.toK256 = none ↔ Spec.lift_x c.rx.1 = none) ∧
    l.toK256Affine = (l.toK256.1.1, l.toK256.2) := by
  refine ⟨fun h => ?_, fun pair h => ?_, ?_, rfl⟩
  · rw [spec_has_even_y, Bool.not_eq_true'] at h
    change LiftedSignature.mk (toEvenY l.R) l.s = l
    rw [toEvenY_of_even h]
  · unfold CompactSignature.toK256 at h
    cases hl : c.liftNonce with
    | none => rw [hl] at h; cases h
    | some l =>
      rw [hl] at h
      cases h
      obtain ⟨h1, h2⟩ := CompactSignature.liftNonce_eq_some.1 hl
      exact ⟨h2, by change Spec.has_even_y l.R.1 = true; rw [spec_has_even_y, h1]; rfl⟩
  · rw [spec_lift_x]
    unfold CompactSignature.toK256 CompactSignature.liftNonce
    cases liftX c.rx <;> simp

/-- **C86**. The `k256` wide bytes are the 64 bytes of the signature. -/
theorem C86_wide_bytes (c : CompactSignature) (l : LiftedSignature) :
    c.toWideBytes.1 = c.toBytes ∧ l.toWideBytes.1 = l.toBytes ∧ l.compact.toWideBytes = l.toWideBytes :=
  ⟨rfl, rfl, rfl⟩

/-- An even and an odd pair. -/
example : Spec.has_even_y (Gpt : Point).1 = true ∧ Spec.has_even_y (Point.neg Gpt).1 = false := by
  rw [spec_has_even_y, spec_has_even_y, Point.neg_val, isOdd_neg Gpt.2]
  have h : isOdd Gpt.1 = false := isOdd_G
  rw [h]
  exact ⟨rfl, rfl⟩

end Verif
