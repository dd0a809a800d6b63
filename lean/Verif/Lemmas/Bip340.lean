import Verif.Lemmas.Signing

/-!
# Lemmas about single-key signatures
-/

namespace Verif

/-- The challenge for a key `P`, with its x coordinate only. -/
def chal (H : Hash) (rx : Arr 32) (P : Point) (msg : Bytes) : MaybeScalar := computeChallengeHashTweak H rx P msg

theorem chal_toEvenY (H : Hash) (rx : Arr 32) (P : Point) (msg : Bytes) :
    computeChallengeHashTweak H rx (toEvenY P) msg = computeChallengeHashTweak H rx P msg := by
  unfold computeChallengeHashTweak
  rw [xonly_toEvenY]

theorem chal_neg (H : Hash) (rx : Arr 32) (P : Point) (msg : Bytes) :
    computeChallengeHashTweak H rx (Point.neg P) msg = computeChallengeHashTweak H rx P msg := by
  unfold computeChallengeHashTweak
  rw [Point.neg_val, xonly_neg]

theorem verifySingle_eq_ok {H : Hash} {P : Point} {sig : CompactSignature} {msg : Bytes} :
    verifySingle H P sig msg = .ok () ↔
      ∃ V : Point, sig.s • G = V.1 + computeChallengeHashTweak H sig.rx P msg • (toEvenY P).1 ∧
        isOdd V.1 = false ∧ xonly V.1 = sig.rx := by
  unfold verifySingle verifySingleWith
  simp only [Res.okOr_some, Res.bind_ok, chal_toEvenY]
  set e := computeChallengeHashTweak H sig.rx P msg
  constructor
  · intro h
    obtain ⟨V, hV, h⟩ := Res.bind_eq_ok.1 h
    rw [Res.okOr_eq_ok, notInf_eq_some] at hV
    split at h
    · cases h
    rename_i ho
    split at h
    · rename_i hx
      exact ⟨V, by rw [← hV, sub_add_cancel], by simpa using ho, hx⟩
    · cases h
  · rintro ⟨V, hV, ho, hx⟩
    have : notInf (sig.s • G - e • (toEvenY P).1) = some V := notInf_eq_some.2 (by rw [hV, add_sub_cancel_right])
    rw [this, Res.okOr_some, Res.bind_ok, ho, if_neg (by simp), if_pos hx]

theorem verifySingle_ne_panic {H : Hash} {P : Point} {sig : Option CompactSignature} {msg : Bytes} :
    verifySingleWith H P sig msg ≠ .panic := by
  intro h
  unfold verifySingleWith at h
  rw [Res.bind_eq_panic] at h
  rcases h with h | ⟨c, -, h⟩
  · exact Res.okOr_ne_panic h
  rw [Res.bind_eq_panic] at h
  rcases h with h | ⟨V, -, h⟩
  · exact Res.okOr_ne_panic h
  split at h
  · cases h
  split at h <;> cases h

theorem verifySingle_dichotomy {H : Hash} {P : Point} {sig : Option CompactSignature} {msg : Bytes} :
    verifySingleWith H P sig msg = .ok () ∨ verifySingleWith H P sig msg = .err .badSignature := by
  unfold verifySingleWith
  cases sig with
  | none => right; rfl
  | some sig =>
    simp only [Res.okOr_some, Res.bind_ok]
    cases notInf (sig.s • G - computeChallengeHashTweak H sig.rx (toEvenY P) msg • (toEvenY P).1) with
    | none => right; rfl
    | some V =>
      simp only [Res.okOr_some, Res.bind_ok]
      split_ifs <;> simp

/-- For an even nonce, verification is the Schnorr equation. -/
theorem verifySingleLifted_eq_ok {H : Hash} {P : Point} {sig : LiftedSignature} {msg : Bytes}
    (hev : isOdd sig.R.1 = false) :
    verifySingleLifted H P sig msg = .ok () ↔
      sig.s • G = sig.R.1 + computeChallengeHashTweak H (xonly sig.R.1) P msg • (toEvenY P).1 := by
  have := verifySingle_eq_ok (H := H) (P := P) (sig := sig.compact) (msg := msg)
  unfold verifySingle at this
  unfold verifySingleLifted
  rw [this]
  unfold LiftedSignature.compact CompactSignature.new
  simp only
  constructor
  · rintro ⟨V, hV, ho, hx⟩
    have : V.1 = sig.R.1 := eq_of_xonly_isOdd hx (ho.trans hev.symm)
    rw [hV, this]
  · intro h
    exact ⟨sig.R, h, hev, rfl⟩

theorem verifySingleAdaptor_eq_ok {H : Hash} {P : Point} {sig : AdaptorSignature} {msg : Bytes} {T : MaybePoint} :
    verifySingleAdaptor H P sig msg T = .ok () ↔
      sig.s • G = negIf (isOdd (sig.R + T)) sig.R
        + computeChallengeHashTweak H (xonly (sig.R + T)) P msg • (toEvenY P).1 := by
  unfold verifySingleAdaptor
  simp only [chal_toEvenY]
  have hn : (if (!isOdd (sig.R + T)) = true then sig.R else -sig.R) = negIf (isOdd (sig.R + T)) sig.R := by
    cases isOdd (sig.R + T) <;> rfl
  rw [hn]
  split_ifs with h
  · simp [h]
  · rw [not_not] at h
    simp [h]

theorem adapt_eq_some {sig : AdaptorSignature} {t : MaybeScalar} {f : LiftedSignature} :
    sig.adapt t = some f ↔ ∃ R : Point, R.1 = sig.R + t • G ∧ f.R = toEvenY R ∧ f.s = sig.s + negIf (isOdd R.1) t := by
  unfold AdaptorSignature.adapt LiftedSignature.new
  constructor
  · intro h
    cases hn : notInf (sig.R + t • G) with
    | none => rw [hn] at h; cases h
    | some R =>
      rw [hn] at h
      simp only [Option.some.injEq] at h
      subst h
      exact ⟨R, (notInf_eq_some.1 hn).symm, rfl, rfl⟩
  · rintro ⟨R, hR, h1, h2⟩
    have : notInf (sig.R + t • G) = some R := notInf_eq_some.2 hR.symm
    rw [this]
    simp only [Option.some.injEq]
    rw [← h1, ← h2]

theorem adapt_eq_none {sig : AdaptorSignature} {t : MaybeScalar} : sig.adapt t = none ↔ sig.R + t • G = 0 := by
  unfold AdaptorSignature.adapt
  cases hn : notInf (sig.R + t • G) with
  | none => simp [notInf_eq_none.1 hn]
  | some R =>
    simp only [reduceCtorEq, false_iff]
    rw [notInf_eq_some.1 hn]
    exact R.2

theorem adapt_isOdd {sig : AdaptorSignature} {t : MaybeScalar} {f : LiftedSignature} (h : sig.adapt t = some f) :
    isOdd f.R.1 = false := by
  obtain ⟨R, -, h, -⟩ := adapt_eq_some.1 h
  rw [h]
  exact isOdd_toEvenY R

/-- Adapting turns the adaptor equation into the Schnorr equation. -/
theorem verify_adapt {H : Hash} {P : Point} {sig : AdaptorSignature} {t : MaybeScalar} {f : LiftedSignature}
    {msg : Bytes} (h : sig.adapt t = some f) :
    verifySingleLifted H P f msg = .ok () ↔ verifySingleAdaptor H P sig msg (t • G) = .ok () := by
  rw [verifySingleLifted_eq_ok (adapt_isOdd h), verifySingleAdaptor_eq_ok]
  obtain ⟨R, hR, h1, h2⟩ := adapt_eq_some.1 h
  rw [h1, h2, xonly_toEvenY, toEvenY_val, ← hR, add_smul, ← negIf_smul]
  have : negIf (isOdd R.1) R.1 = negIf (isOdd R.1) sig.R + negIf (isOdd R.1) (t • G) := by
    rw [← negIf_add, ← hR]
  rw [this, add_right_comm]
  exact add_left_inj _

theorem verifySingleAdaptor_dichotomy (H : Hash) (P : Point) (sig : AdaptorSignature) (msg : Bytes) (T : MaybePoint) :
    verifySingleAdaptor H P sig msg T = .ok () ∨ verifySingleAdaptor H P sig msg T = .err .badSignature := by
  unfold verifySingleAdaptor
  simp only
  by_cases h : sig.s • G = (if (!isOdd (sig.R + T)) = true then sig.R else -sig.R)
      + computeChallengeHashTweak H (xonly (sig.R + T)) (toEvenY P) msg • (toEvenY P).1
  · exact Or.inl (if_neg (not_not.2 h))
  · exact Or.inr (if_pos h)

theorem revealSecret_first {sig : AdaptorSignature} {f : LiftedSignature} {t : MaybeScalar} (ht : f.s - sig.s = t)
    (h : t • G = f.R.1 - sig.R) : sig.revealSecret f = some t := by
  subst ht
  exact if_pos h

theorem revealSecret_second {sig : AdaptorSignature} {f : LiftedSignature} {t : MaybeScalar} (ht : f.s - sig.s = t)
    (h1 : t • G ≠ f.R.1 - sig.R) (h2 : t • G = f.R.1 + sig.R) : sig.revealSecret f = some (-t) := by
  subst ht
  exact (if_neg h1).trans (if_pos h2)

theorem revealSecret_none {sig : AdaptorSignature} {f : LiftedSignature} {t : MaybeScalar} (ht : f.s - sig.s = t)
    (h1 : t • G ≠ f.R.1 - sig.R) (h2 : t • G ≠ f.R.1 + sig.R) : sig.revealSecret f = none := by
  subst ht
  exact (if_neg h1).trans (if_neg h2)

theorem verifySingle_eq_with (H : Hash) (P : Point) (sig : CompactSignature) (msg : Bytes) :
    verifySingle H P sig msg = verifySingleWith H P (some sig) msg := rfl

/-! ## Decoding compact signatures -/

theorem CompactSignature.toBytes_length (c : CompactSignature) : c.toBytes.length = 64 := by
  unfold CompactSignature.toBytes
  rw [List.length_append, c.rx.2, (serScalar c.s).2]

theorem CompactSignature.fromBytes_eq (b : Bytes) (hb : b.length = 64) :
    CompactSignature.fromBytes b =
      match parseMaybeScalar (b.drop 32) with
      | some s => .ok ⟨⟨b.take 32, by rw [List.length_take]; omega⟩, s⟩
      | none => .err .invalidScalar := by
  unfold CompactSignature.fromBytes
  rw [if_neg (by omega), slice_ok ⟨by omega, by omega⟩, slice_ok ⟨by omega, by omega⟩]
  have h1 : (b.drop 0).take (32 - 0) = b.take 32 := rfl
  have h2 : (b.drop 32).take (b.length - 32) = b.drop 32 := List.take_of_length_le (by rw [List.length_drop])
  have h3 : (b.take 32).length = 32 := by rw [List.length_take]; omega
  simp only [Res.bind_ok, h1, h2]
  rw [dif_pos h3]
  simp only [Res.unwrap_some, Res.bind_ok]
  cases parseMaybeScalar (b.drop 32) <;> rfl

theorem CompactSignature.fromBytes_cases (b : Bytes) :
    (∃ c, CompactSignature.fromBytes b = .ok c ∧ c.toBytes = b) ∨
    (∃ e, CompactSignature.fromBytes b = .err e ∧ (b.length = 64 → beNat (b.drop 32) ≥ orderN)) := by
  by_cases hb : b.length = 64
  · rw [CompactSignature.fromBytes_eq b hb]
    cases hs : parseMaybeScalar (b.drop 32) with
    | some s =>
      left
      refine ⟨_, rfl, ?_⟩
      unfold CompactSignature.toBytes
      simp only
      rw [← parseMaybeScalar_eq_some.1 hs, List.take_append_drop]
    | none =>
      right
      refine ⟨_, rfl, fun _ => ?_⟩
      by_contra hlt
      unfold parseMaybeScalar at hs
      rw [if_pos ⟨by rw [List.length_drop]; omega, by omega⟩] at hs
      cases hs
  · right
    refine ⟨.badLength b.length, ?_, fun h => absurd h hb⟩
    unfold CompactSignature.fromBytes
    rw [if_pos hb]

theorem CompactSignature.fromBytes_toBytes (c : CompactSignature) : CompactSignature.fromBytes c.toBytes = .ok c := by
  rw [CompactSignature.fromBytes_eq _ c.toBytes_length]
  have h1 : c.toBytes.take 32 = c.rx.1 := by
    unfold CompactSignature.toBytes; rw [List.take_left' c.rx.2]
  have h2 : c.toBytes.drop 32 = (serScalar c.s).1 := by
    unfold CompactSignature.toBytes; rw [List.drop_left' c.rx.2]
  simp only [h1, h2, parseMaybeScalar_ser]

end Verif
