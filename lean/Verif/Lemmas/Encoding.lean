import Verif.Model.Hex
import Verif.Spec.Hex
import Verif.Lemmas.Bip340
import Verif.Lemmas.KeyAggBytes

/-!
# Lemmas on the encodings of nonces and signatures, and on hex
-/

namespace Verif

/-! ## Nonces -/

theorem SecNonce.toBytes_length (n : SecNonce) : n.toBytes.length = 64 := by
  unfold SecNonce.toBytes; rw [List.length_append, (serScalar _).2, (serScalar _).2]

theorem PubNonce.toBytes_length (n : PubNonce) : n.toBytes.length = 66 := by
  unfold PubNonce.toBytes; rw [List.length_append, (serPoint _).2, (serPoint _).2]

theorem AggNonce.toBytes_length (n : AggNonce) : n.toBytes.length = 66 := by
  unfold AggNonce.toBytes; rw [List.length_append, (serPoint _).2, (serPoint _).2]

theorem append_of_take_drop {b x y : Bytes} {k : ℕ} (h1 : b.take k = x) (h2 : b.drop k = y) : b = x ++ y := by
  rw [← h1, ← h2, List.take_append_drop]

theorem SecNonce.fromBytes_eq_ok {b : Bytes} {n : SecNonce} :
    SecNonce.fromBytes b = .ok n ↔ (b.length = 64 ∨ b.length = 97) ∧ b.take 64 = n.toBytes := by
  unfold SecNonce.fromBytes
  by_cases hl : b.length = 64 ∨ b.length = 97
  · rw [if_neg (by omega), slice_ok ⟨by omega, by omega⟩, slice_ok ⟨by omega, by omega⟩]
    simp only [Res.bind_ok, Res.bind_eq_ok, Res.okOr_eq_ok, Res.pure_def, Res.ok.injEq, parseScalar_eq_some]
    have e1 : (b.drop 0).take (64 / 2 - 0) = (b.take 64).take 32 := by simp [List.take_take]
    have e2 : (b.drop (64 / 2)).take (64 - 64 / 2) = (b.take 64).drop 32 := by rw [List.drop_take]
    rw [e1, e2]
    constructor
    · rintro ⟨k1, h1, k2, h2, rfl⟩
      exact ⟨hl, append_of_take_drop h1 h2⟩
    · rintro ⟨-, h⟩
      rw [h]
      refine ⟨n.k1, ?_, n.k2, ?_, rfl⟩
      · exact List.take_left' (serScalar _).2
      · exact List.drop_left' (serScalar _).2
  · rw [if_pos (by omega)]
    simp [hl]

theorem SecNonce.fromBytes_badLength {b : Bytes} (h : ¬ (b.length = 64 ∨ b.length = 97)) :
    SecNonce.fromBytes b = .err (.badLength b.length) := by
  unfold SecNonce.fromBytes
  rw [if_pos (by omega)]

theorem SecNonce.fromBytes_ne_panic (b : Bytes) : SecNonce.fromBytes b ≠ .panic := by
  unfold SecNonce.fromBytes
  by_cases hl : b.length = 64 ∨ b.length = 97
  · rw [if_neg (by omega), slice_ok ⟨by omega, by omega⟩, slice_ok ⟨by omega, by omega⟩]
    simp only [Res.bind_ok, Res.pure_def]
    intro h
    rw [Res.bind_eq_panic] at h
    rcases h with h | ⟨_, -, h⟩
    · exact Res.okOr_ne_panic h
    · rw [Res.bind_eq_panic] at h
      rcases h with h | ⟨_, -, h⟩
      · exact Res.okOr_ne_panic h
      · cases h
  · rw [if_pos (by omega)]; simp

theorem PubNonce.fromBytes_eq_ok {b : Bytes} {n : PubNonce} :
    PubNonce.fromBytes b = .ok n ↔ b = n.toBytes := by
  unfold PubNonce.fromBytes
  by_cases hl : b.length = 66
  · rw [if_neg (by omega), slice_ok ⟨by omega, by omega⟩, slice_ok ⟨by omega, by omega⟩]
    simp only [Res.bind_ok, Res.bind_eq_ok, Res.okOr_eq_ok, Res.pure_def, Res.ok.injEq, parsePoint_eq_some]
    have e1 : (b.drop 0).take (66 / 2 - 0) = b.take 33 := rfl
    have e2 : (b.drop (66 / 2)).take (b.length - 66 / 2) = b.drop 33 := List.take_of_length_le (by rw [List.length_drop])
    rw [e1, e2]
    constructor
    · rintro ⟨k1, h1, k2, h2, rfl⟩
      exact append_of_take_drop h1 h2
    · intro h
      rw [h]
      exact ⟨n.R1, List.take_left' (serPoint _).2, n.R2, List.drop_left' (serPoint _).2, rfl⟩
  · rw [if_pos hl]
    refine ⟨fun h => (by cases h), fun h => absurd ?_ hl⟩
    rw [h, n.toBytes_length]

theorem PubNonce.fromBytes_badLength {b : Bytes} (h : b.length ≠ 66) :
    PubNonce.fromBytes b = .err (.badLength b.length) := by
  unfold PubNonce.fromBytes
  rw [if_pos h]

theorem PubNonce.fromBytes_ne_panic (b : Bytes) : PubNonce.fromBytes b ≠ .panic := by
  unfold PubNonce.fromBytes
  by_cases hl : b.length = 66
  · rw [if_neg (by omega), slice_ok ⟨by omega, by omega⟩, slice_ok ⟨by omega, by omega⟩]
    simp only [Res.bind_ok, Res.pure_def]
    intro h
    rw [Res.bind_eq_panic] at h
    rcases h with h | ⟨_, -, h⟩
    · exact Res.okOr_ne_panic h
    · rw [Res.bind_eq_panic] at h
      rcases h with h | ⟨_, -, h⟩
      · exact Res.okOr_ne_panic h
      · cases h
  · rw [if_pos hl]; simp

theorem AggNonce.fromBytes_eq_ok {b : Bytes} {n : AggNonce} :
    AggNonce.fromBytes b = .ok n ↔ b = n.toBytes := by
  unfold AggNonce.fromBytes
  by_cases hl : b.length = 66
  · rw [if_neg (by omega), slice_ok ⟨by omega, by omega⟩, slice_ok ⟨by omega, by omega⟩]
    simp only [Res.bind_ok, Res.bind_eq_ok, Res.okOr_eq_ok, Res.pure_def, Res.ok.injEq, parseMaybePoint_eq_some]
    have e1 : (b.drop 0).take (66 / 2 - 0) = b.take 33 := rfl
    have e2 : (b.drop (66 / 2)).take (b.length - 66 / 2) = b.drop 33 := List.take_of_length_le (by rw [List.length_drop])
    rw [e1, e2]
    constructor
    · rintro ⟨k1, h1, k2, h2, rfl⟩
      exact append_of_take_drop h1 h2
    · intro h
      rw [h]
      exact ⟨n.R1, List.take_left' (serPoint _).2, n.R2, List.drop_left' (serPoint _).2, rfl⟩
  · rw [if_pos hl]
    refine ⟨fun h => (by cases h), fun h => absurd ?_ hl⟩
    rw [h, n.toBytes_length]

theorem AggNonce.fromBytes_badLength {b : Bytes} (h : b.length ≠ 66) :
    AggNonce.fromBytes b = .err (.badLength b.length) := by
  unfold AggNonce.fromBytes
  rw [if_pos h]

theorem AggNonce.fromBytes_ne_panic (b : Bytes) : AggNonce.fromBytes b ≠ .panic := by
  unfold AggNonce.fromBytes
  by_cases hl : b.length = 66
  · rw [if_neg (by omega), slice_ok ⟨by omega, by omega⟩, slice_ok ⟨by omega, by omega⟩]
    simp only [Res.bind_ok, Res.pure_def]
    intro h
    rw [Res.bind_eq_panic] at h
    rcases h with h | ⟨_, -, h⟩
    · exact Res.okOr_ne_panic h
    · rw [Res.bind_eq_panic] at h
      rcases h with h | ⟨_, -, h⟩
      · exact Res.okOr_ne_panic h
      · cases h
  · rw [if_pos hl]; simp

/-! ## Signatures -/

theorem CompactSignature.fromBytes_eq_ok {b : Bytes} {c : CompactSignature} :
    CompactSignature.fromBytes b = .ok c ↔ b = c.toBytes := by
  constructor
  · intro h
    rcases CompactSignature.fromBytes_cases b with ⟨c', h', e⟩ | ⟨e, h', -⟩
    · rw [h] at h'
      cases h'
      exact e.symm
    · rw [h] at h'
      cases h'
  · rintro rfl
    exact CompactSignature.fromBytes_toBytes c

theorem CompactSignature.fromBytes_badLength {b : Bytes} (h : b.length ≠ 64) :
    CompactSignature.fromBytes b = .err (.badLength b.length) := by
  unfold CompactSignature.fromBytes
  rw [if_pos h]

theorem CompactSignature.fromBytes_ne_panic (b : Bytes) : CompactSignature.fromBytes b ≠ .panic := by
  rcases CompactSignature.fromBytes_cases b with ⟨c', h', e⟩ | ⟨e, h', -⟩ <;> rw [h'] <;> simp

theorem CompactSignature.liftNonce_eq_some {c : CompactSignature} {l : LiftedSignature} :
    c.liftNonce = some l ↔ isOdd l.R.1 = false ∧ l.compact = c := by
  unfold CompactSignature.liftNonce
  cases h : liftX c.rx with
  | none =>
    simp only
    refine ⟨fun h => (by cases h), ?_⟩
    rintro ⟨h1, rfl⟩
    have := (liftX_eq_some (b := xonly l.R.1) (P := l.R)).2 ⟨rfl, h1⟩
    unfold LiftedSignature.compact CompactSignature.new at h
    rw [this] at h
    cases h
  | some R =>
    obtain ⟨h1, h2⟩ := liftX_eq_some.1 h
    simp only [Option.some.injEq]
    constructor
    · rintro rfl
      refine ⟨h2, ?_⟩
      unfold LiftedSignature.compact CompactSignature.new
      simp only [h1]
    · rintro ⟨h3, rfl⟩
      have : R = l.R := Subtype.ext (eq_of_xonly_isOdd h1 (h2.trans h3.symm))
      subst this
      rfl

theorem LiftedSignature.toBytes_length (l : LiftedSignature) : l.toBytes.length = 64 := l.compact.toBytes_length

theorem LiftedSignature.fromBytes_eq_ok {b : Bytes} {l : LiftedSignature} :
    LiftedSignature.fromBytes b = .ok l ↔ isOdd l.R.1 = false ∧ b = l.toBytes := by
  unfold LiftedSignature.fromBytes
  simp only [Res.bind_eq_ok, Res.okOr_eq_ok, CompactSignature.fromBytes_eq_ok, CompactSignature.liftNonce_eq_some]
  constructor
  · rintro ⟨c, rfl, h, rfl⟩
    exact ⟨h, rfl⟩
  · rintro ⟨h, rfl⟩
    exact ⟨l.compact, rfl, h, rfl⟩

theorem LiftedSignature.fromBytes_badLength {b : Bytes} (h : b.length ≠ 64) :
    LiftedSignature.fromBytes b = .err (.badLength b.length) := by
  unfold LiftedSignature.fromBytes
  rw [CompactSignature.fromBytes_badLength h]
  rfl

theorem LiftedSignature.fromBytes_ne_panic (b : Bytes) : LiftedSignature.fromBytes b ≠ .panic := by
  unfold LiftedSignature.fromBytes
  intro h
  rw [Res.bind_eq_panic] at h
  rcases h with h | ⟨_, -, h⟩
  · exact CompactSignature.fromBytes_ne_panic b h
  · exact Res.okOr_ne_panic h

theorem AdaptorSignature.toBytes_length (s : AdaptorSignature) : s.toBytes.length = 65 := by
  unfold AdaptorSignature.toBytes; rw [List.length_append, (serPoint _).2, (serScalar _).2]

theorem AdaptorSignature.fromBytes_eq_ok {b : Bytes} {n : AdaptorSignature} :
    AdaptorSignature.fromBytes b = .ok n ↔ b = n.toBytes := by
  unfold AdaptorSignature.fromBytes
  by_cases hl : b.length = 65
  · rw [if_neg (by omega), slice_ok ⟨by omega, by omega⟩, slice_ok ⟨by omega, by omega⟩]
    simp only [Res.bind_ok, Res.bind_eq_ok, Res.okOr_eq_ok, Res.pure_def, Res.ok.injEq, parseMaybePoint_eq_some,
      parseMaybeScalar_eq_some]
    have e1 : (b.drop 0).take (33 - 0) = b.take 33 := rfl
    have e2 : (b.drop 33).take (b.length - 33) = b.drop 33 := List.take_of_length_le (by rw [List.length_drop])
    rw [e1, e2]
    constructor
    · rintro ⟨k1, h1, k2, h2, rfl⟩
      exact append_of_take_drop h1 h2
    · intro h
      rw [h]
      exact ⟨n.R, List.take_left' (serPoint _).2, n.s, List.drop_left' (serPoint _).2, rfl⟩
  · rw [if_pos hl]
    refine ⟨fun h => (by cases h), fun h => absurd ?_ hl⟩
    rw [h, n.toBytes_length]

theorem AdaptorSignature.fromBytes_badLength {b : Bytes} (h : b.length ≠ 65) :
    AdaptorSignature.fromBytes b = .err (.badLength b.length) := by
  unfold AdaptorSignature.fromBytes
  rw [if_pos h]

theorem AdaptorSignature.fromBytes_ne_panic (b : Bytes) : AdaptorSignature.fromBytes b ≠ .panic := by
  unfold AdaptorSignature.fromBytes
  by_cases hl : b.length = 65
  · rw [if_neg (by omega), slice_ok ⟨by omega, by omega⟩, slice_ok ⟨by omega, by omega⟩]
    simp only [Res.bind_ok, Res.pure_def]
    intro h
    rw [Res.bind_eq_panic] at h
    rcases h with h | ⟨_, -, h⟩
    · exact Res.okOr_ne_panic h
    · rw [Res.bind_eq_panic] at h
      rcases h with h | ⟨_, -, h⟩
      · exact Res.okOr_ne_panic h
      · cases h
  · rw [if_pos hl]; simp

/-! ## Hex -/

theorem hexNibble_eq_some {c v : UInt8} : hexNibble c = some v ↔ Spec.HexDigit c v := by
  have key : ∀ (c v : Fin 256), hexNibble (UInt8.ofNat c) = some (UInt8.ofNat v) ↔
      Spec.HexDigit (UInt8.ofNat c) (UInt8.ofNat v) := by
    unfold Spec.HexDigit
    decide +kernel
  have := key ⟨c.toNat, c.toNat_lt⟩ ⟨v.toNat, v.toNat_lt⟩
  simpa using this

theorem hexPairs_eq_some : ∀ {s b : Bytes}, s.length % 2 = 0 → (hexPairs s = some b ↔ Spec.HexOf s b)
  | [], b, _ => by
    unfold hexPairs
    constructor
    · intro h; cases h; exact .nil
    · intro h; cases h; rfl
  | [_], b, h => by simp at h
  | c :: d :: s, b, h => by
    have ih := fun b => hexPairs_eq_some (s := s) (b := b) (by simp at h; omega)
    unfold hexPairs
    simp only [Option.bind_eq_bind, Option.bind_eq_some_iff, hexNibble_eq_some, ih, Option.pure_def, Option.some.injEq]
    constructor
    · rintro ⟨hi, h1, lo, h2, tl, h3, rfl⟩
      exact .cons h1 h2 h3
    · intro h
      cases h with
      | cons h1 h2 h3 => exact ⟨_, h1, _, h2, _, h3, rfl⟩

theorem HexOf.length {s b : Bytes} (h : Spec.HexOf s b) : s.length = 2 * b.length := by
  induction h with
  | nil => rfl
  | cons _ _ _ ih => simp only [List.length_cons, ih]; omega

theorem hexPairs_length {s b : Bytes} (h : s.length % 2 = 0) (hb : hexPairs s = some b) : s.length = 2 * b.length :=
  HexOf.length ((hexPairs_eq_some h).1 hb)

theorem hexDecodeVec_eq_ok {s b : Bytes} : hexDecodeVec s = .ok b ↔ Spec.HexOf s b := by
  unfold hexDecodeVec
  by_cases h : s.length % 2 = 0
  · rw [if_neg (by omega), Res.okOr_eq_ok, hexPairs_eq_some h]
  · rw [if_pos h]
    refine ⟨fun h => (by cases h), fun hx => absurd ?_ h⟩
    rw [HexOf.length hx]; omega

theorem hexDecode_eq_ok {n : ℕ} {s b : Bytes} : hexDecode n s = .ok b ↔ Spec.HexOf s b ∧ b.length ≤ n := by
  unfold hexDecode
  by_cases h : s.length % 2 = 0
  · rw [if_neg (by omega)]
    by_cases hn : n < s.length / 2
    · rw [if_pos hn]
      refine ⟨fun h => (by cases h), ?_⟩
      rintro ⟨hx, hl⟩
      have := HexOf.length hx
      omega
    · rw [if_neg hn, Res.okOr_eq_ok, hexPairs_eq_some h]
      refine ⟨fun hx => ⟨hx, ?_⟩, fun hx => hx.1⟩
      have := HexOf.length hx
      omega
  · rw [if_pos h]
    refine ⟨fun h => (by cases h), fun hx => absurd ?_ h⟩
    rw [HexOf.length hx.1]; omega

theorem hexDecode_ne_panic (n : ℕ) (s : Bytes) : hexDecode n s ≠ .panic := by
  unfold hexDecode
  split_ifs <;> first | exact Res.okOr_ne_panic | simp

theorem hexDecodeVec_ne_panic (s : Bytes) : hexDecodeVec s ≠ .panic := by
  unfold hexDecodeVec
  split_ifs <;> first | exact Res.okOr_ne_panic | simp

theorem hexEncodeLower_hexOf (b : Bytes) : Spec.HexOf (hexEncodeLower b) b := by
  have key : ∀ x : Fin 256, ∃ hi lo : UInt8, Spec.HexDigit (hexDigitLower (UInt8.ofNat x >>> 4)) hi ∧
      Spec.HexDigit (hexDigitLower (UInt8.ofNat x &&& 15)) lo ∧ hi * 16 + lo = UInt8.ofNat x := by
    intro x
    refine ⟨UInt8.ofNat x >>> 4, UInt8.ofNat x &&& 15, ?_⟩
    revert x
    unfold Spec.HexDigit
    decide +kernel
  induction b with
  | nil => exact .nil
  | cons x b ih =>
    obtain ⟨hi, lo, h1, h2, h3⟩ := key ⟨x.toNat, x.toNat_lt⟩
    simp only [UInt8.ofNat_toNat] at h1 h2 h3
    have := Spec.HexOf.cons h1 h2 ih
    rw [h3] at this
    exact this

theorem hexEncodeUpper_hexOf (b : Bytes) : Spec.HexOf (hexEncodeUpper b) b := by
  have key : ∀ x : Fin 256, ∃ hi lo : UInt8, Spec.HexDigit (hexDigitUpper (UInt8.ofNat x >>> 4)) hi ∧
      Spec.HexDigit (hexDigitUpper (UInt8.ofNat x &&& 15)) lo ∧ hi * 16 + lo = UInt8.ofNat x := by
    intro x
    refine ⟨UInt8.ofNat x >>> 4, UInt8.ofNat x &&& 15, ?_⟩
    revert x
    unfold Spec.HexDigit
    decide +kernel
  induction b with
  | nil => exact .nil
  | cons x b ih =>
    obtain ⟨hi, lo, h1, h2, h3⟩ := key ⟨x.toNat, x.toNat_lt⟩
    simp only [UInt8.ofNat_toNat] at h1 h2 h3
    have := Spec.HexOf.cons h1 h2 ih
    rw [h3] at this
    exact this

theorem fromStrFixed_eq_ok {α : Type} {n : ℕ} {f : Bytes → Res DecodeError α} {s : Bytes} {x : α} :
    fromStrFixed n f s = .ok x ↔ ∃ b, Spec.HexOf s b ∧ b.length ≤ n ∧ f b = .ok x := by
  unfold fromStrFixed
  simp only [Res.bind_eq_ok, Res.mapErr_eq_ok, hexDecode_eq_ok, and_assoc]

theorem fromStrVar_eq_ok {α : Type} {f : Bytes → Res DecodeError α} {s : Bytes} {x : α} :
    fromStrVar f s = .ok x ↔ ∃ b, Spec.HexOf s b ∧ f b = .ok x := by
  unfold fromStrVar
  simp only [Res.bind_eq_ok, Res.mapErr_eq_ok, hexDecodeVec_eq_ok]

theorem fromStrFixed_ne_panic {α : Type} {n : ℕ} {f : Bytes → Res DecodeError α} (hf : ∀ b, f b ≠ .panic) (s : Bytes) :
    fromStrFixed n f s ≠ .panic := by
  unfold fromStrFixed
  intro h
  rw [Res.bind_eq_panic, Res.mapErr_eq_panic] at h
  rcases h with h | ⟨_, -, h⟩
  · exact hexDecode_ne_panic _ _ h
  · exact hf _ h

theorem fromStrVar_ne_panic {α : Type} {f : Bytes → Res DecodeError α} (hf : ∀ b, f b ≠ .panic) (s : Bytes) :
    fromStrVar f s ≠ .panic := by
  unfold fromStrVar
  intro h
  rw [Res.bind_eq_panic, Res.mapErr_eq_panic] at h
  rcases h with h | ⟨_, -, h⟩
  · exact hexDecodeVec_ne_panic _ h
  · exact hf _ h

end Verif
