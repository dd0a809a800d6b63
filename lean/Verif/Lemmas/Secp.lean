import Verif.Secp

/-!
# Facts about scalars and points: encodings and parity
-/

namespace Verif

open WeierstrassCurve.Affine

/-! ## Scalars -/

theorem beNat_serScalar (s : MaybeScalar) : beNat (serScalar s).1 = s.val := by
  have hlt : s.val < orderN := ZMod.val_lt s
  unfold serScalar beArr
  exact beNat_beBytes_of_lt (hlt.trans orderN_lt)

theorem parseMaybeScalar_eq_some {b : Bytes} {s : MaybeScalar} :
    parseMaybeScalar b = some s ↔ b = (serScalar s).1 := by
  unfold parseMaybeScalar
  constructor
  · intro h
    split at h
    · rename_i hc
      obtain ⟨hl, hlt⟩ := hc
      simp only [Option.some.injEq] at h
      subst h
      simp only [serScalar, beArr, ZMod.val_natCast, Nat.mod_eq_of_lt hlt]
      exact (beBytes_beNat' hl).symm
    · cases h
  · rintro rfl
    have hlt : s.val < orderN := ZMod.val_lt s
    have hb : beNat (serScalar s).1 = s.val := beNat_serScalar s
    rw [if_pos ⟨(serScalar s).2, by rw [hb]; exact hlt⟩, hb, ZMod.natCast_zmod_val]

@[simp] theorem parseMaybeScalar_ser (s : MaybeScalar) : parseMaybeScalar (serScalar s).1 = some s :=
  parseMaybeScalar_eq_some.2 rfl

theorem serScalar_injective : Function.Injective serScalar := by
  intro a b h
  have := parseMaybeScalar_ser a
  rw [h, parseMaybeScalar_ser] at this
  simpa using this.symm

theorem serScalar_zero : serScalar 0 = beArr 32 0 := by
  simp [serScalar]

theorem notZero_eq_some {s : MaybeScalar} {t : Scalar} : notZero s = some t ↔ s = t.1 := by
  unfold notZero
  constructor
  · intro h
    split at h
    · simp only [Option.some.injEq] at h; rw [← h]
    · cases h
  · rintro rfl
    rw [dif_pos t.2]

theorem notZero_eq_none {s : MaybeScalar} : notZero s = none ↔ s = 0 := by
  unfold notZero
  split <;> simp_all

theorem notZero_val (t : Scalar) : notZero t.1 = some t := notZero_eq_some.2 rfl

@[simp] theorem notZero_zero : notZero 0 = none := notZero_eq_none.2 rfl

theorem parseScalar_eq_some {b : Bytes} {s : Scalar} :
    parseScalar b = some s ↔ b = (serScalar s.1).1 := by
  unfold parseScalar
  rw [Option.bind_eq_some_iff]
  constructor
  · rintro ⟨a, ha, hs⟩
    rw [notZero_eq_some] at hs
    subst hs
    exact parseMaybeScalar_eq_some.1 ha
  · rintro rfl
    exact ⟨s.1, parseMaybeScalar_ser _, notZero_val s⟩

@[simp] theorem parseScalar_ser (s : Scalar) : parseScalar (serScalar s.1).1 = some s :=
  parseScalar_eq_some.2 rfl

/-! ## `negIf` -/

@[simp] theorem negIf_false {α : Type} [Neg α] (x : α) : negIf false x = x := rfl
@[simp] theorem negIf_true {α : Type} [Neg α] (x : α) : negIf true x = -x := rfl

theorem negIf_negIf {α : Type} [InvolutiveNeg α] (b c : Bool) (x : α) :
    negIf b (negIf c x) = negIf (b ^^ c) x := by
  cases b <;> cases c <;> simp

theorem negIf_add {α : Type} [SubtractionCommMonoid α] (b : Bool) (x y : α) :
    negIf b (x + y) = negIf b x + negIf b y := by
  cases b <;> simp [add_comm]

theorem negIf_smul (b : Bool) (s : MaybeScalar) (P : MaybePoint) :
    negIf b (s • P) = negIf b s • P := by
  cases b <;> simp

theorem smul_negIf (b : Bool) (s : MaybeScalar) (P : MaybePoint) :
    s • negIf b P = negIf b (s • P) := by
  cases b <;> simp

theorem negIf_eq_zero {α : Type} [SubtractionMonoid α] {b : Bool} {x : α} : negIf b x = 0 ↔ x = 0 := by
  cases b <;> simp

@[simp] theorem negIf_zero {α : Type} [SubtractionMonoid α] (b : Bool) : negIf b (0 : α) = 0 := by
  cases b <;> simp

theorem negIf_sum {α β : Type} [SubtractionCommMonoid α] (b : Bool) (l : List β) (f : β → α) :
    negIf b ((l.map f).sum) = (l.map fun x => negIf b (f x)).sum := by
  induction l with
  | nil => simp
  | cons x l ih => simp [negIf_add, ih]

@[simp] theorem Scalar.negIf_val (b : Bool) (s : Scalar) : (Scalar.negIf b s).1 = Verif.negIf b s.1 := rfl

/-! ## Points -/

@[simp] theorem Point.neg_val (P : Point) : (Point.neg P).1 = -P.1 := rfl

theorem notInf_eq_some {P : MaybePoint} {Q : Point} : notInf P = some Q ↔ P = Q.1 := by
  unfold notInf
  constructor
  · intro h
    split at h
    · simp only [Option.some.injEq] at h; rw [← h]
    · cases h
  · rintro rfl
    rw [dif_pos Q.2]

theorem notInf_eq_none {P : MaybePoint} : notInf P = none ↔ P = 0 := by
  unfold notInf
  split <;> simp_all

theorem notInf_val (Q : Point) : notInf Q.1 = some Q := notInf_eq_some.2 rfl

@[simp] theorem notInf_zero : notInf 0 = none := notInf_eq_none.2 rfl

@[simp] theorem isOdd_zero : isOdd 0 = false := rfl

theorem isOdd_mkPoint {x y : Fp} (h : y ^ 2 = x ^ 3 + 7) :
    isOdd (mkPoint x y h) = decide (y.val % 2 = 1) := rfl

theorem isOdd_neg {P : MaybePoint} (h : P ≠ 0) : isOdd (-P) = !isOdd P := by
  obtain rfl | ⟨x, y, hxy, rfl⟩ := P.eq_zero_or_mk
  · exact absurd rfl h
  · rw [neg_mkPoint, isOdd_mkPoint, isOdd_mkPoint]
    have hy : y ≠ 0 := by
      rintro rfl
      exact no_cube x (by linear_combination -hxy)
    have := neg_val_parity hy
    by_cases h1 : y.val % 2 = 1
    · have h2 : ¬ (-y).val % 2 = 1 := by rw [this]; simpa using h1
      rw [decide_eq_true h1, decide_eq_false h2]; rfl
    · have h2 : (-y).val % 2 = 1 := by rw [this]; exact h1
      rw [decide_eq_false h1, decide_eq_true h2]; rfl

theorem isOdd_negIf {P : MaybePoint} (h : P ≠ 0) (b : Bool) : isOdd (negIf b P) = (b ^^ isOdd P) := by
  cases b
  · simp
  · simp [isOdd_neg h]

@[simp] theorem xNat_zero : xNat 0 = 0 := rfl

theorem xNat_mkPoint {x y : Fp} (h : y ^ 2 = x ^ 3 + 7) : xNat (mkPoint x y h) = x.val := rfl

theorem xonly_eq (P : MaybePoint) : xonly P = beArr 32 (xNat P) := by
  obtain rfl | ⟨x, y, hxy, rfl⟩ := P.eq_zero_or_mk <;> rfl

theorem xNat_lt (P : MaybePoint) : xNat P < fieldP := by
  obtain rfl | ⟨x, y, hxy, rfl⟩ := P.eq_zero_or_mk
  · exact fieldP_prime.pos
  · exact ZMod.val_lt x

@[simp] theorem xNat_neg (P : MaybePoint) : xNat (-P) = xNat P := by
  obtain rfl | ⟨x, y, hxy, rfl⟩ := P.eq_zero_or_mk
  · rw [neg_zero]
  · rw [neg_mkPoint]; rfl

@[simp] theorem xonly_neg (P : MaybePoint) : xonly (-P) = xonly P := by
  rw [xonly_eq, xonly_eq, xNat_neg]

@[simp] theorem xonly_negIf (b : Bool) (P : MaybePoint) : xonly (negIf b P) = xonly P := by
  cases b <;> simp

theorem xonly_zero : xonly 0 = beArr 32 0 := rfl

theorem beNat_xonly (P : MaybePoint) : beNat (xonly P).1 = xNat P := by
  rw [xonly_eq]
  unfold beArr
  exact beNat_beBytes_of_lt ((xNat_lt P).trans fieldP_lt)

theorem xonly_eq_iff_xNat {P Q : MaybePoint} : xonly P = xonly Q ↔ xNat P = xNat Q := by
  constructor
  · intro h; rw [← beNat_xonly, h, beNat_xonly]
  · intro h; rw [xonly_eq, xonly_eq, h]

/-- `7` is not a square modulo `p`: no point has x coordinate zero. -/
theorem seven_not_square (y : Fp) : y ^ 2 ≠ 7 := by
  intro h
  have hy : y ≠ 0 := by
    rintro rfl
    apply Fp.seven_ne_zero
    rw [← h]; ring
  have hf := ZMod.pow_card_sub_one_eq_one hy
  have he : fieldP - 1 = 2 * ((fieldP - 1) / 2) := by decide +kernel
  rw [he, pow_mul, h] at hf
  have hpm := powMod_cast 7 ((fieldP - 1) / 2) fieldP (by decide +kernel)
  have hv : powMod 7 ((fieldP - 1) / 2) fieldP ≠ 1 := by decide +kernel
  apply hv
  have h1 : ((powMod 7 ((fieldP - 1) / 2) fieldP : ℕ) : Fp) = ((1 : ℕ) : Fp) := by
    rw [hpm]; push_cast; exact hf
  rw [ZMod.natCast_eq_natCast_iff', Nat.mod_eq_of_lt (powMod_lt _ _ _ fieldP_prime.pos),
    Nat.mod_eq_of_lt fieldP_prime.one_lt] at h1
  exact h1

theorem xNat_eq_zero {P : MaybePoint} : xNat P = 0 ↔ P = 0 := by
  refine ⟨fun h => ?_, fun h => by rw [h]; rfl⟩
  obtain rfl | ⟨x, y, hxy, rfl⟩ := P.eq_zero_or_mk
  · rfl
  · exfalso
    have hx : x = 0 := (ZMod.val_eq_zero x).1 h
    subst hx
    exact seven_not_square y (by rw [hxy]; ring)

/-- A nonzero point is determined up to sign by its x coordinate. -/
theorem eq_or_neg_of_xNat {P Q : MaybePoint} (h : xNat P = xNat Q) : P = Q ∨ P = -Q := by
  by_cases hP : P = 0
  · subst hP
    left
    exact (xNat_eq_zero.1 (by rw [← h]; rfl)).symm
  by_cases hQ : Q = 0
  · subst hQ
    left
    exact (xNat_eq_zero.1 (by rw [h]; rfl))
  obtain rfl | ⟨x, y, hxy, rfl⟩ := P.eq_zero_or_mk
  · exact absurd rfl hP
  obtain rfl | ⟨x', y', hxy', rfl⟩ := Q.eq_zero_or_mk
  · exact absurd rfl hQ
  have hx : x = x' := ZMod.val_injective _ h
  subst hx
  have hm : (y - y') * (y + y') = 0 := by linear_combination hxy - hxy'
  rw [neg_mkPoint, mkPoint_inj, mkPoint_inj]
  rcases mul_eq_zero.mp hm with h | h
  · exact Or.inl ⟨rfl, sub_eq_zero.1 h⟩
  · exact Or.inr ⟨rfl, by linear_combination h⟩

theorem xonly_eq_iff {P Q : MaybePoint} : xonly P = xonly Q ↔ P = Q ∨ P = -Q := by
  rw [xonly_eq_iff_xNat]
  refine ⟨eq_or_neg_of_xNat, ?_⟩
  rintro (rfl | rfl)
  · rfl
  · exact xNat_neg _

/-- x coordinate and parity determine the point. -/
theorem eq_of_xNat_isOdd {P Q : MaybePoint} (hx : xNat P = xNat Q) (ho : isOdd P = isOdd Q) : P = Q := by
  rcases eq_or_neg_of_xNat hx with h | h
  · exact h
  · by_cases hQ : Q = 0
    · subst hQ; simpa using h
    · exfalso
      rw [h, isOdd_neg hQ] at ho
      cases hq : isOdd Q <;> simp [hq] at ho

theorem eq_of_xonly_isOdd {P Q : MaybePoint} (hx : xonly P = xonly Q) (ho : isOdd P = isOdd Q) : P = Q :=
  eq_of_xNat_isOdd (xonly_eq_iff_xNat.1 hx) ho

theorem pow_div_four (z : Fp) : ((z ^ 2) ^ ((fieldP + 1) / 4)) ^ 2 = z ^ 2 := by
  have he : 2 * ((fieldP + 1) / 4 * 2) = fieldP + 1 := by
    have := fieldP_mod_four
    omega
  rw [← pow_mul, ← pow_mul, he, pow_succ, ZMod.pow_card]
  ring

theorem sqrtFp_sq {c z : Fp} (h : z ^ 2 = c) : (sqrtFp c) ^ 2 = c := by
  unfold sqrtFp
  rw [powMod_cast _ _ _ (by decide +kernel), ZMod.natCast_zmod_val, ← h]
  exact pow_div_four z

/-- `decompress` finds exactly the point with that x coordinate and parity. -/
theorem decompress_eq_some {x : ℕ} {odd : Bool} {P : Point} :
    decompress x odd = some P ↔ xNat P.1 = x ∧ isOdd P.1 = odd := by
  unfold decompress
  constructor
  · intro h
    split at h
    case isFalse => cases h
    case isTrue hx =>
    simp only at h
    split at h
    case isFalse => cases h
    case isTrue hy =>
    have hx0 : xNat (mkPoint (x : Fp) _ hy) = x := by
      rw [xNat_mkPoint, ZMod.val_natCast]; exact Nat.mod_eq_of_lt hx
    split at h
    case isTrue ho =>
      simp only [Option.some.injEq] at h
      subst h
      exact ⟨hx0, ho⟩
    case isFalse ho =>
      simp only [Option.some.injEq] at h
      subst h
      refine ⟨?_, ?_⟩
      · simp only [Point.neg]
        rw [xNat_neg]; exact hx0
      · simp only [Point.neg]
        rw [isOdd_neg (mkPoint_ne_zero _ _ _)]
        cases odd <;> simp_all
  · rintro ⟨rfl, rfl⟩
    rw [if_pos (xNat_lt _)]
    obtain ⟨P, hP⟩ := P
    obtain rfl | ⟨x, y, hxy, rfl⟩ := P.eq_zero_or_mk
    · exact absurd rfl hP
    have hxv : ((xNat (mkPoint x y hxy) : ℕ) : Fp) = x := by
      rw [xNat_mkPoint]; exact ZMod.natCast_zmod_val x
    simp only [hxv]
    rw [dif_pos (sqrtFp_sq hxy)]
    have hx0 : xNat (mkPoint x _ (sqrtFp_sq hxy)) = xNat (mkPoint x y hxy) := rfl
    split
    case isTrue ho =>
      rw [Option.some.injEq, Subtype.mk.injEq]
      exact eq_of_xNat_isOdd hx0 ho
    case isFalse ho =>
      rw [Option.some.injEq, Point.neg, Subtype.mk.injEq]
      refine eq_of_xNat_isOdd (by rw [xNat_neg]; exact hx0) ?_
      rw [isOdd_neg (mkPoint_ne_zero _ _ _)]
      revert ho
      generalize isOdd _ = a
      generalize isOdd _ = b
      cases a <;> cases b <;> simp

theorem liftX_eq_some {b : Arr 32} {P : Point} :
    liftX b = some P ↔ xonly P.1 = b ∧ isOdd P.1 = false := by
  unfold liftX
  rw [decompress_eq_some, xonly_eq]
  refine and_congr_left fun _ => ?_
  constructor
  · rintro h
    rw [h]
    exact Subtype.ext (beBytes_beNat' b.2)
  · rintro rfl
    exact (beNat_beBytes_of_lt ((xNat_lt P.1).trans fieldP_lt)).symm

theorem serPoint_zero : (serPoint 0).1 = List.replicate 33 0 := by
  simp [serPoint]

theorem serPoint_of_ne {P : MaybePoint} (h : P ≠ 0) :
    (serPoint P).1 = (if isOdd P then 3 else 2) :: (xonly P).1 := by
  simp [serPoint, h]

theorem parsePoint_eq_some {b : Bytes} {P : Point} :
    parsePoint b = some P ↔ b = (serPoint P.1).1 := by
  unfold parsePoint
  rw [serPoint_of_ne P.2]
  constructor
  · intro h
    split at h
    case isFalse => cases h
    case isTrue hl =>
    cases b with
    | nil => simp at hl
    | cons t xs =>
      have hl' : xs.length = 32 := by simpa using hl
      simp only at h
      split at h
      · rename_i ht
        rw [decompress_eq_some] at h
        rw [h.2, ht, xonly_eq, h.1]
        simp [beArr, beBytes_beNat' hl']
      · split at h
        · rename_i ht
          rw [decompress_eq_some] at h
          rw [h.2, ht, xonly_eq, h.1]
          simp [beArr, beBytes_beNat' hl']
        · cases h
  · rintro rfl
    rw [if_pos (by simp [(xonly P.1).2])]
    simp only
    cases ho : isOdd P.1
    · simp only [Bool.false_eq_true, if_false, if_true]
      rw [decompress_eq_some]
      exact ⟨(beNat_xonly _).symm, ho⟩
    · simp only [if_true]
      rw [if_neg (by decide), decompress_eq_some]
      exact ⟨(beNat_xonly _).symm, ho⟩

@[simp] theorem parsePoint_ser (P : Point) : parsePoint (serPoint P.1).1 = some P :=
  parsePoint_eq_some.2 rfl

theorem parseMaybePoint_eq_some {b : Bytes} {P : MaybePoint} :
    parseMaybePoint b = some P ↔ b = (serPoint P).1 := by
  unfold parseMaybePoint
  constructor
  · intro h
    split at h
    · rename_i hb
      simp only [Option.some.injEq] at h
      subst h
      rw [serPoint_zero]; exact hb
    · rw [Option.map_eq_some_iff] at h
      obtain ⟨Q, hQ, rfl⟩ := h
      exact parsePoint_eq_some.1 hQ
  · rintro rfl
    by_cases hP : P = 0
    · subst hP
      rw [if_pos serPoint_zero]
    · rw [if_neg, Option.map_eq_some_iff]
      · exact ⟨⟨P, hP⟩, parsePoint_ser ⟨P, hP⟩, rfl⟩
      · rw [serPoint_of_ne hP]
        intro h
        have h2 : (if isOdd P then (3 : UInt8) else 2) = 0 := by
          have := congrArg List.head? h
          simpa using this
        revert h2
        cases isOdd P <;> decide

@[simp] theorem parseMaybePoint_ser (P : MaybePoint) : parseMaybePoint (serPoint P).1 = some P :=
  parseMaybePoint_eq_some.2 rfl

theorem serPoint_injective : Function.Injective serPoint := by
  intro P Q h
  have := parseMaybePoint_ser P
  rw [h, parseMaybePoint_ser] at this
  simpa using this.symm

theorem toEvenY_val (P : Point) : (toEvenY P).1 = negIf (isOdd P.1) P.1 := by
  unfold toEvenY
  cases h : isOdd P.1 <;> simp

theorem isOdd_toEvenY (P : Point) : isOdd (toEvenY P).1 = false := by
  rw [toEvenY_val, isOdd_negIf P.2]
  simp

@[simp] theorem xonly_toEvenY (P : Point) : xonly (toEvenY P).1 = xonly P.1 := by
  rw [toEvenY_val, xonly_negIf]

theorem toEvenY_of_even {P : Point} (h : isOdd P.1 = false) : toEvenY P = P := by
  unfold toEvenY; simp [h]

theorem toEvenY_neg (P : Point) : toEvenY (Point.neg P) = toEvenY P := by
  apply Subtype.ext
  rw [toEvenY_val, toEvenY_val, Point.neg_val, isOdd_neg P.2]
  cases isOdd P.1 <;> simp

@[simp] theorem mulG_val (s : Scalar) : (mulG s).1 = s.1 • G := rfl

theorem mulG_injective : Function.Injective mulG := by
  intro a b h
  have := congrArg Subtype.val h
  exact Subtype.ext (smul_G_inj.1 this)

/-- Every `Point` is the public key of exactly one secret key. -/
theorem mulG_surjective (P : Point) : ∃ s : Scalar, mulG s = P := by
  obtain ⟨a, ha⟩ := exists_dlog P.1
  have h0 : a ≠ 0 := by
    rintro rfl
    rw [zero_smul] at ha
    exact P.2 ha.symm
  exact ⟨⟨a, h0⟩, Subtype.ext ha⟩

end Verif
