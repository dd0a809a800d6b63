import Verif.Spec.Decode
import Verif.Lemmas.Encoding
import Verif.Lemmas.Props.Width
import Verif.Lemmas.Spec

/-!
# Helpers for `Props.Decode`
-/

namespace Verif

theorem parsePoint_none_iff (b : Bytes) : parsePoint b = none ↔ Spec.cpoint b = none := by
  rw [spec_cpoint]
  cases parsePoint b <;> simp

theorem parseMaybePoint_none_iff (b : Bytes) : parseMaybePoint b = none ↔ Spec.cpoint_ext b = none := by
  unfold parseMaybePoint Spec.cpoint_ext
  split_ifs with h
  · simp
  · rw [spec_cpoint]

theorem parseScalar_none_iff {b : Bytes} (hl : b.length = 32) :
    parseScalar b = none ↔ ¬ (0 < Spec.int_from_bytes b ∧ Spec.int_from_bytes b < orderN) := by
  have h := (C68_parsers_accept b).2.1
  rw [← Option.not_isSome_iff_eq_none, Option.isSome_iff_exists, h]
  simp [hl, Spec.int_from_bytes]

theorem parseMaybeScalar_none_iff {b : Bytes} (hl : b.length = 32) :
    parseMaybeScalar b = none ↔ orderN ≤ Spec.int_from_bytes b := by
  have h := (C68_parsers_accept b).1
  rw [← Option.not_isSome_iff_eq_none, Option.isSome_iff_exists, h]
  simp [hl, Spec.int_from_bytes]

/-- Two steps that may fail, one after the other. -/
theorem two_steps_err {α β γ : Type} (x : Option α) (y : Option β) (e1 e2 e : DecodeError) (f : α → β → γ) :
    ((Res.okOr x e1 >>= fun a => Res.okOr y e2 >>= fun b => (pure (f a b) : Res DecodeError γ)) = .err e) ↔
      (x = none ∧ e = e1) ∨ (x ≠ none ∧ y = none ∧ e = e2) := by
  cases x <;> cases y <;> simp [Res.okOr, eq_comm]

theorem parsePubkeys_eq_err {b : Bytes} {e : DecodeError} : KeyAggContext.parsePubkeys b = .err e → e = .invalidPoint := by
  induction hn : b.length using Nat.strong_induction_on generalizing b with
  | _ n ih =>
    rw [KeyAggContext.parsePubkeys]
    split
    · rename_i hl
      intro h
      cases hp : parsePoint (b.take 33) with
      | none => rw [hp] at h; cases h; rfl
      | some P =>
        rw [hp] at h
        simp only [Res.okOr, Res.bind_ok] at h
        cases hq : KeyAggContext.parsePubkeys (b.drop 33) with
        | ok ks => rw [hq] at h; cases h
        | panic => rw [hq] at h; cases h
        | err e' =>
          rw [hq] at h
          cases h
          exact ih (b.drop 33).length (by simp; omega) rfl hq
    · intro h; cases h

theorem hexPairs_eq_none {s : Bytes} (h : s.length % 2 = 0) (hn : ¬ ∃ b, Spec.HexOf s b) : hexPairs s = none := by
  cases hp : hexPairs s with
  | none => rfl
  | some b => exact absurd ⟨b, (hexPairs_eq_some h).1 hp⟩ hn

theorem HexOf.even {s b : Bytes} (h : Spec.HexOf s b) : s.length % 2 = 0 := by
  have := HexOf.length h
  omega

theorem fromStrFixed_parses {α : Type} (n : ℕ) (f : Bytes → Res DecodeError α) :
    Spec.ParsesHex (some n) f (fromStrFixed n f) where
  odd_length s h := by
    unfold fromStrFixed hexDecode
    rw [if_pos (by omega)]
    rfl
  too_long m hm s h := by
    cases hm
    unfold fromStrFixed hexDecode
    by_cases h2 : s.length % 2 = 0
    · rw [if_neg (by omega), if_pos (by omega)]
      rfl
    · rw [if_pos h2]
      rfl
  not_hex s h hm hn := by
    have := hm n rfl
    unfold fromStrFixed hexDecode
    rw [if_neg (by omega), if_neg (by omega), hexPairs_eq_none h hn]
    rfl
  hex s b hm h := by
    have := hm n rfl
    unfold fromStrFixed hexDecode
    rw [if_neg (by have := HexOf.even h; omega), if_neg (by omega), (hexPairs_eq_some (HexOf.even h)).2 h]
    rfl

theorem fromStrVar_parses {α : Type} (f : Bytes → Res DecodeError α) : Spec.ParsesHex none f (fromStrVar f) where
  odd_length s h := by
    unfold fromStrVar hexDecodeVec
    rw [if_pos (by omega)]
    rfl
  too_long m hm := by cases hm
  not_hex s h hm hn := by
    unfold fromStrVar hexDecodeVec
    rw [if_neg (by omega), hexPairs_eq_none h hn]
    rfl
  hex s b hm h := by
    unfold fromStrVar hexDecodeVec
    rw [if_neg (by have := HexOf.even h; omega), (hexPairs_eq_some (HexOf.even h)).2 h]
    rfl

end Verif
