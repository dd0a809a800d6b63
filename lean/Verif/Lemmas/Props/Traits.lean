import Verif.Model.Traits
import Verif.Spec.Hex
import Verif.Lemmas.Encoding

/-!
# Helpers of `Props/Traits`
-/

namespace Verif

theorem hexEncodeLower_eq (b : Bytes) : hexEncodeLower b = Spec.hexWith Spec.lowerDigits b := by
  have key : ∀ x : Fin 256, [hexDigitLower (UInt8.ofNat x >>> 4), hexDigitLower (UInt8.ofNat x &&& 15)]
      = [Spec.lowerDigits.getD ((UInt8.ofNat x).toNat / 16) 0, Spec.lowerDigits.getD ((UInt8.ofNat x).toNat % 16) 0] := by
    decide +kernel
  unfold hexEncodeLower Spec.hexWith
  rw [List.flatMap_def]
  refine congrArg List.flatten (List.map_congr_left fun x _ => ?_)
  have := key ⟨x.toNat, x.toNat_lt⟩
  simpa only [UInt8.ofNat_toNat] using this

theorem hexEncodeUpper_eq (b : Bytes) : hexEncodeUpper b = Spec.hexWith Spec.upperDigits b := by
  have key : ∀ x : Fin 256, [hexDigitUpper (UInt8.ofNat x >>> 4), hexDigitUpper (UInt8.ofNat x &&& 15)]
      = [Spec.upperDigits.getD ((UInt8.ofNat x).toNat / 16) 0, Spec.upperDigits.getD ((UInt8.ofNat x).toNat % 16) 0] := by
    decide +kernel
  unfold hexEncodeUpper Spec.hexWith
  rw [List.flatMap_def]
  refine congrArg List.flatten (List.map_congr_left fun x _ => ?_)
  have := key ⟨x.toNat, x.toNat_lt⟩
  simpa only [UInt8.ofNat_toNat] using this

theorem encodeStrUnwrap_ok {encode : Bytes → Bytes} {n : ℕ} {b : Bytes} (h : b.length ≤ n) :
    encodeStrUnwrap encode (n * 2) b = .ok (encode b) := if_neg (by omega)

theorem lowerHexFixed_ok {n : ℕ} {b : Bytes} (h : b.length ≤ n) :
    lowerHexFixed n b = .ok (Spec.hexWith Spec.lowerDigits b) := by
  rw [← hexEncodeLower_eq]
  exact encodeStrUnwrap_ok h

theorem upperHexFixed_ok {n : ℕ} {b : Bytes} (h : b.length ≤ n) :
    upperHexFixed n b = .ok (Spec.hexWith Spec.upperDigits b) := by
  rw [← hexEncodeUpper_eq]
  exact encodeStrUnwrap_ok h

end Verif
