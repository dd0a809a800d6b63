import Verif.Spec.Claims
import Verif.Lemmas.Reachable

/-!
# Lemmas and example data for `Props/KeyAggBytes`
-/

namespace Verif

theorem header_bits (hd : UInt8) :
    hd &&& 3 = (if hd &&& 2 ≠ 0 then (1 : UInt8) else 0) <<< (1 : UInt8)
      ||| (if decide (hd &&& 1 = 1) then (1 : UInt8) else 0) := by
  have : ∀ n : Fin 256, UInt8.ofFin n &&& 3 = (if UInt8.ofFin n &&& 2 ≠ 0 then (1 : UInt8) else 0) <<< (1 : UInt8)
      ||| (if decide (UInt8.ofFin n &&& 1 = 1) then (1 : UInt8) else 0) := by decide +kernel
  exact this hd.toFin

theorem header_or_four (hd : UInt8) : (hd ||| 4) &&& 1 = hd &&& 1 ∧ (hd ||| 4) &&& 2 = hd &&& 2 := by
  have : ∀ n : Fin 256, (UInt8.ofFin n ||| 4) &&& 1 = UInt8.ofFin n &&& 1 ∧
      (UInt8.ofFin n ||| 4) &&& 2 = UInt8.ofFin n &&& 2 := by decide +kernel
  exact this hd.toFin

theorem toBytes_decoded (H : Hash) (keys : List Point) (hd : UInt8) (t : MaybeScalar) (Q : Point)
    (ht : hd &&& 2 ≠ 0 ↔ t ≠ 0) :
    (decodedCtx H keys (decide (hd &&& 1 = 1)) t Q).toBytes
      = (hd &&& 3) :: ((if t ≠ 0 then (serScalar t).1 else []) ++ (beBytes 4 keys.length ++ keysFlat keys)) := by
  rw [header_bits hd]
  unfold KeyAggContext.toBytes keysFlat
  simp only [decodedCtx, baseCtx]
  by_cases h0 : t = 0
  · have : ¬(hd &&& 2 ≠ 0) := by rw [ht]; simp [h0]
    rw [if_neg this]
    simp [h0]
  · have : hd &&& 2 ≠ 0 := by rw [ht]; exact h0
    rw [if_pos this]
    simp [h0]

end Verif
