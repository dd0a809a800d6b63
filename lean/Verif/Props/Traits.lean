import Verif.Lemmas.Props.Traits
import Verif.Props.Encoding
import Verif.Model.Serde

/-!
# Property C110: formatting
-/

namespace Verif

/-- **C110**. Formatting with `{:x}` and `{:X}` never panics, and writes two digits per byte of the encoding, in lower
and in upper case. -/
theorem C110_format :
    (∀ x : SecNonce, x.lowerHex = .ok (Spec.hexWith Spec.lowerDigits x.toBytes) ∧
      x.upperHex = .ok (Spec.hexWith Spec.upperDigits x.toBytes)) ∧
    (∀ x : PubNonce, x.lowerHex = .ok (Spec.hexWith Spec.lowerDigits x.toBytes) ∧
      x.upperHex = .ok (Spec.hexWith Spec.upperDigits x.toBytes)) ∧
    (∀ x : AggNonce, x.lowerHex = .ok (Spec.hexWith Spec.lowerDigits x.toBytes) ∧
      x.upperHex = .ok (Spec.hexWith Spec.upperDigits x.toBytes)) ∧
    (∀ x : CompactSignature, x.lowerHex = .ok (Spec.hexWith Spec.lowerDigits x.toBytes) ∧
      x.upperHex = .ok (Spec.hexWith Spec.upperDigits x.toBytes)) ∧
    (∀ x : LiftedSignature, x.lowerHex = .ok (Spec.hexWith Spec.lowerDigits x.toBytes) ∧
      x.upperHex = .ok (Spec.hexWith Spec.upperDigits x.toBytes)) ∧
    (∀ x : AdaptorSignature, x.lowerHex = .ok (Spec.hexWith Spec.lowerDigits x.toBytes) ∧
      x.upperHex = .ok (Spec.hexWith Spec.upperDigits x.toBytes)) ∧
    (∀ x : KeyAggContext, x.lowerHex = .ok (Spec.hexWith Spec.lowerDigits x.toBytes) ∧
      x.upperHex = .ok (Spec.hexWith Spec.upperDigits x.toBytes)) := by
  refine ⟨fun x => ?_, fun x => ?_, fun x => ?_, fun x => ?_, fun x => ?_, fun x => ?_, fun x => ?_⟩
  · exact ⟨(lowerHexFixed_ok x.toBytes_length.le), (upperHexFixed_ok x.toBytes_length.le)⟩
  · exact ⟨(lowerHexFixed_ok x.toBytes_length.le), (upperHexFixed_ok x.toBytes_length.le)⟩
  · exact ⟨(lowerHexFixed_ok x.toBytes_length.le), (upperHexFixed_ok x.toBytes_length.le)⟩
  · exact ⟨(lowerHexFixed_ok x.toBytes_length.le), (upperHexFixed_ok x.toBytes_length.le)⟩
  · exact ⟨(lowerHexFixed_ok x.toBytes_length.le), (upperHexFixed_ok x.toBytes_length.le)⟩
  · exact ⟨(lowerHexFixed_ok x.toBytes_length.le), (upperHexFixed_ok x.toBytes_length.le)⟩
  · exact ⟨lowerHexFixed_ok le_rfl, upperHexFixed_ok le_rfl⟩

/-- **C110**. What `Display` writes is parsed to the same value. (Contexts: those that `Reachable` describes. Lifted
signatures: those with an even nonce, which are all the API makes, C44.) -/
theorem C110_display_parse :
    (∀ x : PubNonce, ∃ s, x.displayHex = .ok s ∧ PubNonce.fromHex s = .ok x) ∧
    (∀ x : AggNonce, ∃ s, x.displayHex = .ok s ∧ AggNonce.fromHex s = .ok x) ∧
    (∀ x : CompactSignature, ∃ s, x.displayHex = .ok s ∧ CompactSignature.fromHex s = .ok x) ∧
    (∀ x : LiftedSignature, isOdd x.R.1 = false → ∃ s, x.displayHex = .ok s ∧ LiftedSignature.fromHex s = .ok x) ∧
    (∀ x : AdaptorSignature, ∃ s, x.displayHex = .ok s ∧ AdaptorSignature.fromHex s = .ok x) ∧
    (∀ (H : Hash) (x : KeyAggContext), Reachable H x → ∃ s, x.displayHex = .ok s ∧ KeyAggContext.fromHex H s = .ok x) := by
  refine ⟨fun x => ?_, fun x => ?_, fun x => ?_, fun x hx => ?_, fun x => ?_, fun H x hx => ?_⟩
  · exact ⟨_, encodeStrUnwrap_ok x.toBytes_length.le, (C45_parse_hex _).2.1 x (C45_formatting _).1⟩
  · exact ⟨_, encodeStrUnwrap_ok x.toBytes_length.le, (C45_parse_hex _).2.2.1 x (C45_formatting _).1⟩
  · exact ⟨_, encodeStrUnwrap_ok x.toBytes_length.le, (C45_parse_hex _).2.2.2.1 x (C45_formatting _).1⟩
  · exact ⟨_, encodeStrUnwrap_ok x.toBytes_length.le, (C45_parse_hex _).2.2.2.2.2.1 x hx (C45_formatting _).1⟩
  · exact ⟨_, encodeStrUnwrap_ok x.toBytes_length.le, (C45_parse_hex _).2.2.2.2.1 x (C45_formatting _).1⟩
  · exact ⟨_, encodeStrUnwrap_ok le_rfl, (C45_parse_hex _).2.2.2.2.2.2 H x hx (C45_formatting _).1⟩

/-- **C110**. `serde` writes lower case. -/
theorem C110_serde_lower (b : Bytes) : serdeSerialize b = Spec.hexWith Spec.lowerDigits b := hexEncodeLower_eq b

/-- **C110**. A secret nonce of 97 bytes is that of its first 64 bytes; the rest is thrown away. -/
theorem C110_long_secnonce (b : Arr 97) (x : SecNonce) :
    SecNonce.tryFromMax b = .ok x ↔ SecNonce.fromBytes (b.1.take 64) = .ok x := by
  have h : (b.1.take 64).length = 64 := by rw [List.length_take, b.2]; rfl
  unfold SecNonce.tryFromMax
  rw [SecNonce.fromBytes_eq_ok, SecNonce.fromBytes_eq_ok, List.take_take, h, b.2]
  simp

/-- The secret nonce of two ones, with junk behind it. -/
example : SecNonce.tryFromMax ⟨(⟨scalarOne, scalarOne⟩ : SecNonce).toBytes ++ List.replicate 33 7, by
      rw [List.length_append, SecNonce.toBytes_length]; rfl⟩ = .ok ⟨scalarOne, scalarOne⟩ := by
  rw [C110_long_secnonce, List.take_left' (SecNonce.toBytes_length _)]
  exact (C23_nonce_roundtrip _ ⟨Gpt, Gpt⟩ ⟨0, 0⟩).1

/-- A context and a lifted signature as needed. -/
example : Reachable sha256 exCtx ∧ isOdd (⟨Gpt, 1⟩ : LiftedSignature).R.1 = false := ⟨exCtx_reachable, isOdd_G⟩

/-- The byte 0xab, in both cases. -/
example : Spec.hexWith Spec.lowerDigits [0xab] = "ab".toUTF8.toList ∧
    Spec.hexWith Spec.upperDigits [0xab] = "AB".toUTF8.toList := by decide +kernel

end Verif
