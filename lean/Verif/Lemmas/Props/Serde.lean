import Verif.Spec.Claims
import Verif.Model.Serde
import Verif.Lemmas.Encoding
import Verif.Lemmas.Props.Signing
import Verif.Lemmas.Props.KeyAggBytes

/-!
# Lemmas and example data for `Props/Serde`
-/

namespace Verif

theorem serdeDeserializeFixed_eq_ok {α : Type} {n : ℕ} {f : Bytes → Res DecodeError α} {s : Bytes} {x : α} :
    serdeDeserializeFixed n f s = .ok x ↔ ∃ b, Spec.HexOf s b ∧ b.length ≤ n ∧ f b = .ok x := by
  unfold serdeDeserializeFixed
  simp only [Res.bind_eq_ok, Res.mapErr_eq_ok, hexDecode_eq_ok, and_assoc]

theorem serdeDeserializeVar_eq_ok {α : Type} {f : Bytes → Res DecodeError α} {s : Bytes} {x : α} :
    serdeDeserializeVar f s = .ok x ↔ ∃ b, Spec.HexOf s b ∧ f b = .ok x := by
  unfold serdeDeserializeVar
  simp only [Res.bind_eq_ok, Res.mapErr_eq_ok, hexDecodeVec_eq_ok]

theorem serdeDeserializeFixed_ne_panic {α : Type} {n : ℕ} {f : Bytes → Res DecodeError α} (hf : ∀ b, f b ≠ .panic)
    (s : Bytes) : serdeDeserializeFixed n f s ≠ .panic := by
  unfold serdeDeserializeFixed
  intro h
  rw [Res.bind_eq_panic, Res.mapErr_eq_panic] at h
  rcases h with h | ⟨_, -, h⟩
  · exact hexDecode_ne_panic _ _ h
  · exact hf _ (Res.mapErr_eq_panic.1 h)

theorem serdeDeserializeVar_ne_panic {α : Type} {f : Bytes → Res DecodeError α} (hf : ∀ b, f b ≠ .panic) (s : Bytes) :
    serdeDeserializeVar f s ≠ .panic := by
  unfold serdeDeserializeVar
  intro h
  rw [Res.bind_eq_panic, Res.mapErr_eq_panic] at h
  rcases h with h | ⟨_, -, h⟩
  · exact hexDecodeVec_ne_panic _ h
  · exact hf _ (Res.mapErr_eq_panic.1 h)

theorem serdeDeserializeFixedBin_eq_ok {α : Type} {n : ℕ} {f : Bytes → Res DecodeError α} {t : Token} {x : α} :
    serdeDeserializeFixedBin n f t = .ok x ↔ ∃ b, t = .bytes b ∧ b.length ≤ n ∧ f b = .ok x := by
  cases t with
  | tuple b => simp [serdeDeserializeFixedBin]
  | bytes b =>
    unfold serdeDeserializeFixedBin
    by_cases h : n < b.length
    · simp only [h, if_true]
      constructor
      · intro h'; cases h'
      · rintro ⟨b', hb, h', -⟩; cases hb; omega
    · simp only [h, if_false, Res.mapErr_eq_ok]
      exact ⟨fun h' => ⟨b, rfl, by omega, h'⟩, by rintro ⟨b', hb, -, h'⟩; cases hb; exact h'⟩

theorem serdeDeserializeVarBin_eq_ok {α : Type} {f : Bytes → Res DecodeError α} {t : Token} {x : α} :
    serdeDeserializeVarBin f t = .ok x ↔ ∃ b, t = .bytes b ∧ f b = .ok x := by
  cases t with
  | tuple b => simp [serdeDeserializeVarBin]
  | bytes b => simp [serdeDeserializeVarBin, Res.mapErr_eq_ok]

theorem serdeDeserializeFixedBin_ne_panic {α : Type} {n : ℕ} {f : Bytes → Res DecodeError α} (hf : ∀ b, f b ≠ .panic)
    (t : Token) : serdeDeserializeFixedBin n f t ≠ .panic := by
  cases t with
  | tuple b => simp [serdeDeserializeFixedBin]
  | bytes b =>
    unfold serdeDeserializeFixedBin
    intro h
    simp only at h
    split_ifs at h
    exact hf _ (Res.mapErr_eq_panic.1 h)

theorem serdeDeserializeVarBin_ne_panic {α : Type} {f : Bytes → Res DecodeError α} (hf : ∀ b, f b ≠ .panic)
    (t : Token) : serdeDeserializeVarBin f t ≠ .panic := by
  cases t with
  | tuple b => simp [serdeDeserializeVarBin]
  | bytes b => exact fun h => hf _ (Res.mapErr_eq_panic.1 h)

end Verif
