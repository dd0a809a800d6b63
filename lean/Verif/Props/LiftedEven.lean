import Verif.Model.Deterministic
import Verif.Props.Conversions
import Verif.Props.Serde

/-!
# Property C44: the other functions that return lifted signatures
-/

namespace Verif

/-- **C44** for the conversions from the types of other crates, the deserializers, and `deterministic::sign_solo`: they return no lifted
signature with an odd nonce. -/
theorem C44_lifted_even_converted (H : Hash) :
    (∀ b l, LiftedSignature.ofSecp256k1 b = .ok l → Spec.has_even_y l.R.1 = true) ∧
    (∀ pair, Spec.has_even_y (LiftedSignature.ofK256 pair).R.1 = true) ∧
    (∀ hex l, LiftedSignature.serdeDeserialize hex = .ok l → Spec.has_even_y l.R.1 = true) ∧
    (∀ token l, LiftedSignature.serdeDeserializeBin token = .ok l → Spec.has_even_y l.R.1 = true) ∧
    (∀ (ε : Type) sk msg l, (deterministicSignSolo H sk msg : Option (Res ε _)) = some (.ok l) → Spec.has_even_y l.R.1 = true) := by
  obtain ⟨hnew, -, hbytes, -, -, hsolo, -⟩ := C44_lifted_even H
  have hev : ∀ P : MaybePoint, isOdd P = false → Spec.has_even_y P = true := fun P h => by rw [spec_has_even_y, h]; rfl
  have hmap : ∀ b l, ((LiftedSignature.fromBytes b).mapErr fun _ => ()) = .ok l → Spec.has_even_y l.R.1 = true := by
    intro b l h
    rcases hb : LiftedSignature.fromBytes b with l' | e | _
    · rw [hb] at h
      cases h
      exact hev _ (hbytes b _ hb)
    · rw [hb] at h
      cases h
    · rw [hb] at h
      cases h
  refine ⟨fun b l h => hev _ (hbytes b.1 l h), fun pair => hev _ (hnew pair.1 pair.2), fun hex l h => ?_, fun token l h => ?_,
    fun ε sk msg l h => ?_⟩
  · unfold LiftedSignature.serdeDeserialize serdeDeserializeFixed at h
    rcases hd : (hexDecode 64 hex).mapErr fun _ => () with b | e | _
    · rw [hd] at h
      exact hmap b l h
    · rw [hd] at h
      cases h
    · rw [hd] at h
      cases h
  · cases token with
    | bytes b =>
      simp only [LiftedSignature.serdeDeserializeBin, serdeDeserializeFixedBin] at h
      split_ifs at h
      exact hmap b l h
    | tuple b => cases h
  · unfold deterministicSignSolo at h
    rcases hk : deriveNonceRfc6979 H sk msg with _ | k
    · rw [hk] at h
      cases h
    · rw [hk] at h
      exact hev _ (hsolo ε sk msg _ l (Option.some.inj h))

/-- The conversion of a pair with an odd point returns the negated point. -/
example : ∃ pair : Point × MaybeScalar, Spec.has_even_y pair.1.1 = false ∧ (LiftedSignature.ofK256 pair).R = pair.1.neg := by
  have hG : isOdd (Gpt.neg : Point).1 = true ∨ isOdd Gpt.1 = true := by
    by_contra h
    push Not at h
    have := isOdd_neg (P := Gpt.1) Gpt.2
    simp_all [Point.neg]
  rcases hG with h | h
  · exact ⟨(Gpt.neg, 0), by rw [spec_has_even_y, h]; rfl, if_pos h⟩
  · exact ⟨(Gpt, 0), by rw [spec_has_even_y, h]; rfl, if_pos h⟩

end Verif
