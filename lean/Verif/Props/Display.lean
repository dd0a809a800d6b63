import Verif.Lemmas.Props.Display

/-!
# Property C104: the texts of errors
-/

namespace Verif

/-- **C104**. Two errors of one type with the same text are equal: the text tells what went wrong, and the numbers in it. -/
theorem C104_texts_identify :
    (∀ e e' : SignerIndexError, e.display = e'.display → e = e') ∧
    (∀ e e' : SigningError, e.display = e'.display → e = e') ∧
    (∀ e e' : VerifyError, e.display = e'.display → e = e') ∧
    (∀ e e' : RoundContributionError, e.display = e'.display → e = e') ∧
    (∀ e e' : RoundFinalizeError, e.display = e'.display → e = e') := by
  have hs : ∀ e e' : SigningError, e.display = e'.display → e = e' := by
    intro e e' h
    cases e <;> cases e' <;> first | rfl | (exact absurd h (by decide))
  have hv : ∀ e e' : VerifyError, e.display = e'.display → e = e' := by
    intro e e' h
    cases e <;> cases e' <;> first | rfl | (exact absurd h (by decide))
  refine ⟨?_, hs, hv, ?_, ?_⟩
  · rintro ⟨i, n⟩ ⟨i', n'⟩ h
    unfold SignerIndexError.display at h
    rw [← List.append_nil " signers".toList] at h
    simp only [List.append_assoc] at h
    obtain ⟨h1, h⟩ := decimal_append_inj (by decide) (by decide) (List.append_cancel_left h)
    obtain ⟨h2, -⟩ := decimal_append_inj (by decide) (by decide) h
    rw [h1, h2]
  · rintro ⟨i, w⟩ ⟨i', w'⟩ h
    unfold RoundContributionError.display at h
    rw [List.append_assoc, List.append_assoc, List.append_assoc, List.append_assoc] at h
    obtain ⟨h1, h⟩ := decimal_append_inj (by decide) (by decide) (List.append_cancel_left h)
    dsimp only at h1 h
    rw [h1]
    cases w with
    | outOfRange n =>
      cases w' with
      | outOfRange n' =>
        dsimp only at h
        rw [← List.append_nil " signers".toList] at h
        simp only [List.append_assoc] at h
        obtain ⟨h2, -⟩ := decimal_append_inj (by decide) (by decide) (List.append_cancel_left h)
        rw [h2]
      | inconsistentContribution =>
        dsimp only at h
        rw [List.append_assoc, ← List.append_nil "received inconsistent contributions from same signer".toList] at h
        exact absurd h (words_ne (by decide) (by decide) (by decide))
      | invalidSignature =>
        dsimp only at h
        rw [List.append_assoc, ← List.append_nil "received invalid partial signature from peer".toList] at h
        exact absurd h (words_ne (by decide) (by decide) (by decide))
    | inconsistentContribution =>
      cases w' with
      | outOfRange n' =>
        dsimp only at h
        rw [List.append_assoc, ← List.append_nil "received inconsistent contributions from same signer".toList] at h
        exact absurd h (words_ne (by decide) (by decide) (by decide))
      | inconsistentContribution => rfl
      | invalidSignature => exact absurd h (by decide)
    | invalidSignature =>
      cases w' with
      | outOfRange n' =>
        dsimp only at h
        rw [List.append_assoc, ← List.append_nil "received invalid partial signature from peer".toList] at h
        exact absurd h (words_ne (by decide) (by decide) (by decide))
      | inconsistentContribution => exact absurd h (by decide)
      | invalidSignature => rfl
  · intro e e' h
    cases e with
    | incomplete => cases e' with
      | incomplete => rfl
      | signingError x => cases x <;> exact absurd h (by decide)
      | invalidAggregatedSignature x => cases x <;> exact absurd h (by decide)
    | signingError y => cases e' with
      | incomplete => cases y <;> exact absurd h (by decide)
      | signingError x => rw [hs _ _ (List.append_cancel_left (List.append_cancel_left h))]
      | invalidAggregatedSignature x => cases x <;> cases y <;> exact absurd h (by decide)
    | invalidAggregatedSignature y => cases e' with
      | incomplete => cases y <;> exact absurd h (by decide)
      | signingError x => cases x <;> cases y <;> exact absurd h (by decide)
      | invalidAggregatedSignature x => rw [hv _ _ (List.append_cancel_left (List.append_cancel_left h))]

/-- **C104**, the signer at fault. The text of a rejected contribution contains the index of the signer, in decimal, right
after the words `invalid signer index` and up to the colon. -/
theorem C104_text_names_signer (e : RoundContributionError) : ∃ digits why : List Char,
    e.display = "invalid signer index ".toList ++ digits ++ ": ".toList ++ why ∧
    (∀ c ∈ digits, c.isDigit = true) ∧ Spec.readDecimal digits = e.index :=
  ⟨decimal e.index, _, rfl, decimal_digits _, readDecimal_decimal _⟩

/-- **C104**, the other numbers. A signer index and the size of the group stand where the words of the text say, in
decimal; and so does an unexpected length. -/
theorem C104_text_numbers (e : SignerIndexError) (i n size : ℕ) (t : ForeignTexts) :
    (∃ d d' : List Char,
      e.display = "signer index ".toList ++ d ++ " is out of range for group of ".toList ++ d' ++ " signers".toList ∧
      (∀ c ∈ d ++ d', c.isDigit = true) ∧ Spec.readDecimal d = e.index ∧ Spec.readDecimal d' = e.nSigners) ∧
    (∃ d d' : List Char,
      (RoundContributionError.mk i (.outOfRange n)).display
        = "invalid signer index ".toList ++ d ++ ": ".toList ++ "exceeds max index for ".toList ++ d'
          ++ " signers".toList ∧
      (∀ c ∈ d ++ d', c.isDigit = true) ∧ Spec.readDecimal d = i ∧ Spec.readDecimal d' = n) ∧
    ∃ d : List Char, (DecodeError.badLength size).display t
        = "error decoding ".toList ++ t.typeName ++ ": ".toList ++ "unexpected length ".toList ++ d ∧
      (∀ c ∈ d, c.isDigit = true) ∧ Spec.readDecimal d = size := by
  have hd : ∀ a b, ∀ c ∈ decimal a ++ decimal b, c.isDigit = true := fun a b c hc =>
    (List.mem_append.1 hc).elim (decimal_digits _ c) (decimal_digits _ c)
  refine ⟨⟨decimal e.index, decimal e.nSigners, rfl, hd _ _, readDecimal_decimal _, readDecimal_decimal _⟩,
    ⟨decimal i, decimal n, ?_, hd _ _, readDecimal_decimal _, readDecimal_decimal _⟩,
    ⟨decimal size, ?_, decimal_digits _, readDecimal_decimal _⟩⟩
  · unfold RoundContributionError.display
    dsimp only
    rw [List.append_assoc (_ ++ _) "exceeds max index for ".toList,
      List.append_assoc (_ ++ _) ("exceeds max index for ".toList ++ _)]
  · unfold DecodeError.display
    dsimp only
    rw [List.append_assoc (_ ++ _) "unexpected length ".toList]

/-- **C104**, decoding. If the texts of other crates differ from each other, and from the words used here, then the text
of a decoding error tells the reason, and a wrong length. -/
theorem C104_decode_texts (t : ForeignTexts)
    (hhex : ∀ e e', t.hexError e = t.hexError e' → e = e') (hps : t.invalidPointBytes ≠ t.invalidScalarBytes)
    (hforeign : ∀ x, x = t.invalidPointBytes ∨ x = t.invalidScalarBytes →
      ¬ "hex decoding error: ".toList <+: x ∧ ¬ "unexpected length ".toList <+: x ∧
      x ≠ "computed an invalid aggregated key from a collection of public keys".toList ∧
      x ≠ "serialized KeyAggContext contains an invalid tweak".toList) :
    ∀ e e' : DecodeError, e.display t = e'.display t → e = e' := by
  intro e e' h
  replace h := List.append_cancel_left h
  have hp := hforeign _ (.inl rfl)
  have hs := hforeign _ (.inr rfl)
  cases e with
  | badHexFormat x => cases e' with
    | badHexFormat y => rw [hhex _ _ (List.append_cancel_left h)]
    | badLength n => exact absurd h (words_ne (by decide) (by decide) (by decide))
    | invalidPoint => exact absurd ⟨_, h⟩ hp.1
    | invalidScalar => exact absurd ⟨_, h⟩ hs.1
    | customKeyAgg y => cases y; dsimp only [KeyAggError.display] at h; exact absurd (prefix_of_eq h) (by decide)
    | customTweak y => cases y; dsimp only [KeyAggError.display] at h; exact absurd (prefix_of_eq h) (by decide)
  | badLength n => cases e' with
    | badHexFormat y => exact absurd h (words_ne (by decide) (by decide) (by decide))
    | badLength n' =>
      replace h := List.append_cancel_left h
      rw [← readDecimal_decimal n, h, readDecimal_decimal]
    | invalidPoint => exact absurd ⟨_, h⟩ hp.2.1
    | invalidScalar => exact absurd ⟨_, h⟩ hs.2.1
    | customKeyAgg y => cases y; dsimp only [KeyAggError.display] at h; exact absurd (prefix_of_eq h) (by decide)
    | customTweak y => cases y; dsimp only [KeyAggError.display] at h; exact absurd (prefix_of_eq h) (by decide)
  | invalidPoint => cases e' with
    | badHexFormat y => exact absurd ⟨_, h.symm⟩ hp.1
    | badLength n => exact absurd ⟨_, h.symm⟩ hp.2.1
    | invalidPoint => rfl
    | invalidScalar => exact absurd h hps
    | customKeyAgg y => cases y; exact absurd h hp.2.2.1
    | customTweak y => cases y; exact absurd h hp.2.2.2
  | invalidScalar => cases e' with
    | badHexFormat y => exact absurd ⟨_, h.symm⟩ hs.1
    | badLength n => exact absurd ⟨_, h.symm⟩ hs.2.1
    | invalidPoint => exact absurd h.symm hps
    | invalidScalar => rfl
    | customKeyAgg y => cases y; exact absurd h hs.2.2.1
    | customTweak y => cases y; exact absurd h hs.2.2.2
  | customKeyAgg x => cases x; cases e' with
    | badHexFormat y => dsimp only [KeyAggError.display] at h; exact absurd (prefix_of_eq h.symm) (by decide)
    | badLength n => dsimp only [KeyAggError.display] at h; exact absurd (prefix_of_eq h.symm) (by decide)
    | invalidPoint => exact absurd h.symm hp.2.2.1
    | invalidScalar => exact absurd h.symm hs.2.2.1
    | customKeyAgg y => cases y; rfl
    | customTweak y => cases y; dsimp only [KeyAggError.display] at h; exact absurd h (by decide)
  | customTweak x => cases x; cases e' with
    | badHexFormat y => dsimp only [KeyAggError.display] at h; exact absurd (prefix_of_eq h.symm) (by decide)
    | badLength n => dsimp only [KeyAggError.display] at h; exact absurd (prefix_of_eq h.symm) (by decide)
    | invalidPoint => exact absurd h.symm hp.2.2.2
    | invalidScalar => exact absurd h.symm hs.2.2.2
    | customKeyAgg y => cases y; dsimp only [KeyAggError.display] at h; exact absurd h (by decide)
    | customTweak y => cases y; rfl

/-- Texts as in the crates, and the text of a wrong length. -/
example : ∃ t : ForeignTexts, (∀ e e', t.hexError e = t.hexError e' → e = e') ∧ t.invalidPointBytes ≠ t.invalidScalarBytes ∧
    (∀ x, x = t.invalidPointBytes ∨ x = t.invalidScalarBytes →
      ¬ "hex decoding error: ".toList <+: x ∧ ¬ "unexpected length ".toList <+: x ∧
      x ≠ "computed an invalid aggregated key from a collection of public keys".toList ∧
      x ≠ "serialized KeyAggContext contains an invalid tweak".toList) ∧
    (DecodeError.badLength 7).display t = "error decoding musig2::PubNonce: unexpected length 7".toList := by
  refine ⟨⟨"musig2::PubNonce".toList, fun e => match e with
    | .invalidEncoding => "invalid Base16 encoding".toList
    | .invalidLength => "invalid Base16 length".toList, "received invalid point".toList, "received invalid scalar".toList⟩,
    ?_, by decide, ?_, ?_⟩
  · intro e e' h
    cases e <;> cases e' <;> first | rfl | (exact absurd h (by decide))
  · rintro x (rfl | rfl) <;> decide
  · have h : decimal 7 = ['7'] := by unfold decimal; decide
    unfold DecodeError.display
    simp only [h]
    decide

/-- **C104**, errors without content: the texts of the three types differ. -/
theorem C104_unit_texts (a : KeyAggError) (b : InvalidSecretKeysError) (c : TweakError) :
    a.display ≠ b.display ∧ a.display ≠ c.display ∧ b.display ≠ c.display := by
  unfold KeyAggError.display InvalidSecretKeysError.display TweakError.display
  exact ⟨by decide, by decide, by decide⟩

/-- Two texts. -/
example : (RoundContributionError.mk 12 .invalidSignature).display
      = "invalid signer index ".toList ++ ['1', '2'] ++ ": ".toList
        ++ "received invalid partial signature from peer".toList ∧
    (RoundFinalizeError.incomplete).display
      = "cannot finalize round: ".toList ++ "not all signers have contributed".toList := by
  have h : decimal 12 = ['1', '2'] := by simp [decimal]; decide
  rw [← h]
  exact ⟨rfl, rfl⟩

end Verif
