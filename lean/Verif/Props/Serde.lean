import Verif.Lemmas.Props.Serde
import Verif.Model.Serde
import Verif.Props.Encoding

/-!
# Properties C85, C114: `serde` in human-readable and in binary formats
-/

namespace Verif

/-- **C85**. Deserializing what was serialized gives the value back. -/
theorem C85_serde_roundtrip :
    (∀ x : SecNonce, SecNonce.serdeDeserialize (serdeSerialize x.toBytes) = .ok x) ∧
    (∀ x : PubNonce, PubNonce.serdeDeserialize (serdeSerialize x.toBytes) = .ok x) ∧
    (∀ x : AggNonce, AggNonce.serdeDeserialize (serdeSerialize x.toBytes) = .ok x) ∧
    (∀ x : CompactSignature, CompactSignature.serdeDeserialize (serdeSerialize x.toBytes) = .ok x) ∧
    (∀ x : AdaptorSignature, AdaptorSignature.serdeDeserialize (serdeSerialize x.toBytes) = .ok x) ∧
    (∀ x : LiftedSignature, isOdd x.R.1 = false →
      LiftedSignature.serdeDeserialize (serdeSerialize x.toBytes) = .ok x) ∧
    (∀ (H : Hash) (x : KeyAggContext), Reachable H x →
      KeyAggContext.serdeDeserialize H (serdeSerialize x.toBytes) = .ok x) := by
  have hx := hexEncodeLower_hexOf
  refine ⟨fun x => ?_, fun x => ?_, fun x => ?_, fun x => ?_, fun x => ?_, fun x h => ?_, fun H x h => ?_⟩
  · exact serdeDeserializeFixed_eq_ok.2 ⟨_, hx _, by rw [x.toBytes_length]; omega,
      (C23_nonce_roundtrip x ⟨Gpt, Gpt⟩ ⟨0, 0⟩).1⟩
  · exact serdeDeserializeFixed_eq_ok.2 ⟨_, hx _, x.toBytes_length.le, PubNonce.fromBytes_eq_ok.2 rfl⟩
  · exact serdeDeserializeFixed_eq_ok.2 ⟨_, hx _, x.toBytes_length.le, AggNonce.fromBytes_eq_ok.2 rfl⟩
  · exact serdeDeserializeFixed_eq_ok.2 ⟨_, hx _, x.toBytes_length.le, CompactSignature.fromBytes_eq_ok.2 rfl⟩
  · exact serdeDeserializeFixed_eq_ok.2 ⟨_, hx _, x.toBytes_length.le, AdaptorSignature.fromBytes_eq_ok.2 rfl⟩
  · exact serdeDeserializeFixed_eq_ok.2 ⟨_, hx _, x.toBytes_length.le, LiftedSignature.fromBytes_eq_ok.2 ⟨h, rfl⟩⟩
  · exact serdeDeserializeVar_eq_ok.2 ⟨_, hx _, h.inv.fromBytes_toBytes⟩

/-- **C85**. Deserializing accepts exactly the hex strings, of either case, of the byte strings that `from_bytes`
accepts. -/
theorem C85_serde_accepts_iff (s : Bytes) :
    (∀ x, SecNonce.serdeDeserialize s = .ok x ↔ ∃ b, Spec.HexOf s b ∧ SecNonce.fromBytes b = .ok x) ∧
    (∀ x, PubNonce.serdeDeserialize s = .ok x ↔ ∃ b, Spec.HexOf s b ∧ PubNonce.fromBytes b = .ok x) ∧
    (∀ x, AggNonce.serdeDeserialize s = .ok x ↔ ∃ b, Spec.HexOf s b ∧ AggNonce.fromBytes b = .ok x) ∧
    (∀ x, CompactSignature.serdeDeserialize s = .ok x ↔ ∃ b, Spec.HexOf s b ∧ CompactSignature.fromBytes b = .ok x) ∧
    (∀ x, AdaptorSignature.serdeDeserialize s = .ok x ↔ ∃ b, Spec.HexOf s b ∧ AdaptorSignature.fromBytes b = .ok x) ∧
    (∀ x, LiftedSignature.serdeDeserialize s = .ok x ↔ ∃ b, Spec.HexOf s b ∧ LiftedSignature.fromBytes b = .ok x) ∧
    (∀ H x, KeyAggContext.serdeDeserialize H s = .ok x ↔ ∃ b, Spec.HexOf s b ∧ KeyAggContext.fromBytes H b = .ok x) := by
  have key : ∀ {α : Type} (n : ℕ) (f : Bytes → Res DecodeError α), (∀ b x, f b = .ok x → b.length ≤ n) → ∀ x,
      serdeDeserializeFixed n f s = .ok x ↔ ∃ b, Spec.HexOf s b ∧ f b = .ok x := by
    intro α n f hf x
    rw [serdeDeserializeFixed_eq_ok]
    exact ⟨fun ⟨b, h1, _, h3⟩ => ⟨b, h1, h3⟩, fun ⟨b, h1, h3⟩ => ⟨b, h1, hf b x h3, h3⟩⟩
  refine ⟨key _ _ fun b x h => ?_, key _ _ fun b x h => ?_, key _ _ fun b x h => ?_, key _ _ fun b x h => ?_,
    key _ _ fun b x h => ?_, key _ _ fun b x h => ?_, fun H x => serdeDeserializeVar_eq_ok⟩
  · rcases (SecNonce.fromBytes_eq_ok.1 h).1 with h | h <;> omega
  · rw [PubNonce.fromBytes_eq_ok.1 h, x.toBytes_length]
  · rw [AggNonce.fromBytes_eq_ok.1 h, x.toBytes_length]
  · rw [CompactSignature.fromBytes_eq_ok.1 h, x.toBytes_length]
  · rw [AdaptorSignature.fromBytes_eq_ok.1 h, x.toBytes_length]
  · rw [(LiftedSignature.fromBytes_eq_ok.1 h).2, x.toBytes_length]

/-- **C85**. It never panics. -/
theorem C85_serde_total (H : Hash) (s : Bytes) :
    SecNonce.serdeDeserialize s ≠ .panic ∧ PubNonce.serdeDeserialize s ≠ .panic ∧
    AggNonce.serdeDeserialize s ≠ .panic ∧ CompactSignature.serdeDeserialize s ≠ .panic ∧
    AdaptorSignature.serdeDeserialize s ≠ .panic ∧ LiftedSignature.serdeDeserialize s ≠ .panic ∧
    KeyAggContext.serdeDeserialize H s ≠ .panic :=
  ⟨serdeDeserializeFixed_ne_panic SecNonce.fromBytes_ne_panic s,
    serdeDeserializeFixed_ne_panic PubNonce.fromBytes_ne_panic s,
    serdeDeserializeFixed_ne_panic AggNonce.fromBytes_ne_panic s,
    serdeDeserializeFixed_ne_panic CompactSignature.fromBytes_ne_panic s,
    serdeDeserializeFixed_ne_panic AdaptorSignature.fromBytes_ne_panic s,
    serdeDeserializeFixed_ne_panic LiftedSignature.fromBytes_ne_panic s,
    serdeDeserializeVar_ne_panic (fromBytes_ne_panic H) s⟩

/-- **C85**. Unlike `from_hex` (C46), deserializing accepts the 97-byte form of a secret nonce; for all other types the
two agree. -/
theorem C85_serde_versus_from_hex (s : Bytes) :
    (∀ x, PubNonce.serdeDeserialize s = .ok x ↔ PubNonce.fromHex s = .ok x) ∧
    (∀ x, AggNonce.serdeDeserialize s = .ok x ↔ AggNonce.fromHex s = .ok x) ∧
    (∀ x, CompactSignature.serdeDeserialize s = .ok x ↔ CompactSignature.fromHex s = .ok x) ∧
    (∀ x, AdaptorSignature.serdeDeserialize s = .ok x ↔ AdaptorSignature.fromHex s = .ok x) ∧
    (∀ x, LiftedSignature.serdeDeserialize s = .ok x ↔ LiftedSignature.fromHex s = .ok x) ∧
    (∀ H x, KeyAggContext.serdeDeserialize H s = .ok x ↔ KeyAggContext.fromHex H s = .ok x) ∧
    (∀ x, SecNonce.serdeDeserialize s = .ok x ↔
      SecNonce.fromHex s = .ok x ∨ ∃ pk : Bytes, pk.length = 33 ∧ Spec.HexOf s (x.toBytes ++ pk)) := by
  have key : ∀ {α : Type} {n : ℕ} {f : Bytes → Res DecodeError α} (x : α),
      serdeDeserializeFixed n f s = .ok x ↔ fromStrFixed n f s = .ok x := by
    intro α n f x
    rw [serdeDeserializeFixed_eq_ok, fromStrFixed_eq_ok]
  refine ⟨key, key, key, key, key, fun H x => serdeDeserializeVar_eq_ok.trans fromStrVar_eq_ok.symm, fun x => ?_⟩
  rw [(C85_serde_accepts_iff s).1 x]
  constructor
  · rintro ⟨b, h1, h2⟩
    obtain ⟨h3, h4⟩ := SecNonce.fromBytes_eq_ok.1 h2
    rcases h3 with h3 | h3
    · exact Or.inl (fromStrFixed_eq_ok.2 ⟨b, h1, h3.le, h2⟩)
    · exact Or.inr ⟨b.drop 64, by rw [List.length_drop]; omega, by rwa [← h4, List.take_append_drop]⟩
  · rintro (h | ⟨pk, h1, h2⟩)
    · obtain ⟨b, h1, -, h3⟩ := fromStrFixed_eq_ok.1 h
      exact ⟨b, h1, h3⟩
    · exact ⟨_, h2, SecNonce.fromBytes_eq_ok.2
        ⟨Or.inr (by rw [List.length_append, x.toBytes_length, h1]), List.take_left' x.toBytes_length⟩⟩

/-- A secret nonce with a public key appended, in hex. -/
example : ∃ s x, SecNonce.serdeDeserialize s = .ok x ∧ SecNonce.fromHex s = .err (.badHexFormat .invalidLength) := by
  have h := C46_from_hex_rejects_97 ⟨scalarOne, scalarOne⟩ (serPoint G).1 _ (serPoint G).2 (hexEncodeLower_hexOf _)
  exact ⟨_, _, ((C85_serde_accepts_iff _).1 _).2 ⟨_, hexEncodeLower_hexOf _, h.1⟩, h.2⟩

/-- A context and a lifted signature that meet the hypotheses of the round trip. -/
example : Reachable sha256 exCtx ∧ isOdd (⟨Gpt, 1⟩ : LiftedSignature).R.1 = false := ⟨exCtx_reachable, isOdd_G⟩

/-! ## C114 -/

/-- **C114**. In binary formats, values of fixed length are returned exactly if `serdect` passes arrays as byte strings;
contexts are always returned. -/
theorem C114_binary_roundtrip (mode : ArrayMode) :
    (∀ x : SecNonce, SecNonce.serdeDeserializeBin (serdeSerializeFixedBin mode x.toBytes) = .ok x ↔ mode = .asBytes) ∧
    (∀ x : PubNonce, PubNonce.serdeDeserializeBin (serdeSerializeFixedBin mode x.toBytes) = .ok x ↔ mode = .asBytes) ∧
    (∀ x : AggNonce, AggNonce.serdeDeserializeBin (serdeSerializeFixedBin mode x.toBytes) = .ok x ↔ mode = .asBytes) ∧
    (∀ x : CompactSignature,
      CompactSignature.serdeDeserializeBin (serdeSerializeFixedBin mode x.toBytes) = .ok x ↔ mode = .asBytes) ∧
    (∀ x : AdaptorSignature,
      AdaptorSignature.serdeDeserializeBin (serdeSerializeFixedBin mode x.toBytes) = .ok x ↔ mode = .asBytes) ∧
    (∀ x : LiftedSignature, isOdd x.R.1 = false →
      (LiftedSignature.serdeDeserializeBin (serdeSerializeFixedBin mode x.toBytes) = .ok x ↔ mode = .asBytes)) ∧
    (∀ (H : Hash) (x : KeyAggContext), Reachable H x →
      KeyAggContext.serdeDeserializeBin H (serdeSerializeVarBin x.toBytes) = .ok x) := by
  have key : ∀ {α : Type} (n : ℕ) (f : Bytes → Res DecodeError α) (b : Bytes) (x : α), b.length ≤ n → f b = .ok x →
      (serdeDeserializeFixedBin n f (serdeSerializeFixedBin mode b) = .ok x ↔ mode = .asBytes) := by
    intro α n f b x hl hf
    rw [serdeDeserializeFixedBin_eq_ok]
    cases mode with
    | asBytes => exact ⟨fun _ => rfl, fun _ => ⟨b, rfl, hl, hf⟩⟩
    | asTuple => exact ⟨(fun ⟨_, h, _⟩ => by cases h), fun h => by cases h⟩
  refine ⟨fun x => ?_, fun x => ?_, fun x => ?_, fun x => ?_, fun x => ?_, fun x h => ?_, fun H x h => ?_⟩
  · exact key _ _ _ _ (by rw [x.toBytes_length]; omega) (C23_nonce_roundtrip x ⟨Gpt, Gpt⟩ ⟨0, 0⟩).1
  · exact key _ _ _ _ x.toBytes_length.le (PubNonce.fromBytes_eq_ok.2 rfl)
  · exact key _ _ _ _ x.toBytes_length.le (AggNonce.fromBytes_eq_ok.2 rfl)
  · exact key _ _ _ _ x.toBytes_length.le (CompactSignature.fromBytes_eq_ok.2 rfl)
  · exact key _ _ _ _ x.toBytes_length.le (AdaptorSignature.fromBytes_eq_ok.2 rfl)
  · exact key _ _ _ _ x.toBytes_length.le (LiftedSignature.fromBytes_eq_ok.2 ⟨h, rfl⟩)
  · exact serdeDeserializeVarBin_eq_ok.2 ⟨_, rfl, h.inv.fromBytes_toBytes⟩

/-- **C114**. Deserializing accepts exactly the byte strings that `from_bytes` accepts, with the same value; also the
97-byte form of a secret nonce. It never panics. -/
theorem C114_binary_accepts_iff (t : Token) :
    (∀ x, SecNonce.serdeDeserializeBin t = .ok x ↔ ∃ b, t = .bytes b ∧ SecNonce.fromBytes b = .ok x) ∧
    (∀ x, PubNonce.serdeDeserializeBin t = .ok x ↔ ∃ b, t = .bytes b ∧ PubNonce.fromBytes b = .ok x) ∧
    (∀ x, AggNonce.serdeDeserializeBin t = .ok x ↔ ∃ b, t = .bytes b ∧ AggNonce.fromBytes b = .ok x) ∧
    (∀ x, CompactSignature.serdeDeserializeBin t = .ok x ↔ ∃ b, t = .bytes b ∧ CompactSignature.fromBytes b = .ok x) ∧
    (∀ x, AdaptorSignature.serdeDeserializeBin t = .ok x ↔ ∃ b, t = .bytes b ∧ AdaptorSignature.fromBytes b = .ok x) ∧
    (∀ x, LiftedSignature.serdeDeserializeBin t = .ok x ↔ ∃ b, t = .bytes b ∧ LiftedSignature.fromBytes b = .ok x) ∧
    (∀ H x, KeyAggContext.serdeDeserializeBin H t = .ok x ↔ ∃ b, t = .bytes b ∧ KeyAggContext.fromBytes H b = .ok x) ∧
    SecNonce.serdeDeserializeBin t ≠ .panic ∧ PubNonce.serdeDeserializeBin t ≠ .panic ∧
    AggNonce.serdeDeserializeBin t ≠ .panic ∧ CompactSignature.serdeDeserializeBin t ≠ .panic ∧
    AdaptorSignature.serdeDeserializeBin t ≠ .panic ∧ LiftedSignature.serdeDeserializeBin t ≠ .panic ∧
    ∀ H, KeyAggContext.serdeDeserializeBin H t ≠ .panic := by
  have key : ∀ {α : Type} (n : ℕ) (f : Bytes → Res DecodeError α), (∀ b x, f b = .ok x → b.length ≤ n) → ∀ x,
      serdeDeserializeFixedBin n f t = .ok x ↔ ∃ b, t = .bytes b ∧ f b = .ok x := by
    intro α n f hf x
    rw [serdeDeserializeFixedBin_eq_ok]
    exact ⟨fun ⟨b, h1, _, h3⟩ => ⟨b, h1, h3⟩, fun ⟨b, h1, h3⟩ => ⟨b, h1, hf b x h3, h3⟩⟩
  refine ⟨key _ _ fun b x h => ?_, key _ _ fun b x h => ?_, key _ _ fun b x h => ?_, key _ _ fun b x h => ?_,
    key _ _ fun b x h => ?_, key _ _ fun b x h => ?_, fun H x => serdeDeserializeVarBin_eq_ok,
    serdeDeserializeFixedBin_ne_panic SecNonce.fromBytes_ne_panic t,
    serdeDeserializeFixedBin_ne_panic PubNonce.fromBytes_ne_panic t,
    serdeDeserializeFixedBin_ne_panic AggNonce.fromBytes_ne_panic t,
    serdeDeserializeFixedBin_ne_panic CompactSignature.fromBytes_ne_panic t,
    serdeDeserializeFixedBin_ne_panic AdaptorSignature.fromBytes_ne_panic t,
    serdeDeserializeFixedBin_ne_panic LiftedSignature.fromBytes_ne_panic t,
    fun H => serdeDeserializeVarBin_ne_panic (fromBytes_ne_panic H) t⟩
  · rcases (SecNonce.fromBytes_eq_ok.1 h).1 with h | h <;> omega
  · rw [PubNonce.fromBytes_eq_ok.1 h, x.toBytes_length]
  · rw [AggNonce.fromBytes_eq_ok.1 h, x.toBytes_length]
  · rw [CompactSignature.fromBytes_eq_ok.1 h, x.toBytes_length]
  · rw [AdaptorSignature.fromBytes_eq_ok.1 h, x.toBytes_length]
  · rw [(LiftedSignature.fromBytes_eq_ok.1 h).2, x.toBytes_length]

/-- Both modes occur, and the context of the example group is returned. -/
example : ArrayMode.asBytes ≠ .asTuple ∧
    KeyAggContext.serdeDeserializeBin sha256 (serdeSerializeVarBin exCtx.toBytes) = .ok exCtx :=
  ⟨by simp, (C114_binary_roundtrip .asBytes).2.2.2.2.2.2 sha256 exCtx exCtx_reachable⟩

end Verif
