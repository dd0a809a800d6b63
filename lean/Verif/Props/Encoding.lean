import Verif.Lemmas.Encoding
import Verif.Props.Signing
import Verif.Props.KeyAggBytes

/-!
# Properties C23, C43-C46, C68: encodings
-/

namespace Verif

/-! ## C23 -/

/-- **C23**. Decoding inverts encoding. -/
theorem C23_nonce_roundtrip (sn : SecNonce) (pn : PubNonce) (an : AggNonce) :
    SecNonce.fromBytes sn.toBytes = .ok sn ∧ PubNonce.fromBytes pn.toBytes = .ok pn ∧
      AggNonce.fromBytes an.toBytes = .ok an :=
  ⟨SecNonce.fromBytes_eq_ok.2 ⟨Or.inl sn.toBytes_length, List.take_of_length_le sn.toBytes_length.le⟩,
    PubNonce.fromBytes_eq_ok.2 rfl, AggNonce.fromBytes_eq_ok.2 rfl⟩

/-- **C23**. Public and aggregated nonces have one encoding each. A secret nonce decodes from 64 or 97 bytes, of which
the first 64 are its encoding and the others are ignored. -/
theorem C23_nonce_canonical (b : Bytes) :
    (∀ pn, PubNonce.fromBytes b = .ok pn → b = pn.toBytes) ∧
    (∀ an, AggNonce.fromBytes b = .ok an → b = an.toBytes) ∧
    (∀ sn, SecNonce.fromBytes b = .ok sn ↔ (b.length = 64 ∨ b.length = 97) ∧ b.take 64 = sn.toBytes) :=
  ⟨fun _ h => PubNonce.fromBytes_eq_ok.1 h, fun _ h => AggNonce.fromBytes_eq_ok.1 h,
    fun _ => SecNonce.fromBytes_eq_ok⟩

/-- **C23**. Any other length is `BadLength`, and decoding never panics. -/
theorem C23_nonce_bad_length (b : Bytes) :
    (b.length ≠ 66 → PubNonce.fromBytes b = .err (.badLength b.length) ∧
      AggNonce.fromBytes b = .err (.badLength b.length)) ∧
    (b.length ≠ 64 → b.length ≠ 97 → SecNonce.fromBytes b = .err (.badLength b.length)) ∧
    PubNonce.fromBytes b ≠ .panic ∧ AggNonce.fromBytes b ≠ .panic ∧ SecNonce.fromBytes b ≠ .panic :=
  ⟨fun h => ⟨PubNonce.fromBytes_badLength h, AggNonce.fromBytes_badLength h⟩,
    fun h1 h2 => SecNonce.fromBytes_badLength (by omega),
    PubNonce.fromBytes_ne_panic b, AggNonce.fromBytes_ne_panic b, SecNonce.fromBytes_ne_panic b⟩

/-- **C23**, the layout: the scalars `k1 ‖ k2` (32 bytes each, big-endian), the points `R1 ‖ R2` (33 bytes each,
compressed; infinity is 33 zero bytes). -/
theorem C23_nonce_layout (sn : SecNonce) (pn : PubNonce) (an : AggNonce) :
    sn.toBytes = Spec.bytes_from_int sn.k1.1.val ++ Spec.bytes_from_int sn.k2.1.val ∧
    pn.toBytes = Spec.cbytes pn.R1.1 ++ Spec.cbytes pn.R2.1 ∧
    an.toBytes = Spec.cbytes_ext an.R1 ++ Spec.cbytes_ext an.R2 := by
  unfold SecNonce.toBytes PubNonce.toBytes AggNonce.toBytes
  rw [spec_cbytes_point, spec_cbytes_point, spec_cbytes_ext, spec_cbytes_ext]
  exact ⟨rfl, rfl, rfl⟩

/-- A secret nonce has an encoding of 64 bytes and further ones of 97 bytes; strings of other lengths exist. -/
example : ∃ sn : SecNonce, SecNonce.fromBytes sn.toBytes = .ok sn ∧
    (∀ junk : Bytes, junk.length = 33 → SecNonce.fromBytes (sn.toBytes ++ junk) = .ok sn) ∧
    SecNonce.fromBytes (sn.toBytes ++ [0]) = .err (.badLength 65) := by
  refine ⟨⟨scalarOne, scalarOne⟩, (C23_nonce_roundtrip _ ⟨Gpt, Gpt⟩ ⟨0, 0⟩).1, fun junk hj => ?_, ?_⟩
  · refine ((C23_nonce_canonical _).2.2 _).2 ⟨Or.inr ?_, ?_⟩
    · rw [List.length_append, SecNonce.toBytes_length, hj]
    · rw [List.take_left' (SecNonce.toBytes_length _)]
  · have h : ((⟨scalarOne, scalarOne⟩ : SecNonce).toBytes ++ [0]).length = 65 := by
      rw [List.length_append, SecNonce.toBytes_length]; rfl
    rw [(C23_nonce_bad_length _).2.1 (by omega) (by omega), h]

/-! ## C43 -/

/-- **C43**. Decoding inverts encoding, for lifted signatures with an even nonce (all that the API produces, C44). -/
theorem C43_signature_roundtrip (c : CompactSignature) (a : AdaptorSignature) (l : LiftedSignature)
    (hl : isOdd l.R.1 = false) :
    CompactSignature.fromBytes c.toBytes = .ok c ∧ AdaptorSignature.fromBytes a.toBytes = .ok a ∧
      LiftedSignature.fromBytes l.toBytes = .ok l :=
  ⟨CompactSignature.fromBytes_eq_ok.2 rfl, AdaptorSignature.fromBytes_eq_ok.2 rfl,
    LiftedSignature.fromBytes_eq_ok.2 ⟨hl, rfl⟩⟩

example : isOdd (LiftedSignature.new Gpt 5).R.1 = false := isOdd_toEvenY _

/-- **C43**. A signature has one encoding. -/
theorem C43_signature_canonical (b : Bytes) :
    (∀ c, CompactSignature.fromBytes b = .ok c → b = c.toBytes) ∧
    (∀ a, AdaptorSignature.fromBytes b = .ok a → b = a.toBytes) ∧
    (∀ l, LiftedSignature.fromBytes b = .ok l → b = l.toBytes) :=
  ⟨fun _ h => CompactSignature.fromBytes_eq_ok.1 h, fun _ h => AdaptorSignature.fromBytes_eq_ok.1 h,
    fun _ h => (LiftedSignature.fromBytes_eq_ok.1 h).2⟩

/-- **C43**. Wrong lengths are `BadLength`, and decoding never panics. -/
theorem C43_signature_bad_length (b : Bytes) :
    (b.length ≠ 64 → CompactSignature.fromBytes b = .err (.badLength b.length) ∧
      LiftedSignature.fromBytes b = .err (.badLength b.length)) ∧
    (b.length ≠ 65 → AdaptorSignature.fromBytes b = .err (.badLength b.length)) ∧
    CompactSignature.fromBytes b ≠ .panic ∧ AdaptorSignature.fromBytes b ≠ .panic ∧
    LiftedSignature.fromBytes b ≠ .panic :=
  ⟨fun h => ⟨CompactSignature.fromBytes_badLength h, LiftedSignature.fromBytes_badLength h⟩,
    fun h => AdaptorSignature.fromBytes_badLength h, CompactSignature.fromBytes_ne_panic b,
    AdaptorSignature.fromBytes_ne_panic b, LiftedSignature.fromBytes_ne_panic b⟩

/-- **C43**, the layout: x coordinate of the nonce (32 bytes) or compressed nonce (33 bytes), then the scalar. -/
theorem C43_signature_layout (c : CompactSignature) (a : AdaptorSignature) (l : LiftedSignature) :
    c.toBytes = c.rx.1 ++ Spec.bytes_from_int c.s.val ∧
    a.toBytes = Spec.cbytes_ext a.R ++ Spec.bytes_from_int a.s.val ∧
    l.toBytes = Spec.xbytes l.R.1 ++ Spec.bytes_from_int l.s.val := by
  unfold AdaptorSignature.toBytes LiftedSignature.toBytes LiftedSignature.compact CompactSignature.toBytes
    CompactSignature.new
  rw [spec_cbytes_ext, spec_xbytes]
  exact ⟨rfl, rfl, rfl⟩

/-! ## C44 -/

/-- **C44**. Every function that returns a lifted signature returns one with an even nonce. (Those that convert or deserialize one are in
`Props/LiftedEven`.) -/
theorem C44_lifted_even (H : Hash) :
    (∀ R s, isOdd (LiftedSignature.new R s).R.1 = false) ∧
    (∀ c l, CompactSignature.liftNonce c = some l → isOdd l.R.1 = false) ∧
    (∀ b l, LiftedSignature.fromBytes b = .ok l → isOdd l.R.1 = false) ∧
    (∀ s l, LiftedSignature.fromHex s = .ok l → isOdd l.R.1 = false) ∧
    (∀ a t l, AdaptorSignature.adapt a t = some l → isOdd l.R.1 = false) ∧
    (∀ (ε : Type) sk msg seed l, (signSolo H sk msg seed : Res ε _) = .ok l → isOdd l.R.1 = false) ∧
    (∀ ctx an sigs msg l, aggregatePartialSignatures H ctx an sigs msg = .ok l → isOdd l.R.1 = false) ∧
    (∀ second l, SecondRound.finalize H second = .ok l → isOdd l.R.1 = false) := by
  have hadapt : ∀ (a : AdaptorSignature) t l, a.adapt t = some l → isOdd l.R.1 = false := fun a t l h => adapt_isOdd h
  refine ⟨fun R s => isOdd_toEvenY _, fun c l h => (CompactSignature.liftNonce_eq_some.1 h).1,
    fun b l h => (LiftedSignature.fromBytes_eq_ok.1 h).1, fun s l h => ?_, hadapt, fun ε sk msg seed l h => ?_,
    fun ctx an sigs msg l h => ?_, fun second l h => ?_⟩
  · obtain ⟨b, -, -, h⟩ := fromStrFixed_eq_ok.1 h
    exact (LiftedSignature.fromBytes_eq_ok.1 h).1
  · unfold signSolo at h
    cases ha : (signSoloAdaptor H sk msg seed 0).adapt 0 with
    | none => rw [ha] at h; cases h
    | some l' => rw [ha] at h; cases h; exact hadapt _ _ _ ha
  · rw [aggregate_eq] at h
    split_ifs at h
    cases h
    exact isOdd_toEvenY _
  · unfold SecondRound.finalize at h
    rw [Res.bind_eq_ok] at h
    obtain ⟨a, -, h⟩ := h
    cases ha : a.adapt 0 with
    | none => rw [ha] at h; cases h
    | some l' => rw [ha] at h; cases h; exact hadapt _ _ _ ha

/-- **C44**. `compact` and `lift_nonce` are inverse to each other. -/
theorem C44_compact_lift_inverse (c : CompactSignature) (l : LiftedSignature) :
    (isOdd l.R.1 = false → l.compact.liftNonce = some l) ∧ (c.liftNonce = some l → l.compact = c) :=
  ⟨fun h => CompactSignature.liftNonce_eq_some.2 ⟨h, rfl⟩, fun h => (CompactSignature.liftNonce_eq_some.1 h).2⟩

/-- **C44**. A compact signature can be lifted exactly when its 32 bytes are the x coordinate of a point. -/
theorem C44_lift_iff_on_curve (c : CompactSignature) : (∃ l, c.liftNonce = some l) ↔ ∃ R : Point, c.rx = xonly R.1 := by
  constructor
  · rintro ⟨l, h⟩
    exact ⟨l.R, by rw [← (CompactSignature.liftNonce_eq_some.1 h).2]; rfl⟩
  · rintro ⟨R, h⟩
    refine ⟨⟨toEvenY R, c.s⟩, CompactSignature.liftNonce_eq_some.2 ⟨isOdd_toEvenY R, ?_⟩⟩
    unfold LiftedSignature.compact CompactSignature.new
    simp only [xonly_toEvenY, ← h]

/-- A compact signature that can be lifted, for every point. -/
example (R : Point) (s : MaybeScalar) : ∃ l, (CompactSignature.new R s).liftNonce = some l ∧ isOdd l.R.1 = false := by
  obtain ⟨l, hl⟩ := (C44_lift_iff_on_curve (CompactSignature.new R s)).2 ⟨R, rfl⟩
  exact ⟨l, hl, (C44_lifted_even sha256).2.1 _ _ hl⟩

/-! ## C45, C46 -/

/-- **C45**. `{:x}` and `{:X}` write the encoding in hex. -/
theorem C45_formatting (b : Bytes) : Spec.HexOf (hexEncodeLower b) b ∧ Spec.HexOf (hexEncodeUpper b) b :=
  ⟨hexEncodeLower_hexOf b, hexEncodeUpper_hexOf b⟩

/-- **C45**. Any way to write the encoding of a value in hex, in whatever case, is parsed to this value. -/
theorem C45_parse_hex (s : Bytes) :
    (∀ x : SecNonce, Spec.HexOf s x.toBytes → SecNonce.fromHex s = .ok x) ∧
    (∀ x : PubNonce, Spec.HexOf s x.toBytes → PubNonce.fromHex s = .ok x) ∧
    (∀ x : AggNonce, Spec.HexOf s x.toBytes → AggNonce.fromHex s = .ok x) ∧
    (∀ x : CompactSignature, Spec.HexOf s x.toBytes → CompactSignature.fromHex s = .ok x) ∧
    (∀ x : AdaptorSignature, Spec.HexOf s x.toBytes → AdaptorSignature.fromHex s = .ok x) ∧
    (∀ x : LiftedSignature, isOdd x.R.1 = false → Spec.HexOf s x.toBytes → LiftedSignature.fromHex s = .ok x) ∧
    (∀ (H : Hash) (x : KeyAggContext), Reachable H x → Spec.HexOf s x.toBytes →
      KeyAggContext.fromHex H s = .ok x) := by
  refine ⟨fun x h => ?_, fun x h => ?_, fun x h => ?_, fun x h => ?_, fun x h => ?_, fun x hx h => ?_,
    fun H x hx h => ?_⟩
  · exact fromStrFixed_eq_ok.2 ⟨_, h, x.toBytes_length.le, (C23_nonce_roundtrip x ⟨Gpt, Gpt⟩ ⟨0, 0⟩).1⟩
  · exact fromStrFixed_eq_ok.2 ⟨_, h, x.toBytes_length.le, PubNonce.fromBytes_eq_ok.2 rfl⟩
  · exact fromStrFixed_eq_ok.2 ⟨_, h, x.toBytes_length.le, AggNonce.fromBytes_eq_ok.2 rfl⟩
  · exact fromStrFixed_eq_ok.2 ⟨_, h, x.toBytes_length.le, CompactSignature.fromBytes_eq_ok.2 rfl⟩
  · exact fromStrFixed_eq_ok.2 ⟨_, h, x.toBytes_length.le, AdaptorSignature.fromBytes_eq_ok.2 rfl⟩
  · exact fromStrFixed_eq_ok.2 ⟨_, h, x.toBytes_length.le, LiftedSignature.fromBytes_eq_ok.2 ⟨hx, rfl⟩⟩
  · exact fromStrVar_eq_ok.2 ⟨_, h, hx.inv.fromBytes_toBytes⟩

/-- **C45**. Nothing but the hex of an encoding is accepted. (For contexts: of a byte string that `from_bytes`
accepts.) -/
theorem C45_reject_other (s : Bytes) :
    (∀ x : SecNonce, SecNonce.fromHex s = .ok x → Spec.HexOf s x.toBytes) ∧
    (∀ x : PubNonce, PubNonce.fromHex s = .ok x → Spec.HexOf s x.toBytes) ∧
    (∀ x : AggNonce, AggNonce.fromHex s = .ok x → Spec.HexOf s x.toBytes) ∧
    (∀ x : CompactSignature, CompactSignature.fromHex s = .ok x → Spec.HexOf s x.toBytes) ∧
    (∀ x : AdaptorSignature, AdaptorSignature.fromHex s = .ok x → Spec.HexOf s x.toBytes) ∧
    (∀ x : LiftedSignature, LiftedSignature.fromHex s = .ok x → Spec.HexOf s x.toBytes) ∧
    (∀ (H : Hash) (x : KeyAggContext), KeyAggContext.fromHex H s = .ok x ↔
      ∃ b, Spec.HexOf s b ∧ KeyAggContext.fromBytes H b = .ok x) := by
  refine ⟨fun x h => ?_, fun x h => ?_, fun x h => ?_, fun x h => ?_, fun x h => ?_, fun x h => ?_,
    fun H x => fromStrVar_eq_ok⟩
  · obtain ⟨b, h1, h2, h3⟩ := fromStrFixed_eq_ok.1 h
    obtain ⟨-, h4⟩ := SecNonce.fromBytes_eq_ok.1 h3
    rwa [← h4, List.take_of_length_le h2]
  · obtain ⟨b, h1, h2, h3⟩ := fromStrFixed_eq_ok.1 h
    rwa [← PubNonce.fromBytes_eq_ok.1 h3]
  · obtain ⟨b, h1, h2, h3⟩ := fromStrFixed_eq_ok.1 h
    rwa [← AggNonce.fromBytes_eq_ok.1 h3]
  · obtain ⟨b, h1, h2, h3⟩ := fromStrFixed_eq_ok.1 h
    rwa [← CompactSignature.fromBytes_eq_ok.1 h3]
  · obtain ⟨b, h1, h2, h3⟩ := fromStrFixed_eq_ok.1 h
    rwa [← AdaptorSignature.fromBytes_eq_ok.1 h3]
  · obtain ⟨b, h1, h2, h3⟩ := fromStrFixed_eq_ok.1 h
    rwa [← (LiftedSignature.fromBytes_eq_ok.1 h3).2]

/-- **C45**. Parsing hex never panics. -/
theorem C45_parse_total (H : Hash) (s : Bytes) :
    SecNonce.fromHex s ≠ .panic ∧ PubNonce.fromHex s ≠ .panic ∧ AggNonce.fromHex s ≠ .panic ∧
    CompactSignature.fromHex s ≠ .panic ∧ AdaptorSignature.fromHex s ≠ .panic ∧ LiftedSignature.fromHex s ≠ .panic ∧
    KeyAggContext.fromHex H s ≠ .panic :=
  ⟨fromStrFixed_ne_panic SecNonce.fromBytes_ne_panic s, fromStrFixed_ne_panic PubNonce.fromBytes_ne_panic s,
    fromStrFixed_ne_panic AggNonce.fromBytes_ne_panic s, fromStrFixed_ne_panic CompactSignature.fromBytes_ne_panic s,
    fromStrFixed_ne_panic AdaptorSignature.fromBytes_ne_panic s,
    fromStrFixed_ne_panic LiftedSignature.fromBytes_ne_panic s, fromStrVar_ne_panic (fromBytes_ne_panic H) s⟩

/-- A string in mixed case: "aB" for the byte 0xab. -/
example : Spec.HexOf [0x61, 0x42] [0xab] := by
  have := Spec.HexOf.cons (c := 0x61) (d := 0x42) (hi := 10) (lo := 11) (Or.inl rfl) (Or.inr rfl) .nil
  exact this

example : Reachable sha256 exCtx ∧ Spec.HexOf (hexEncodeLower (⟨Gpt, Gpt⟩ : PubNonce).toBytes)
    (⟨Gpt, Gpt⟩ : PubNonce).toBytes := ⟨exCtx_reachable, hexEncodeLower_hexOf _⟩

/-- **C46**, true part: the hex of an accepted 64-byte string is accepted, with the same result. Missing: 97-byte
strings, see `C46_from_hex_rejects_97`. -/
theorem C46_from_hex_partial (b s : Bytes) (x : SecNonce) (hb : SecNonce.fromBytes b = .ok x) (hl : b.length = 64)
    (hs : Spec.HexOf s b) : SecNonce.fromHex s = .ok x :=
  fromStrFixed_eq_ok.2 ⟨b, hs, hl.le, hb⟩

/-- **C46** is false for every 97-byte encoding: `from_bytes` accepts it and `from_hex` rejects its hex. -/
theorem C46_from_hex_rejects_97 (x : SecNonce) (pk s : Bytes) (hpk : pk.length = 33)
    (hs : Spec.HexOf s (x.toBytes ++ pk)) :
    SecNonce.fromBytes (x.toBytes ++ pk) = .ok x ∧ SecNonce.fromHex s = .err (.badHexFormat .invalidLength) := by
  have hl : (x.toBytes ++ pk).length = 97 := by rw [List.length_append, x.toBytes_length, hpk]
  refine ⟨SecNonce.fromBytes_eq_ok.2 ⟨Or.inr hl, List.take_left' x.toBytes_length⟩, ?_⟩
  have hsl := HexOf.length hs
  rw [hl] at hsl
  unfold SecNonce.fromHex fromStrFixed hexDecode
  rw [if_neg (by omega), if_pos (by omega)]
  rfl

/-- **C46**, the exact behaviour: of the encodings that `from_bytes` accepts, `from_hex` accepts the hex of those of 64
bytes. -/
theorem C46_from_hex_exact (b s : Bytes) (x : SecNonce) (hb : SecNonce.fromBytes b = .ok x) (hs : Spec.HexOf s b) :
    SecNonce.fromHex s = .ok x ↔ b.length = 64 := by
  refine ⟨fun h => ?_, fun hl => C46_from_hex_partial b s x hb hl hs⟩
  obtain ⟨c, h1, h2, h3⟩ := fromStrFixed_eq_ok.1 h
  have e1 := HexOf.length h1
  have e2 := HexOf.length hs
  obtain ⟨h4, -⟩ := SecNonce.fromBytes_eq_ok.1 h3
  omega

/-- Both lengths occur. -/
example : ∃ (b b' : Bytes) (x : SecNonce), SecNonce.fromBytes b = .ok x ∧ SecNonce.fromBytes b' = .ok x ∧
    b.length = 64 ∧ b'.length = 97 :=
  ⟨_, _, ⟨scalarOne, scalarOne⟩, (C23_nonce_roundtrip ⟨scalarOne, scalarOne⟩ ⟨Gpt, Gpt⟩ ⟨0, 0⟩).1,
    (C46_from_hex_rejects_97 ⟨scalarOne, scalarOne⟩ (serPoint G).1 _ (serPoint G).2 (hexEncodeLower_hexOf _)).1,
    SecNonce.toBytes_length _, by rw [List.length_append, SecNonce.toBytes_length, (serPoint G).2]⟩

/-- **C46** is false. -/
theorem C46_from_hex_accepts_false : ¬ ∀ (b s : Bytes) (x : SecNonce), SecNonce.fromBytes b = .ok x →
    Spec.HexOf s b → ∃ y, SecNonce.fromHex s = .ok y := by
  intro h
  obtain ⟨h1, h2⟩ := C46_from_hex_rejects_97 ⟨scalarOne, scalarOne⟩ (serPoint G).1 _ (serPoint G).2
    (hexEncodeLower_hexOf _)
  obtain ⟨y, hy⟩ := h _ _ _ h1 (hexEncodeLower_hexOf _)
  rw [h2] at hy
  cases hy

/-! ## C68 -/

/-- **C68**. Encodings are injective, and each parser accepts exactly the encodings. -/
theorem C68_encodings_bijective :
    Function.Injective serScalar ∧ Function.Injective serPoint ∧
    (∀ b s, parseMaybeScalar b = some s ↔ b = (serScalar s).1) ∧
    (∀ b (s : Scalar), parseScalar b = some s ↔ b = (serScalar s.1).1) ∧
    (∀ b P, parseMaybePoint b = some P ↔ b = (serPoint P).1) ∧
    (∀ b (P : Point), parsePoint b = some P ↔ b = (serPoint P.1).1) :=
  ⟨serScalar_injective, serPoint_injective, fun _ _ => parseMaybeScalar_eq_some, fun _ _ => parseScalar_eq_some,
    fun _ _ => parseMaybePoint_eq_some, fun _ _ => parsePoint_eq_some⟩

/-- **C68**. Which byte strings are accepted, in terms of integers and the curve equation. -/
theorem C68_parsers_accept (b : Bytes) :
    ((∃ s, parseMaybeScalar b = some s) ↔ b.length = 32 ∧ beNat b < orderN) ∧
    ((∃ s, parseScalar b = some s) ↔ b.length = 32 ∧ 0 < beNat b ∧ beNat b < orderN) ∧
    ((∃ P, parsePoint b = some P) ↔ ∃ (odd : Bool) (x y : Fp), y ^ 2 = x ^ 3 + 7 ∧ (decide (y.val % 2 = 1) = odd) ∧
      b = (if odd then 3 else 2) :: beBytes 32 x.val) := by
  refine ⟨?_, ?_, ?_⟩
  · unfold parseMaybeScalar
    split_ifs with h <;> simp [h]
  · unfold parseScalar parseMaybeScalar
    split_ifs with h
    · obtain ⟨h1, h2⟩ := h
      simp only [Option.bind_some, h1, h2, true_and, and_true]
      constructor
      · rintro ⟨s, hs⟩
        have := s.2
        rw [← notZero_eq_some.1 hs] at this
        by_contra h0
        have h0' : beNat b = 0 := by omega
        rw [h0', Nat.cast_zero] at this
        exact this rfl
      · intro h0
        cases hz : notZero ((beNat b : ℕ) : MaybeScalar) with
        | some s => exact ⟨s, rfl⟩
        | none =>
          rw [notZero_eq_none, ZMod.natCast_eq_zero_iff] at hz
          exact absurd (Nat.le_of_dvd h0 hz) (by omega)
    · simp only [Option.bind_none, reduceCtorEq, exists_false, false_iff]
      tauto
  · constructor
    · rintro ⟨P, hP⟩
      rw [parsePoint_eq_some] at hP
      obtain ⟨P, hP0⟩ := P
      rcases MaybePoint.eq_zero_or_mk P with h | ⟨x, y, h, rfl⟩
      · exact absurd h hP0
      · refine ⟨_, x, y, h, rfl, ?_⟩
        rw [hP, serPoint_of_ne hP0, isOdd_mkPoint]
        rfl
    · rintro ⟨odd, x, y, h, rfl, rfl⟩
      refine ⟨⟨mkPoint x y h, mkPoint_ne_zero x y h⟩, ?_⟩
      rw [parsePoint_eq_some, serPoint_of_ne (mkPoint_ne_zero x y h), isOdd_mkPoint]
      rfl

/-- **C68**. Negation flips the prefix byte and keeps the x coordinate; infinity is 33 zero bytes. -/
theorem C68_negation (P : Point) :
    ∃ x : Bytes, x.length = 32 ∧ ((serPoint P.1).1 = 2 :: x ∧ (serPoint (-P.1)).1 = 3 :: x ∨
      (serPoint P.1).1 = 3 :: x ∧ (serPoint (-P.1)).1 = 2 :: x) ∧ (serPoint 0).1 = List.replicate 33 0 := by
  refine ⟨(xonly P.1).1, (xonly P.1).2, ?_, serPoint_zero⟩
  rw [serPoint_of_ne P.2, serPoint_of_ne (neg_ne_zero.2 P.2), xonly_neg, isOdd_neg P.2]
  cases isOdd P.1 <;> simp

example : (serPoint G).1.head? = some 2 := by
  rw [serPoint_of_ne G_ne_zero]
  have : isOdd G = false := isOdd_G
  rw [this]; rfl

end Verif
