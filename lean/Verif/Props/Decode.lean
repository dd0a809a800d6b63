import Verif.Lemmas.Props.Decode

/-!
# Property C102, and the layout of C10: what decoding reports
-/

namespace Verif

/-! ## C102 -/

/-- **C102**, nonces. `BadLength` reports the length exactly if it is wrong, `InvalidPoint` exactly if the length is right
and one of the points cannot be decoded; for secret nonces `InvalidScalar` exactly if one of the scalars is zero or not
below the group order. There are no other errors. -/
theorem C102_nonce_errors (b : Bytes) (e : DecodeError) :
    (PubNonce.fromBytes b = .err e ↔
      (b.length ≠ 66 ∧ e = .badLength b.length) ∨
      (b.length = 66 ∧ (Spec.cpoint (b.take 33) = none ∨ Spec.cpoint (b.drop 33) = none) ∧ e = .invalidPoint)) ∧
    (AggNonce.fromBytes b = .err e ↔
      (b.length ≠ 66 ∧ e = .badLength b.length) ∨
      (b.length = 66 ∧ (Spec.cpoint_ext (b.take 33) = none ∨ Spec.cpoint_ext (b.drop 33) = none) ∧
        e = .invalidPoint)) ∧
    (SecNonce.fromBytes b = .err e ↔
      (b.length ≠ 64 ∧ b.length ≠ 97 ∧ e = .badLength b.length) ∨
      ((b.length = 64 ∨ b.length = 97) ∧
        (¬ (0 < Spec.int_from_bytes (b.take 32) ∧ Spec.int_from_bytes (b.take 32) < orderN) ∨
          ¬ (0 < Spec.int_from_bytes ((b.drop 32).take 32) ∧ Spec.int_from_bytes ((b.drop 32).take 32) < orderN)) ∧
        e = .invalidScalar)) := by
  refine ⟨?_, ?_, ?_⟩
  · unfold PubNonce.fromBytes
    by_cases hl : b.length = 66
    · rw [if_neg (by omega), slice_ok (by omega), Res.bind_ok, slice_ok (by omega)]
      simp only [Res.bind_ok]
      rw [two_steps_err, parsePoint_none_iff, parsePoint_none_iff, ne_eq, parsePoint_none_iff]
      have e1 : (b.drop 0).take (66 / 2 - 0) = b.take 33 := by simp
      have e2 : (b.drop (66 / 2)).take (b.length - 66 / 2) = b.drop 33 := List.take_of_length_le (by simp)
      rw [e1, e2]
      simp only [hl, ne_eq, not_true_eq_false, false_and, true_and, false_or]
      tauto
    · rw [if_pos hl]
      simp [hl, eq_comm]
  · unfold AggNonce.fromBytes
    by_cases hl : b.length = 66
    · rw [if_neg (by omega), slice_ok (by omega), Res.bind_ok, slice_ok (by omega)]
      simp only [Res.bind_ok]
      rw [two_steps_err, parseMaybePoint_none_iff, parseMaybePoint_none_iff, ne_eq, parseMaybePoint_none_iff]
      have e1 : (b.drop 0).take (66 / 2 - 0) = b.take 33 := by simp
      have e2 : (b.drop (66 / 2)).take (b.length - 66 / 2) = b.drop 33 := List.take_of_length_le (by simp)
      rw [e1, e2]
      simp only [hl, ne_eq, not_true_eq_false, false_and, true_and, false_or]
      tauto
    · rw [if_pos hl]
      simp [hl, eq_comm]
  · unfold SecNonce.fromBytes
    by_cases hl : b.length = 64 ∨ b.length = 97
    · rw [if_neg (by omega), slice_ok (by omega), Res.bind_ok, slice_ok (by omega)]
      simp only [Res.bind_ok]
      have e1 : (b.drop 0).take (64 / 2 - 0) = b.take 32 := by simp
      have e2 : (b.drop (64 / 2)).take (64 - 64 / 2) = (b.drop 32).take 32 := by simp
      rw [e1, e2]
      rw [two_steps_err, parseScalar_none_iff (by simp; omega), parseScalar_none_iff (by simp; omega), ne_eq,
        parseScalar_none_iff (by simp; omega)]
      have h3 : ¬ (b.length ≠ 64 ∧ b.length ≠ 97 ∧ e = .badLength b.length) := by omega
      simp only [hl, h3, true_and, false_or]
      tauto
    · rw [if_pos (by omega)]
      have h1 : b.length ≠ 64 := by omega
      have h2 : b.length ≠ 97 := by omega
      simp [h1, h2, eq_comm]

/-- **C102**, signatures. -/
theorem C102_signature_errors (b : Bytes) (e : DecodeError) :
    (CompactSignature.fromBytes b = .err e ↔
      (b.length ≠ 64 ∧ e = .badLength b.length) ∨
      (b.length = 64 ∧ orderN ≤ Spec.int_from_bytes (b.drop 32) ∧ e = .invalidScalar)) ∧
    (LiftedSignature.fromBytes b = .err e ↔
      (b.length ≠ 64 ∧ e = .badLength b.length) ∨
      (b.length = 64 ∧ orderN ≤ Spec.int_from_bytes (b.drop 32) ∧ e = .invalidScalar) ∨
      (b.length = 64 ∧ Spec.int_from_bytes (b.drop 32) < orderN ∧ Spec.lift_x (b.take 32) = none ∧
        e = .invalidPoint)) ∧
    (AdaptorSignature.fromBytes b = .err e ↔
      (b.length ≠ 65 ∧ e = .badLength b.length) ∨
      (b.length = 65 ∧ Spec.cpoint_ext (b.take 33) = none ∧ e = .invalidPoint) ∨
      (b.length = 65 ∧ Spec.cpoint_ext (b.take 33) ≠ none ∧ orderN ≤ Spec.int_from_bytes (b.drop 33) ∧
        e = .invalidScalar)) := by
  have hcompact : ∀ hl : b.length = 64, CompactSignature.fromBytes b
      = (Res.okOr (parseMaybeScalar (b.drop 32)) .invalidScalar >>= fun s =>
          (pure ⟨⟨b.take 32, by simp [hl]⟩, s⟩ : Res DecodeError CompactSignature)) := by
    intro hl
    have h32 : (b.take 32).length = 32 := by simp [hl]
    unfold CompactSignature.fromBytes
    rw [if_neg (by omega), slice_ok (by omega), Res.bind_ok]
    have e1 : (b.drop 0).take (32 - 0) = b.take 32 := by simp
    have e2 : (b.drop 32).take (b.length - 32) = b.drop 32 := List.take_of_length_le (by simp)
    rw [e1, dif_pos h32, slice_ok (by omega), e2]
    rfl
  refine ⟨?_, ?_, ?_⟩
  · by_cases hl : b.length = 64
    · rw [hcompact hl]
      have h := parseMaybeScalar_none_iff (b := b.drop 32) (by simp [hl])
      cases hp : parseMaybeScalar (b.drop 32) with
      | none => rw [hp] at h; simp [hl, h.1 rfl, Res.okOr, eq_comm]
      | some s => rw [hp] at h; simp at h; simp [hl, h, Res.okOr]
    · rw [CompactSignature.fromBytes_badLength hl]
      simp [hl, eq_comm]
  · by_cases hl : b.length = 64
    · unfold LiftedSignature.fromBytes
      rw [hcompact hl]
      have h := parseMaybeScalar_none_iff (b := b.drop 32) (by simp [hl])
      cases hp : parseMaybeScalar (b.drop 32) with
      | none =>
        rw [hp] at h
        have h' := h.1 rfl
        simp [hl, h', Res.okOr, eq_comm]
      | some s =>
        rw [hp] at h
        simp at h
        have hx := spec_lift_x ⟨b.take 32, by simp [hl]⟩
        simp only at hx
        unfold CompactSignature.liftNonce
        cases hq : liftX ⟨b.take 32, by simp [hl]⟩ with
        | none => rw [hq] at hx; simp [hl, h, hx, hq, Res.okOr, eq_comm, not_le.2 h]
        | some R => rw [hq] at hx; simp [hl, h, hx, hq, Res.okOr, not_le.2 h]
    · rw [LiftedSignature.fromBytes_badLength hl]
      simp [hl, eq_comm]
  · unfold AdaptorSignature.fromBytes
    by_cases hl : b.length = 65
    · rw [if_neg (by omega), slice_ok (by omega), Res.bind_ok, slice_ok (by omega)]
      simp only [Res.bind_ok]
      have e1 : (b.drop 0).take (33 - 0) = b.take 33 := by simp
      have e2 : (b.drop 33).take (b.length - 33) = b.drop 33 := List.take_of_length_le (by simp)
      rw [e1, e2, two_steps_err, ne_eq, parseMaybePoint_none_iff, parseMaybeScalar_none_iff (by simp [hl])]
      simp only [hl, ne_eq, not_true_eq_false, false_and, true_and, false_or]
    · rw [if_pos hl]
      simp [hl, eq_comm]

/-- **C102**, contexts, field by field. The string is a header byte, the tweak scalar if bit 1 of the header is set, a
count of four bytes, and the keys. -/
theorem C102_context_outcomes (H : Hash) (b : Bytes) :
    (b.length < 38 → KeyAggContext.fromBytes H b = .err (.badLength b.length)) ∧
    ∀ hd tw cnt keys, b = (hd :: tw) ++ cnt ++ keys → cnt.length = 4 → 38 ≤ b.length →
      (hd &&& 2 ≠ 0 → tw.length = 32 → ¬ (0 < Spec.int_from_bytes tw ∧ Spec.int_from_bytes tw < orderN) →
        KeyAggContext.fromBytes H b = .err .invalidScalar) ∧
      (Spec.TweakField hd tw →
        (keys.length ≠ Spec.int_from_bytes cnt * 33 → KeyAggContext.fromBytes H b = .err (.badLength b.length)) ∧
        (keys.length = Spec.int_from_bytes cnt * 33 →
          (¬ ∃ ks : List Point, keys = (ks.map fun P => Spec.cbytes P.1).flatten) →
          KeyAggContext.fromBytes H b = .err .invalidPoint) ∧
        ∀ ks : List Point, keys = (ks.map fun P => Spec.cbytes P.1).flatten →
          ks.length = Spec.int_from_bytes cnt →
          (KeyAggContext.new H ks = .err .keyAggError →
            KeyAggContext.fromBytes H b = .err (.customKeyAgg .keyAggError)) ∧
          ∀ ctx0, KeyAggContext.new H ks = .ok ctx0 →
            let Q := (if hd &&& 1 = 1 then -ctx0.aggregatedPubkey.1 else ctx0.aggregatedPubkey.1)
              + Spec.int_from_bytes tw • G
            (Q = 0 → KeyAggContext.fromBytes H b = .err (.customTweak .tweakError)) ∧
            (Q ≠ 0 → ∃ ctx, KeyAggContext.fromBytes H b = .ok ctx ∧ ctx.pubkeys = ks ∧
              ctx.aggregatedPubkey.1 = Q)) := by
  refine ⟨fun h => fromBytes_short h, ?_⟩
  rintro hd tw cnt keys rfl hc hl
  refine ⟨fun h2 htw hr => ?_, fun htw => ?_⟩
  · have e : (hd :: tw) ++ cnt ++ keys = hd :: (tw ++ (cnt ++ keys)) := by simp
    rw [e] at hl ⊢
    refine fromBytes_badTweak (by simpa using hl) h2 ?_
    rw [List.take_left' htw]
    exact (parseScalar_none_iff htw).2 hr
  obtain ⟨u, hu⟩ := (tweakField_iff hd tw).1 htw
  have hfields := fromBytes_fields H hd tw cnt keys u hu hc hl
  have hlen : ((hd :: tw) ++ cnt ++ keys).length - ((hd :: tw).length + 4) = keys.length := by simp; omega
  have hflat : ∀ ks : List Point, (ks.map fun P => Spec.cbytes P.1).flatten = keysFlat ks := by
    intro ks
    unfold keysFlat
    simp only [spec_cbytes_point]
  unfold fromBytesKeys at hfields
  rw [hlen] at hfields
  refine ⟨fun h => ?_, fun h hno => ?_, fun ks hks hcnt => ?_⟩
  · rw [hfields]
    exact if_pos h
  · rw [hfields, if_neg (show ¬ keys.length ≠ beNat cnt * 33 from not_not.2 h), slice_rest _ _ _ hc, Res.bind_ok]
    cases hp : KeyAggContext.parsePubkeys keys with
    | ok ks => exact absurd ⟨ks, by rw [hflat]; exact parsePubkeys_eq_ok h hp⟩ hno
    | err e => rw [parsePubkeys_eq_err hp]; rfl
    | panic => exact absurd hp (parsePubkeys_ne_panic _)
  · rw [hflat] at hks
    subst hks
    rw [if_neg (by rw [keysFlat_length, hcnt]; simp [Spec.int_from_bytes]), slice_rest _ _ _ hc, Res.bind_ok,
      parsePubkeys_flat, Res.bind_ok] at hfields
    refine ⟨fun hn => by rw [hfields, hn]; rfl, fun ctx0 hn => ?_⟩
    rw [hn] at hfields
    simp only [Res.mapErr_ok, Res.bind_ok] at hfields
    have hpar : (if decide (hd &&& 1 = 1) = true then Point.neg ctx0.pubkey else ctx0.pubkey).1
        = if hd &&& 1 = 1 then -ctx0.aggregatedPubkey.1 else ctx0.aggregatedPubkey.1 := by
      by_cases h1 : hd &&& 1 = 1
      · simp only [h1, decide_true, if_true]; rfl
      · simp only [h1, decide_false, if_false]; rfl
    have hkeys : ctx0.pubkeys = ks := by
      obtain ⟨-, -, Q, -, rfl⟩ := new_eq_ok.1 hn
      rfl
    intro Q
    cases u with
    | none =>
      obtain ⟨-, rfl⟩ := hu
      have hQ : Q = if hd &&& 1 = 1 then -ctx0.aggregatedPubkey.1 else ctx0.aggregatedPubkey.1 := by
        change _ + (beNat [] : ℕ) • G = _
        simp [beNat]
      simp only [Res.pure_def] at hfields
      refine ⟨fun h0 => ?_, fun _ => ⟨_, hfields, hkeys, ?_⟩⟩
      · rw [hQ] at h0
        split_ifs at h0
        · exact absurd (neg_eq_zero.1 h0) ctx0.aggregatedPubkey.2
        · exact absurd h0 ctx0.aggregatedPubkey.2
      · rw [hQ]; exact hpar
    | some t =>
      obtain ⟨-, rfl⟩ := hu
      have hQ : Q = (if decide (hd &&& 1 = 1) = true then Point.neg ctx0.pubkey else ctx0.pubkey).1 + t.1 • G := by
        change _ + (beNat (serScalar t.1).1 : ℕ) • G = _
        rw [beNat_serScalar, hpar, smul_def]
      refine ⟨fun h0 => ?_, fun hne => ?_⟩
      · rw [hQ] at h0
        rw [hfields]
        unfold KeyAggContext.withPlainTweak
        simp only [h0]
        rfl
      · rw [hQ] at hne
        dsimp only at hfields
        rw [(withPlainTweak_eq_ok).2 ⟨⟨_, hne⟩, rfl, rfl⟩] at hfields
        exact ⟨_, hfields, hkeys, hQ.symm⟩

/-- **C102**: the cases of `C102_context_outcomes` are all there are. A string of at least 38 bytes has these fields, and the
keys field either has the wrong length, or is no list of keys, or is a list of keys in the number counted. -/
theorem C102_context_cases (b : Bytes) (hl : 38 ≤ b.length) :
    ∃ hd tw cnt keys, b = (hd :: tw) ++ cnt ++ keys ∧ cnt.length = 4 ∧
      ((hd &&& 2 ≠ 0 ∧ tw.length = 32 ∧ ¬ (0 < Spec.int_from_bytes tw ∧ Spec.int_from_bytes tw < orderN)) ∨
        (Spec.TweakField hd tw ∧
          (keys.length ≠ Spec.int_from_bytes cnt * 33 ∨
            (keys.length = Spec.int_from_bytes cnt * 33 ∧
              ¬ ∃ ks : List Point, keys = (ks.map fun P => Spec.cbytes P.1).flatten) ∨
            ∃ ks : List Point, keys = (ks.map fun P => Spec.cbytes P.1).flatten ∧
              ks.length = Spec.int_from_bytes cnt))) := by
  rcases fields_cases b hl with ⟨hd, r, rfl, h2, hp⟩ | ⟨hd, tw, cnt, rest, u, rfl, hu, hc⟩
  · simp only [List.length_cons] at hl
    have h32 : (r.take 32).length = 32 := by simp; omega
    refine ⟨hd, r.take 32, (r.drop 32).take 4, (r.drop 32).drop 4, ?_, by simp; omega, Or.inl ⟨h2, h32, ?_⟩⟩
    · rw [List.append_assoc, List.take_append_drop, List.cons_append, List.take_append_drop]
    · exact (parseScalar_none_iff h32).1 hp
  · refine ⟨hd, tw, cnt, rest, rfl, hc, Or.inr ⟨(tweakField_iff hd tw).2 ⟨u, hu⟩, ?_⟩⟩
    by_cases h : rest.length = Spec.int_from_bytes cnt * 33
    · right
      by_cases hk : ∃ ks : List Point, rest = (ks.map fun P => Spec.cbytes P.1).flatten
      · right
        obtain ⟨ks, hks⟩ := hk
        refine ⟨ks, hks, ?_⟩
        have hflat : (ks.map fun P => Spec.cbytes P.1).flatten = keysFlat ks := by
          unfold keysFlat
          simp only [spec_cbytes_point]
        rw [hks, hflat, keysFlat_length] at h
        omega
      · exact Or.inl ⟨h, hk⟩
    · exact Or.inl h

/-- **C102**, hex strings: what `from_hex` reports, for all types. -/
theorem C102_hex_errors (H : Hash) :
    Spec.ParsesHex (some 64) SecNonce.fromBytes SecNonce.fromHex ∧
    Spec.ParsesHex (some 66) PubNonce.fromBytes PubNonce.fromHex ∧
    Spec.ParsesHex (some 66) AggNonce.fromBytes AggNonce.fromHex ∧
    Spec.ParsesHex (some 64) CompactSignature.fromBytes CompactSignature.fromHex ∧
    Spec.ParsesHex (some 64) LiftedSignature.fromBytes LiftedSignature.fromHex ∧
    Spec.ParsesHex (some 65) AdaptorSignature.fromBytes AdaptorSignature.fromHex ∧
    Spec.ParsesHex none (KeyAggContext.fromBytes H) (KeyAggContext.fromHex H) :=
  ⟨fromStrFixed_parses _ _, fromStrFixed_parses _ _, fromStrFixed_parses _ _, fromStrFixed_parses _ _,
    fromStrFixed_parses _ _, fromStrFixed_parses _ _, fromStrVar_parses _⟩

/-- `"0"`, `"0g"` and `"00"`. -/
example : PubNonce.fromHex [0x30] = .err (.badHexFormat .invalidLength) ∧
    PubNonce.fromHex [0x30, 0x67] = .err (.badHexFormat .invalidEncoding) ∧
    PubNonce.fromHex [0x30, 0x30] = .err (.badLength 1) :=
  ⟨rfl, rfl, rfl⟩

/-- Every reason occurs: wrong lengths, points, scalars, and a tweak which sends the aggregated key to infinity. -/
example : PubNonce.fromBytes [] = .err (.badLength 0) ∧
    PubNonce.fromBytes (List.replicate 66 0) = .err .invalidPoint ∧
    SecNonce.fromBytes (List.replicate 64 0) = .err .invalidScalar ∧
    CompactSignature.fromBytes (List.replicate 64 255) = .err .invalidScalar ∧
    KeyAggContext.fromBytes sha256 (2 :: List.replicate 37 0) = .err .invalidScalar ∧
    KeyAggContext.fromBytes sha256 (List.replicate 38 0) = .err (.badLength 38) ∧
    ∃ b, KeyAggContext.fromBytes sha256 b = .err (.customTweak .tweakError) := by
  refine ⟨rfl, ?_, ?_, ?_, ?_, ?_, ?_⟩
  · exact ((C102_nonce_errors _ _).1).2 (Or.inr ⟨rfl, Or.inl (by rw [← parsePoint_none_iff]; decide +kernel), rfl⟩)
  · exact ((C102_nonce_errors _ _).2.2).2 (Or.inr ⟨Or.inl rfl, Or.inl (by decide +kernel), rfl⟩)
  · exact ((C102_signature_errors _ _).1).2 (Or.inr ⟨rfl, by decide +kernel, rfl⟩)
  · exact ((C102_context_outcomes _ _).2 2 (List.replicate 32 0) (List.replicate 4 0) [0] rfl rfl (by simp)).1
      (by decide) rfl (by decide +kernel)
  · exact ((C102_context_outcomes _ _).2 0 [] (List.replicate 4 0) (List.replicate 33 0) rfl rfl (by simp)).2
      (Or.inl ⟨rfl, rfl⟩) |>.1 (by decide +kernel)
  · obtain ⟨a, ha⟩ := exists_dlog exCtx.pubkey.1
    have ha0 : a ≠ 0 := by
      rintro rfl
      exact exCtx.pubkey.2 (by rw [← ha, zero_smul])
    have hlen : (serScalar (-a)).1.length = 32 := (serScalar (-a)).2
    have hn : exKeys.length = 2 := rfl
    have hv : Spec.int_from_bytes (serScalar (-a)).1 = (-a).val := beNat_serScalar _
    refine ⟨(2 :: (serScalar (-a)).1) ++ beBytes 4 2 ++ (exKeys.map fun P => Spec.cbytes P.1).flatten,
      (((((C102_context_outcomes _ _).2 2 (serScalar (-a)).1 (beBytes 4 2) _ rfl (by simp) ?_).2 ?_).2.2 exKeys rfl
        ?_).2 exCtx exCtx_new).1 ?_⟩
    · have hk : (exKeys.map fun P => Spec.cbytes P.1).flatten = keysFlat exKeys := by
        unfold keysFlat
        simp only [spec_cbytes_point]
      rw [hk]
      simp only [List.length_append, keysFlat_length, List.length_cons, hlen, hn]
      omega
    · refine Or.inr ⟨by decide, hlen, ?_, ?_⟩
      · rw [beNat_serScalar]
        exact Nat.pos_of_ne_zero (by simpa using ha0)
      · rw [beNat_serScalar]
        exact ZMod.val_lt _
    · exact (beNat_beBytes_of_lt (by rw [hn]; norm_num)).symm
    · rw [hv, ← smul_def, if_neg (by decide)]
      change exCtx.pubkey.1 + _ = 0
      rw [← ha, neg_smul, add_neg_cancel]

/-! ## C10: the layout -/

/-- **C10**, the layout documented at `to_bytes`: a header byte, the sum of the tweaks in 32 bytes if it is not zero, the number of
keys in four bytes, the compressed keys in order. Bit 0 of the header says whether the aggregated key of the members is
negated before the tweak is added, bit 1 whether a tweak follows, the other bits are zero. -/
theorem C10_layout (H : Hash) (ctx : KeyAggContext) (hc : Reachable H ctx) :
    ∃ (hd : UInt8) (tw cnt : Bytes) (ctx0 : KeyAggContext),
      ctx.toBytes = [hd] ++ tw ++ cnt ++ (ctx.pubkeys.map fun P => Spec.cbytes P.1).flatten ∧
      hd < 4 ∧ Spec.TweakField hd tw ∧ (∀ t, ctx.tweakSum = some t → tw = Spec.bytes_from_int t.1.val) ∧
      (ctx.tweakSum = none → tw = []) ∧
      cnt.length = 4 ∧ Spec.int_from_bytes cnt = ctx.pubkeys.length ∧
      KeyAggContext.new H ctx.pubkeys = .ok ctx0 ∧
      ctx.aggregatedPubkey.1 = (if hd &&& 1 = 1 then -ctx0.aggregatedPubkey.1 else ctx0.aggregatedPubkey.1)
        + Spec.int_from_bytes tw • G := by
  have hi := hc.inv
  have hflat : ∀ ks : List Point, (ks.map fun P => Spec.cbytes P.1).flatten = keysFlat ks := by
    intro ks
    unfold keysFlat
    simp only [spec_cbytes_point]
  have hcount : Spec.int_from_bytes (beBytes 4 ctx.pubkeys.length) = ctx.pubkeys.length :=
    beNat_beBytes_of_lt (by have := hi.length_le; unfold u32Max at this; change ctx.orderedPubkeys.length < _; omega)
  have hpub : ctx.aggregatedPubkey.1 = _ := hi.pub
  have hbit : headerByte ctx.parityAcc ctx.tweakAcc &&& 1 = 1 ↔ ctx.parityAcc = true := by
    unfold headerByte
    by_cases h1 : ctx.tweakAcc = 0 <;> cases h2 : ctx.parityAcc <;> simp [h1] <;> decide
  have hbit2 : headerByte ctx.parityAcc ctx.tweakAcc &&& 2 ≠ 0 ↔ notZero ctx.tweakAcc ≠ none := by
    rw [ne_eq, ne_eq, notZero_eq_none]
    unfold headerByte
    by_cases h1 : ctx.tweakAcc = 0 <;> cases h2 : ctx.parityAcc <;> simp [h1] <;> decide
  refine ⟨headerByte ctx.parityAcc ctx.tweakAcc, _, beBytes 4 ctx.pubkeys.length, _,
    (toBytes_eq ctx).trans (by rw [hflat]; rfl), ?_, ?_, ?_, ?_, by simp, hcount,
    new_eq_ok.2 ⟨hi.nonempty, hi.length_le, ⟨_, hi.sum_ne⟩, rfl, rfl⟩, ?_⟩
  · unfold headerByte
    by_cases h1 : ctx.tweakAcc = 0 <;> cases h2 : ctx.parityAcc <;> simp [h1] <;> decide
  · refine (tweakField_iff _ _).2 ⟨notZero ctx.tweakAcc, ?_⟩
    cases hz : notZero ctx.tweakAcc with
    | none => exact ⟨not_not.1 (by rw [← ne_eq, hbit2, hz]; simp), rfl⟩
    | some t => exact ⟨by rw [hbit2, hz]; simp, rfl⟩
  · intro t ht
    unfold KeyAggContext.tweakSum at ht
    rw [ht, spec_bytes_from_int _ (ZMod.val_lt t.1), ZMod.natCast_zmod_val]
  · intro ht
    unfold KeyAggContext.tweakSum at ht
    rw [ht]
  · rw [hpub]
    simp only [hbit]
    cases hz : notZero ctx.tweakAcc with
    | none =>
      rw [notZero_eq_none.1 hz, zero_smul]
      have h0 : Spec.int_from_bytes [] • G = 0 := by
        change beNat [] • G = 0
        simp [beNat]
      rw [h0]
      rfl
    | some t =>
      have := notZero_eq_some.1 hz
      rw [this, smul_def, ← beNat_serScalar]
      rfl

/-- The layout of the example context. -/
example : Reachable sha256 exCtx ∧ exCtx.toBytes.length = 5 + 33 * exCtx.pubkeys.length := by
  refine ⟨exCtx_reachable, ?_⟩
  obtain ⟨hd, tw, cnt, -, h, -, -, -, h0, hc, -⟩ := C10_layout sha256 exCtx exCtx_reachable
  have hk : (exCtx.pubkeys.map fun P => Spec.cbytes P.1).flatten = keysFlat exCtx.pubkeys := by
    unfold keysFlat
    simp only [spec_cbytes_point]
  rw [h, h0 (notZero_eq_none.2 rfl), hk]
  simp only [List.length_append, keysFlat_length, hc, List.length_cons, List.length_nil]
  omega

end Verif
