import Verif.Lemmas.Props.Width

/-!
# Properties C97, C98: targets with a 32-bit `usize`
-/

namespace Verif

/-! ## C97 -/

/-- **C97**, what holds: where `usize` has at least 38 bits (so on every 64-bit target), with and without overflow
checks, decoding never panics, and it gives what `fromBytes` gives, the decoder of C10-C12. Missing: targets with a 32-bit
`usize`, for which the statement is false (`C97_decode_total_false`, `C97_junk_accepted`). -/
theorem C97_decode_portable_partial (t : Target) (ht : 38 ≤ t.bits) (H : Hash) (b : Bytes) :
    KeyAggContext.fromBytesOn t H b ≠ .panic ∧ KeyAggContext.fromBytesOn t H b = KeyAggContext.fromBytes H b := by
  have key : KeyAggContext.fromBytesOn t H b = KeyAggContext.fromBytes H b := by
    by_cases hl : b.length < 38
    · rw [fromBytesOn_short hl, fromBytes_short hl]
    rcases fields_cases b (by omega) with ⟨hd, r, rfl, h2, hp⟩ | ⟨hd, tw, cnt, rest, u, rfl, hu, hc⟩
    · rw [fromBytesOn_badTweak (by simp at hl; omega) h2 hp, fromBytes_badTweak (by simp at hl; omega) h2 hp]
    · rw [fromBytesOn_fields t H hd tw cnt rest u hu hc (by omega), fromBytes_fields H hd tw cnt rest u hu hc (by omega),
        Target.usize_fits, Res.bind_ok]
      have h1 := count_lt cnt hc
      have h2 : (2 : ℕ) ^ 38 ≤ 2 ^ t.bits := Nat.pow_le_pow_right (by norm_num) ht
      omega
  exact ⟨by rw [key]; exact fromBytes_ne_panic H b, key⟩

example : (38 : ℕ) ≤ (Target.mk 64 false).bits ∧ (38 : ℕ) ≤ (Target.mk 64 true).bits := by norm_num

/-- **C97**, exactly, for any target and any string of at least 38 bytes with an admissible tweak field: if 33 times the
count fits into a `usize`, the result is that of a 64-bit target; otherwise decoding panics if overflow is checked; and
if it is not, a string whose remaining length is the wrapped product is read as if the count were the number of whole
keys present, the rest being ignored, and if no whole key is present decoding panics. -/
theorem C97_decode_exact (t : Target) (H : Hash) (hd : UInt8) (tw cnt rest : Bytes) (hu : Spec.TweakField hd tw)
    (hc : cnt.length = 4) (hl : 38 ≤ ((hd :: tw) ++ cnt ++ rest).length) :
    KeyAggContext.fromBytesOn t H ((hd :: tw) ++ cnt ++ rest)
      = if beNat cnt * 33 < 2 ^ t.bits then KeyAggContext.fromBytes H ((hd :: tw) ++ cnt ++ rest)
        else if t.overflowChecks then .panic
        else if rest.length ≠ beNat cnt * 33 % 2 ^ t.bits then .err (.badLength ((hd :: tw) ++ cnt ++ rest).length)
        else if rest.length < 33 then .panic
        else KeyAggContext.fromBytes H
          ((hd :: tw) ++ beBytes 4 (rest.length / 33) ++ rest.take (rest.length / 33 * 33)) := by
  obtain ⟨u, hu⟩ := (tweakField_iff hd tw).1 hu
  rw [fromBytesOn_fields t H hd tw cnt rest u hu hc hl]
  by_cases hfit : beNat cnt * 33 < 2 ^ t.bits
  · rw [if_pos hfit, Target.usize_fits hfit, Res.bind_ok, fromBytes_fields H hd tw cnt rest u hu hc hl]
  rw [if_neg hfit]
  by_cases hck : t.overflowChecks = true
  · rw [if_pos hck, Target.usize_checked (by omega) hck, Res.bind_panic]
  rw [if_neg hck, Target.usize_wraps (by simpa using hck), Res.bind_ok]
  have hrl : ((hd :: tw) ++ cnt ++ rest).length - ((hd :: tw).length + 4) = rest.length := by simp; omega
  by_cases hr : rest.length ≠ beNat cnt * 33 % 2 ^ t.bits
  · rw [if_pos hr]
    unfold fromBytesKeys
    rw [hrl, if_pos hr]
  rw [if_neg hr]
  rw [not_not] at hr
  rw [← hr]
  by_cases h33 : rest.length < 33
  · rw [if_pos h33, fromBytesKeys_empty H hd tw cnt rest u hc h33]
  · have hlt := count_lt cnt hc
    have hmod := Nat.mod_le (beNat cnt * 33) (2 ^ t.bits)
    have hdiv : rest.length / 33 < 2 ^ 32 := by omega
    rw [if_neg h33, fromBytesKeys_whole H hd tw cnt rest u hc hdiv,
      fromBytes_fields H hd tw _ _ u hu (by simp)]
    simp
    omega

/-- The count 33⁻¹ mod 2³² and a single trailing byte meet the hypotheses. -/
example : Spec.TweakField 2 (beBytes 32 1) ∧ (beBytes 4 1041204193).length = 4 ∧
    38 ≤ (((2 : UInt8) :: beBytes 32 1) ++ beBytes 4 1041204193 ++ [0]).length ∧
    ¬ beNat (beBytes 4 1041204193) * 33 < 2 ^ 32 ∧ ([0] : Bytes).length = beNat (beBytes 4 1041204193) * 33 % 2 ^ 32 := by
  unfold Spec.TweakField
  decide +kernel

/-- **C97 is false where `usize` has 32 bits.** There is a string of 38 bytes, the same for every hash function, on which
decoding panics, with overflow checks and without. -/
theorem C97_decode_panics (H : Hash) (c : Bool) :
    KeyAggContext.fromBytesOn ⟨32, c⟩ H ((2 :: beBytes 32 1) ++ beBytes 4 1041204193 ++ [0]) = .panic := by
  rw [C97_decode_exact ⟨32, c⟩ H 2 (beBytes 32 1) (beBytes 4 1041204193) [0] (by unfold Spec.TweakField; decide +kernel) (by simp)
    (by simp), if_neg (by change ¬ _ < 2 ^ 32; decide +kernel)]
  cases c with
  | true => rfl
  | false => rw [if_neg (by simp), if_neg (by decide +kernel), if_pos (by simp)]

theorem C97_decode_total_false : ¬ ∀ (t : Target), 32 ≤ t.bits → ∀ (H : Hash) (b : Bytes),
    KeyAggContext.fromBytesOn t H b ≠ .panic :=
  fun h => h ⟨32, false⟩ (le_refl _) sha256 _ (C97_decode_panics sha256 false)

/-- **C97 is false where `usize` has 32 bits**: if overflow wraps, every context has further encodings, ending in up to
32 bytes of junk that 64-bit targets reject. -/
theorem C97_junk_accepted (H : Hash) (ctx : KeyAggContext) (hr : Reachable H ctx)
    (hlen : ctx.pubkeys.length * 33 + 32 < 2 ^ 32) (junk : Bytes) (hj0 : 0 < junk.length) (hj : junk.length < 33) :
    ∃ pre keys : Bytes, ctx.toBytes = pre ++ beBytes 4 ctx.pubkeys.length ++ keys ∧
      KeyAggContext.fromBytesOn ⟨32, false⟩ H
        (pre ++ beBytes 4 (Spec.wrappedCount (keys.length + junk.length)) ++ (keys ++ junk)) = .ok ctx ∧
      KeyAggContext.fromBytes H
        (pre ++ beBytes 4 (Spec.wrappedCount (keys.length + junk.length)) ++ (keys ++ junk)) ≠ .ok ctx := by
  have hdec := hr.inv.fromBytes_toBytes
  have hk : 1 ≤ ctx.pubkeys.length := List.length_pos_iff.2 hr.inv.nonempty
  obtain ⟨hd, ks, t, hb, ht, -, -, -, Q, -, hctx⟩ := fromBytes_eq_ok.1 hdec
  have hks : ctx.pubkeys = ks := by rw [hctx]; rfl
  obtain ⟨tw, htw, hbe⟩ : ∃ tw, TweakField hd tw t ∧ ctx.toBytes = (hd :: tw) ++ beBytes 4 ctx.pubkeys.length ++ keysFlat ks := by
    cases t with
    | none => exact ⟨[], ⟨by simpa using ht, rfl⟩, by rw [hb, hks]; simp⟩
    | some t => exact ⟨_, ⟨by simpa using ht, rfl⟩, by rw [hb, hks]; simp⟩
  have hfl : (keysFlat ks).length = ctx.pubkeys.length * 33 := by rw [keysFlat_length, hks]
  have hsum : (keysFlat ks).length + junk.length < 2 ^ 32 := by omega
  have hw := wrappedCount_mul _ hsum
  have hwl := wrappedCount_lt ((keysFlat ks).length + junk.length)
  have hcn : beNat (beBytes 4 (Spec.wrappedCount ((keysFlat ks).length + junk.length)))
      = Spec.wrappedCount ((keysFlat ks).length + junk.length) := beNat_beBytes_of_lt (by omega)
  refine ⟨hd :: tw, keysFlat ks, hbe, ?_, ?_⟩
  · rw [C97_decode_exact ⟨32, false⟩ H hd tw _ _ ((tweakField_iff hd tw).2 ⟨t, htw⟩) (by simp) (by simp; omega), hcn,
      if_neg, if_neg (by simp), if_neg, if_neg]
    · have hdiv : (keysFlat ks ++ junk).length / 33 = ctx.pubkeys.length := by
        rw [List.length_append, hfl]; omega
      rw [hdiv, ← hfl, List.take_left, ← hbe]
      exact hdec
    · simp; omega
    · rw [not_not, List.length_append]; exact hw.symm
    · change ¬ _ < 2 ^ 32
      intro hlt
      rw [Nat.mod_eq_of_lt hlt] at hw
      omega
  · rw [fromBytes_fields H hd tw _ _ t htw (by simp) (by simp; omega), hcn]
    unfold fromBytesKeys
    rw [if_pos]
    · simp
    · simp only [List.length_append, List.length_cons, beBytes_length]
      omega

/-- The example context and one byte of junk. -/
example : Reachable sha256 exCtx ∧ exCtx.pubkeys.length * 33 + 32 < 2 ^ 32 ∧ 0 < ([7] : Bytes).length ∧
    ([7] : Bytes).length < 33 :=
  ⟨exCtx_reachable, by decide, by decide, by decide⟩

/-! ## C98 -/

/-- **C98**, what holds: where `usize` has at least 33 bits, adding an extra input of a length a slice can have panics
exactly if the lengths then add up to more than `u32::MAX`. Missing: targets with a 32-bit `usize`, for which the
statement is false without overflow checks (`C98_extra_input_limit_false`). -/
theorem C98_extra_input_limit_partial {ε : Type} (t : Target) (ht : 33 ≤ t.bits) (b : SecNonceBuilder)
    (hb : (b.extraInputs.map List.length).sum ≤ 4294967295) (x : Bytes) (hx : x.length < 2 ^ (t.bits - 1)) :
    (b.withExtraInputOn t x : Res ε SecNonceBuilder)
      = if (b.extraInputs.map List.length).sum + x.length ≤ 4294967295
        then .ok { b with extraInputs := b.extraInputs ++ [x] } else .panic := by
  have h2 : 2 ^ t.bits = 2 * 2 ^ (t.bits - 1) := by
    rw [← pow_succ']
    congr 1
    omega
  have h3 : (2 : ℕ) ^ 32 ≤ 2 ^ (t.bits - 1) := Nat.pow_le_pow_right (by norm_num) (by omega)
  have hs : ((b.extraInputs ++ [x]).map List.length).sum = (b.extraInputs.map List.length).sum + x.length := by simp
  rw [withExtraInputOn_eq]
  rw [sumLensOn_fits t _ 0 (by rw [hs]; omega), Res.bind_ok, hs, Nat.zero_add]
  by_cases h : (b.extraInputs.map List.length).sum + x.length ≤ 4294967295
  · rw [if_pos h, show decide ((b.extraInputs.map List.length).sum + x.length ≤ 4294967295) = true by simpa using h]
    rfl
  · rw [if_neg h, show decide ((b.extraInputs.map List.length).sum + x.length ≤ 4294967295) = false by
      simpa using h]
    rfl

example : (33 : ℕ) ≤ (Target.mk 64 false).bits ∧
    ((SecNonceBuilder.new zeroSeed).extraInputs.map List.length).sum ≤ 4294967295 ∧
    ([1, 2] : Bytes).length < 2 ^ ((Target.mk 64 false).bits - 1) := by decide +kernel

/-- **C98**, exactly, where `usize` has 32 bits: with overflow checks the limit is enforced; without them no extra input
is ever refused. -/
theorem C98_extra_input_32 {ε : Type} (c : Bool) (b : SecNonceBuilder) (x : Bytes) :
    (b.withExtraInputOn ⟨32, c⟩ x : Res ε SecNonceBuilder)
      = if c = false ∨ (b.extraInputs.map List.length).sum + x.length ≤ 4294967295
        then .ok { b with extraInputs := b.extraInputs ++ [x] } else .panic := by
  have hs : ((b.extraInputs ++ [x]).map List.length).sum = (b.extraInputs.map List.length).sum + x.length := by simp
  have hle : ∀ n, n < 2 ^ 32 → decide (n ≤ 4294967295) = true := fun n hn => by
    rw [decide_eq_true_eq]; omega
  rw [withExtraInputOn_eq]
  cases c with
  | false =>
    rw [if_pos (Or.inl rfl), sumLensOn_wraps ⟨32, false⟩ rfl _ 0 (by simp), Res.bind_ok,
      hle _ (Nat.mod_lt _ (by norm_num))]
    rfl
  | true =>
    by_cases h : (b.extraInputs.map List.length).sum + x.length ≤ 4294967295
    · rw [if_pos (Or.inr h), sumLensOn_fits ⟨32, true⟩ _ 0 (by rw [hs]; change _ < 2 ^ 32; omega), Res.bind_ok,
        hle _ (by rw [hs]; omega)]
      rfl
    · rw [if_neg (by simpa using h), sumLensOn_checked ⟨32, true⟩ rfl _ 0 (by simp) (by rw [hs]; change 2 ^ 32 ≤ _; omega)]
      rfl

/-- **C98 is false where `usize` has 32 bits and overflow wraps**: three references to one slice of 2³¹ - 1 bytes are
more than the limit, and are accepted. -/
theorem C98_extra_input_limit_false : ¬ ∀ (t : Target), 32 ≤ t.bits → ∀ (b : SecNonceBuilder) (x : Bytes),
    (b.extraInputs.map List.length).sum + x.length > 4294967295 →
    (b.withExtraInputOn t x : Res Unit SecNonceBuilder) = .panic := by
  intro h
  have hx : (List.replicate (2 ^ 31 - 1) (0 : UInt8)).length = 2 ^ 31 - 1 := List.length_replicate
  generalize List.replicate (2 ^ 31 - 1) (0 : UInt8) = x at hx
  have := h ⟨32, false⟩ (le_refl _) { SecNonceBuilder.new zeroSeed with extraInputs := [x, x] } x (by simp [hx])
  rw [C98_extra_input_32, if_pos (Or.inl rfl)] at this
  cases this

end Verif
