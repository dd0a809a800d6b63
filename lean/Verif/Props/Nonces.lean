import Verif.Lemmas.Props.Nonces
import Verif.Lemmas.Nonces
import Verif.Lemmas.Reachable
import Verif.Model.Rounds

/-!
# Properties C15-C23: nonces
-/

namespace Verif

/-! ## C15 -/

/-- **C15**. `SecNonce::generate` is the BIP327 nonce generation, zero being replaced by one. -/
theorem C15_generate_is_bip327 (H : Hash) (hH : TagsAgree H) (seed : Arr 32) (sk : Scalar) (Q : Point)
    (msg extra : Bytes) (_hmsg : msg.length < 2 ^ 64) (hex : extra.length ≤ 4294967295) (ε : Type) :
    ∃ n : SecNonce, (SecNonce.generate H seed sk Q msg extra : Res ε SecNonce) = .ok n ∧
      let k := Spec.nonce_scalars H seed.1 (some (Spec.bytes_from_int sk.1.val)) (Spec.cbytes (sk.1 • G))
        (some (Spec.xbytes Q.1)) (some msg) (some extra)
      n.k1.1.val = orOne k.1 ∧ n.k2.1.val = orOne k.2 := by
  let b0 : SecNonceBuilder := (((SecNonceBuilder.new seed).withSeckey sk).withAggregatedPubkey Q).withMessage msg
  let b : SecNonceBuilder := { b0 with extraInputs := [extra] }
  have hb : (b0.withExtraInput extra : Res ε _) = .ok b :=
    SecNonceBuilder.withExtraInput_eq_ok.2 ⟨by change ([extra] : List Bytes).flatten.length ≤ 4294967295; simpa using hex, rfl⟩
  refine ⟨b.build H, ?_, ?_⟩
  · unfold SecNonce.generate
    change (b0.withExtraInput extra : Res ε _) >>= _ = _
    rw [hb]
    rfl
  · have := build_eq_spec H hH b sk (mulG sk) rfl rfl (by simp [b])
    have he : b.extraInputs.flatten = extra := by simp [b]
    rw [he] at this
    exact this

/-- **C15**, in terms of `nonce_gen_internal`: where it does not fail, its `secnonce` and `pubnonce` bytes are the
code's, the `secnonce` being followed by the public key there. -/
theorem C15_generate_bytes (H : Hash) (hH : TagsAgree H) (seed : Arr 32) (sk : Scalar) (Q : Point)
    (msg extra : Bytes) (hmsg : msg.length < 2 ^ 64) (hex : extra.length ≤ 4294967295) (secnonce pubnonce : Bytes)
    (h : Spec.nonce_gen_internal H seed.1 (some (Spec.bytes_from_int sk.1.val)) (Spec.cbytes (sk.1 • G))
      (some (Spec.xbytes Q.1)) (some msg) (some extra) = some (secnonce, pubnonce)) (ε : Type) :
    ∃ n : SecNonce, (SecNonce.generate H seed sk Q msg extra : Res ε SecNonce) = .ok n ∧
      secnonce = n.toBytes ++ Spec.cbytes (sk.1 • G) ∧ pubnonce = n.publicNonce.toBytes := by
  obtain ⟨n, h1, h2, h3⟩ := C15_generate_is_bip327 H hH seed sk Q msg extra hmsg hex ε
  refine ⟨n, h1, ?_⟩
  unfold Spec.nonce_gen_internal at h
  simp only at h
  split at h
  · cases h
  rename_i h0
  rw [not_or] at h0
  unfold orOne at h2 h3
  rw [if_neg h0.1] at h2
  rw [if_neg h0.2] at h3
  simp only [Option.some.injEq, Prod.mk.injEq] at h
  rw [← h2, ← h3] at h
  obtain ⟨rfl, rfl⟩ := h
  constructor
  · unfold SecNonce.toBytes
    rw [spec_bytes_from_int _ (ZMod.val_lt _), spec_bytes_from_int _ (ZMod.val_lt _), serScalar_val, serScalar_val]
  · unfold PubNonce.toBytes SecNonce.publicNonce
    rw [spec_G, nsmul_eq, nsmul_eq, serScalar_val, serScalar_val]
    rw [show n.k1.1 • G = (mulG n.k1).1 from rfl, show n.k2.1 • G = (mulG n.k2).1 from rfl,
      spec_cbytes_point, spec_cbytes_point]

/-- A case: SHA-256, seed of zero bytes, secret key 1, aggregate key `G`, empty message, three bytes of extra input. -/
example : TagsAgree sha256 ∧ ([] : Bytes).length < 2 ^ 64 ∧ ([1, 2, 3] : Bytes).length ≤ 4294967295 :=
  ⟨sha256_tagsAgree, by simp, by simp⟩

/-! ## C16 -/

/-- **C16**, what holds: the builder follows BIP327 when the secret key, the public key and some extra input have been
given; aggregate key and message are optional. Missing: without extra input, or without a secret key, the builder
hashes something else than BIP327, see the two negations below. -/
theorem C16_builder_partial (H : Hash) (hH : TagsAgree H) (b : SecNonceBuilder) (sk : Scalar) (P : Point)
    (hsk : b.seckey = some sk) (hP : b.pubkey = some P) (hex : b.extraInputs ≠ []) :
    let k := Spec.nonce_scalars H b.nonceSeedBytes.1 (some (Spec.bytes_from_int sk.1.val)) (Spec.cbytes P.1)
      (b.aggregatedPubkey.map fun Q => Spec.xbytes Q.1) b.message (some b.extraInputs.flatten)
    (b.build H).k1.1.val = orOne k.1 ∧ (b.build H).k2.1.val = orOne k.2 :=
  build_eq_spec H hH b sk P hsk hP hex

/-- **C16 is false**, without extra input: with SHA-256, seed zero, secret key 1 and nothing else, `k1` is not the
BIP327 value (which hashes four zero bytes for the absent extra input). -/
theorem C16_builder_not_bip327_no_extra :
    let b := (SecNonceBuilder.new zeroSeed).withSeckey scalarOne
    let k := Spec.nonce_scalars sha256 zeroSeed.1 (some (Spec.bytes_from_int 1)) (Spec.cbytes G) none none none
    (b.build sha256).k1.1.val ≠ orOne k.1 := by
  intro b k
  rw [k1_of_input (input_no_extra sha256), spec_no_extra sha256 sha256_tagsAgree]
  decide +kernel

/-- **C16 is false**, without secret key: with SHA-256, seed zero, public key `G` and an empty extra input, `k1` is not
the BIP327 value (which does not hash the seed in that case). -/
theorem C16_builder_not_bip327_no_seckey :
    let b : SecNonceBuilder := { (SecNonceBuilder.new zeroSeed).withPubkey Gpt with extraInputs := [[]] }
    let k := Spec.nonce_scalars sha256 zeroSeed.1 none (Spec.cbytes G) none none (some [])
    ((SecNonceBuilder.new zeroSeed).withPubkey Gpt).withExtraInput [] = (.ok b : Res Unit _) ∧
    (b.build sha256).k1.1.val ≠ orOne k.1 := by
  intro b k
  refine ⟨rfl, ?_⟩
  rw [k1_of_input (input_no_seckey sha256), spec_no_seckey sha256 sha256_tagsAgree]
  decide +kernel

/-- **C16**, the exact behaviour. The scalars of the builder and of BIP327 are the nonce hashes of two byte strings
`x` and `y` (followed by 0 or 1), and `x = y` exactly if extra input was given and the secret key too (or the seed is a
fixed point of the `MuSig/aux` hash). The other inputs make no difference. -/
theorem C16_builder_exact (H : Hash) (hH : TagsAgree H) (b : SecNonceBuilder) :
    let sk := b.seckey
    let pk := b.pubkey.map fun P => Spec.cbytes P.1
    let Q := b.aggregatedPubkey.map fun Q => Spec.xbytes Q.1
    let extra := if b.extraInputs = [] then none else some b.extraInputs.flatten
    let x := (nonceInputs H b).bytes
    let y := Spec.nonce_input H b.nonceSeedBytes sk pk Q b.message extra
    let k := Spec.nonce_scalars H b.nonceSeedBytes.1 (sk.map fun s => Spec.bytes_from_int s.1.val) (pk.getD []) Q b.message
      extra
    (b.build H).k1.1.val = orOne (Spec.int_from_bytes (Spec.tagged_hash H "MuSig/nonce" (x ++ [0])) % orderN) ∧
    (b.build H).k2.1.val = orOne (Spec.int_from_bytes (Spec.tagged_hash H "MuSig/nonce" (x ++ [1])) % orderN) ∧
    k.1 = Spec.int_from_bytes (Spec.tagged_hash H "MuSig/nonce" (y ++ [0])) % orderN ∧
    k.2 = Spec.int_from_bytes (Spec.tagged_hash H "MuSig/nonce" (y ++ [1])) % orderN ∧
    (x = y ↔ b.extraInputs ≠ [] ∧
      (sk ≠ none ∨ Spec.tagged_hash H "MuSig/aux" b.nonceSeedBytes.1 = b.nonceSeedBytes.1)) := by
  intro sk pk Q extra x y k
  have h0 : beBytes 1 0 = [0] := by decide +kernel
  have h1 : beBytes 1 1 = [1] := by decide +kernel
  have hsc : ∀ z, nonceScalar H z
      = orOne (Spec.int_from_bytes (Spec.tagged_hash H "MuSig/nonce" z) % orderN) := by
    intro z
    unfold nonceScalar
    rw [taggedInput_musigNonce, tagged_musigNonce hH]
    rfl
  refine ⟨(build_k1 H b).trans (hsc _), (build_k2 H b).trans (hsc _), ?_, ?_, ?_⟩
  · simp only [k, y, Spec.nonce_scalars, Spec.nonce_hash, Spec.nonce_input, h0]
    cases sk <;> rfl
  · simp only [k, y, Spec.nonce_scalars, Spec.nonce_hash, Spec.nonce_input, h1]
    cases sk <;> rfl
  · have hx : x = maskedSeckey H b.nonceSeedBytes b.seckey ++ (optField 33 (b.pubkey.map fun P => (serPoint P.1).1)
        ++ (optField 32 Q ++ (msgField b.message ++ extraField extra))) := nonceInputs_bytes _
    have hy := nonce_input_eq H b.nonceSeedBytes b.seckey b.pubkey b.aggregatedPubkey b.message extra
    change y = _ at hy
    have hlen : (Spec.nonce_rand H b.nonceSeedBytes b.seckey).length = 32 := by
      unfold Spec.nonce_rand
      cases b.seckey with
      | none => exact b.nonceSeedBytes.2
      | some s =>
        rw [tagged_musigAux hH]
        exact (xorBytes (serScalar s.1) (tagHash H MUSIG_AUX_TAG_DIGEST b.nonceSeedBytes.1)).2
    have hmask : maskedSeckey H b.nonceSeedBytes b.seckey = Spec.nonce_rand H b.nonceSeedBytes b.seckey ↔
        (sk ≠ none ∨ Spec.tagged_hash H "MuSig/aux" b.nonceSeedBytes.1 = b.nonceSeedBytes.1) := by
      have ht : (H (Spec.taggedInput "MuSig/aux" b.nonceSeedBytes.1)).1
          = Spec.tagged_hash H "MuSig/aux" b.nonceSeedBytes.1 := by
        rw [taggedInput_musigAux, tagged_musigAux hH]
        rfl
      unfold maskedSeckey Spec.nonce_rand
      rw [ht]
      cases hs : b.seckey with
      | none =>
        simp only [sk, hs]
        rw [xor_zero_bytes _ (by rw [← ht]; exact (H _).2)]
        simp
      | some s => simp [sk, hs]
    have hext : extraField extra = extraField (some (extra.getD [])) ↔ b.extraInputs ≠ [] := by
      simp only [extra]
      split <;> rename_i he
      · simp [he, extraField, beBytes]
      · simp [he]
    rw [hx, hy]
    constructor
    · intro h
      obtain ⟨e1, h⟩ := append_inj_len h (by rw [hlen, maskedSeckey_length])
      have h := List.append_cancel_left (List.append_cancel_left (List.append_cancel_left h))
      exact ⟨hext.1 h, hmask.1 e1⟩
    · rintro ⟨h2, h3⟩
      rw [hmask.2 h3, hext.2 h2]

example : ∃ b : SecNonceBuilder, b.seckey = some scalarOne ∧ b.pubkey = some Gpt ∧ b.extraInputs ≠ [] ∧
    ((SecNonceBuilder.new zeroSeed).withSeckey scalarOne).withExtraInput [7] = (.ok b : Res Unit _) :=
  ⟨{ (SecNonceBuilder.new zeroSeed).withSeckey scalarOne with extraInputs := [[7]] }, rfl,
    congrArg some mulG_one, by simp, rfl⟩

/-! ## C17 -/

/-- **C17**. Both scalars of a built secret nonce are in `[1, n-1]` and are the hashes reduced modulo `n` (or 1); the
public nonce is `(k1·G, k2·G)`, both finite. -/
theorem C17_built_nonces_valid (H : Hash) (b : SecNonceBuilder) :
    let n := b.build H
    (1 ≤ n.k1.1.val ∧ n.k1.1.val < orderN ∧ 1 ≤ n.k2.1.val ∧ n.k2.1.val < orderN) ∧
    (n.publicNonce.R1.1 = n.k1.1.val • G ∧ n.publicNonce.R1.1 ≠ 0 ∧
      n.publicNonce.R2.1 = n.k2.1.val • G ∧ n.publicNonce.R2.1 ≠ 0) ∧
    n.k1.1.val = nonceScalar H ((nonceInputs H b).bytes ++ [0]) ∧
    n.k2.1.val = nonceScalar H ((nonceInputs H b).bytes ++ [1]) := by
  intro n
  have pos : ∀ k : Scalar, 1 ≤ k.1.val := fun k =>
    Nat.one_le_iff_ne_zero.2 fun h => k.2 ((ZMod.val_eq_zero _).1 h)
  exact ⟨⟨pos _, ZMod.val_lt _, pos _, ZMod.val_lt _⟩, ⟨rfl, n.publicNonce.R1.2, rfl, n.publicNonce.R2.2⟩,
    build_k1 H b, build_k2 H b⟩

/-- **C17** for decoded nonces: the bytes accepted are integers in `[1, n-1]`. -/
theorem C17_decoded_nonces_valid (bytes : Bytes) (n : SecNonce) (h : SecNonce.fromBytes bytes = .ok n) :
    let a := beNat (bytes.take 32)
    let b := beNat ((bytes.drop 32).take 32)
    0 < a ∧ a < orderN ∧ 0 < b ∧ b < orderN ∧ n.k1.1.val = a ∧ n.k2.1.val = b ∧
    n.publicNonce.R1.1 = a • G ∧ n.publicNonce.R1.1 ≠ 0 ∧ n.publicNonce.R2.1 = b • G ∧ n.publicNonce.R2.1 ≠ 0 := by
  intro a b
  unfold SecNonce.fromBytes at h
  split at h
  · cases h
  rename_i hl
  have hl : 64 ≤ bytes.length := by omega
  rw [slice_ok ⟨by omega, by omega⟩, Res.bind_ok] at h
  obtain ⟨k1, h1, h⟩ := Res.bind_eq_ok.1 h
  rw [slice_ok ⟨by omega, by omega⟩, Res.bind_ok] at h
  obtain ⟨k2, h2, h⟩ := Res.bind_eq_ok.1 h
  cases h
  rw [Res.okOr_eq_ok, parseScalar_eq_some] at h1 h2
  have ha : a = k1.1.val := by
    rw [← beNat_serScalar, ← h1]; rfl
  have hb : b = k2.1.val := by
    rw [← beNat_serScalar, ← h2]
  have pos : ∀ k : Scalar, 0 < k.1.val := fun k =>
    Nat.pos_of_ne_zero fun h => k.2 ((ZMod.val_eq_zero _).1 h)
  rw [ha, hb]
  exact ⟨pos _, ZMod.val_lt _, pos _, ZMod.val_lt _, rfl, rfl, rfl, (mulG k1).2, rfl, (mulG k2).2⟩

/-- 64 bytes encoding (1, 1) decode. -/
example : SecNonce.fromBytes (beBytes 32 1 ++ beBytes 32 1) = .ok ⟨scalarOne, scalarOne⟩ := by
  have h : parseScalar (beBytes 32 1) = some scalarOne := parseScalar_eq_some.2 serScalar_one.symm
  unfold SecNonce.fromBytes
  rw [if_neg (by simp)]
  have s1 : slice (ε := DecodeError) (beBytes 32 1 ++ beBytes 32 1) 0 (64 / 2) = .ok (beBytes 32 1) := by decide +kernel
  have s2 : slice (ε := DecodeError) (beBytes 32 1 ++ beBytes 32 1) (64 / 2) 64 = .ok (beBytes 32 1) := by
    decide +kernel
  rw [s1, s2]
  simp [h]

/-! ## C18 -/

/-- **C18**. The byte string that is hashed (see C17) determines all the inputs and which of `k1`, `k2` is derived. -/
theorem C18_nonce_preimage_injective (H : Hash) (b b' : SecNonceBuilder) (i j : UInt8)
    (hm : ∀ m ∈ b.message, m.length < 2 ^ 64) (hm' : ∀ m ∈ b'.message, m.length < 2 ^ 64)
    (h : (nonceInputs H b).bytes ++ [i] = (nonceInputs H b').bytes ++ [j]) :
    nonceInputs H b = nonceInputs H b' ∧ i = j :=
  nonceInputs_bytes_inj (nonceInputs_wf H b hm) (nonceInputs_wf H b' hm') h

/-- **C18**, for the nonces themselves. If two builders have a nonce scalar in common, they have the same inputs and it
is the same one of the two, unless the hash function maps two different strings, namely the two that were hashed, to the
same scalar. -/
theorem C18_equal_nonces (H : Hash) (b b' : SecNonceBuilder)
    (hm : ∀ m ∈ b.message, m.length < 2 ^ 64) (hm' : ∀ m ∈ b'.message, m.length < 2 ^ 64) (i j : UInt8)
    (hi : i = 0 ∨ i = 1) (hj : j = 0 ∨ j = 1)
    (h : (if i = 0 then (b.build H).k1 else (b.build H).k2) = (if j = 0 then (b'.build H).k1 else (b'.build H).k2)) :
    (nonceInputs H b = nonceInputs H b' ∧ i = j) ∨
    ((nonceInputs H b).bytes ++ [i] ≠ (nonceInputs H b').bytes ++ [j] ∧
      nonceScalar H ((nonceInputs H b).bytes ++ [i]) = nonceScalar H ((nonceInputs H b').bytes ++ [j])) := by
  by_cases he : (nonceInputs H b).bytes ++ [i] = (nonceInputs H b').bytes ++ [j]
  · exact .inl (C18_nonce_preimage_injective H b b' i j hm hm' he)
  · have key : ∀ (b : SecNonceBuilder) (i : UInt8), i = 0 ∨ i = 1 →
        (if i = 0 then (b.build H).k1 else (b.build H).k2).1.val = nonceScalar H ((nonceInputs H b).bytes ++ [i]) := by
      rintro b i (rfl | rfl)
      · exact build_k1 H b
      · exact build_k2 H b
    refine .inr ⟨he, ?_⟩
    rw [← key b i hi, ← key b' j hj, h]

/-- **C18** for one seed: then the secret key itself (and its absence) is determined. -/
theorem C18_same_seed_seckey (H : Hash) (b b' : SecNonceBuilder) (hs : b.nonceSeedBytes = b'.nonceSeedBytes)
    (h : (nonceInputs H b).masked = (nonceInputs H b').masked) : b.seckey = b'.seckey := by
  unfold nonceInputs at h
  simp only [hs] at h
  exact maskedSeckey_inj h

/-- An absent and an empty extra input are told apart. -/
example : nonceInputs sha256 (SecNonceBuilder.new zeroSeed) ≠
    nonceInputs sha256 { SecNonceBuilder.new zeroSeed with extraInputs := [[]] } := by
  intro h
  have := congrArg NonceInputs.extra h
  simp [nonceInputs, SecNonceBuilder.new] at this

/-! ## C20 -/

/-- **C20**. `with_spices`. -/
theorem C20_with_spices (b : SecNonceBuilder) (s : SecNonceSpices) (ε : Type) :
    ((b.withSpices s : Res ε _) = .panic ↔ 4294967295 < (b.extraInputs ++ s.extraInputs).flatten.length) ∧
    ∀ b', (b.withSpices s : Res ε _) = .ok b' →
      b'.seckey = (if s.seckey.isSome then s.seckey else b.seckey) ∧
      b'.message = (if s.message.isSome then s.message else b.message) ∧
      b'.extraInputs = b.extraInputs ++ s.extraInputs ∧
      b'.pubkey = b.pubkey ∧ b'.aggregatedPubkey = b.aggregatedPubkey ∧ b'.nonceSeedBytes = b.nonceSeedBytes := by
  refine ⟨SecNonceBuilder.withSpices_eq_panic, fun b' h => ?_⟩
  obtain ⟨-, rfl⟩ := SecNonceBuilder.withSpices_eq_ok.1 h
  refine ⟨?_, ?_, rfl, rfl, rfl, rfl⟩
  · cases s.seckey <;> rfl
  · cases s.message <;> rfl

/-- **C20**. Extra inputs accumulate, and each addition panics exactly when the total exceeds `u32::MAX`. -/
theorem C20_with_extra_input (b : SecNonceBuilder) (x : Bytes) (ε : Type) :
    ((b.withExtraInput x : Res ε _) = .panic ↔ 4294967295 < (b.extraInputs ++ [x]).flatten.length) ∧
    ∀ b', (b.withExtraInput x : Res ε _) = .ok b' → b' = { b with extraInputs := b.extraInputs ++ [x] } :=
  ⟨SecNonceBuilder.withExtraInput_eq_panic, fun _ h => (SecNonceBuilder.withExtraInput_eq_ok.1 h).2⟩

example : ((SecNonceBuilder.new zeroSeed).withSpices ⟨some scalarOne, none, [[1], [2]]⟩ : Res Unit _) =
    .ok ⟨zeroSeed, some scalarOne, none, none, none, [[1], [2]]⟩ := rfl

/-! ## C21 -/

/-- **C21**. `AggNonce::sum` is BIP327 `NonceAgg`, is independent of order, and is additive. -/
theorem C21_nonce_agg (l : List PubNonce) :
    Spec.nonce_agg (l.map PubNonce.toBytes) = some (AggNonce.sum l).toBytes ∧
    (∀ l', l.Perm l' → AggNonce.sum l = AggNonce.sum l') ∧
    (∀ l', AggNonce.sum (l ++ l') =
      ⟨(AggNonce.sum l).R1 + (AggNonce.sum l').R1, (AggNonce.sum l).R2 + (AggNonce.sum l').R2⟩) ∧
    AggNonce.sum [] = ⟨0, 0⟩ := by
  refine ⟨?_, fun l' h => ?_, fun l' => ?_, rfl⟩
  · unfold Spec.nonce_agg Spec.nonce_agg_component
    rw [nonce_agg_component_eq l 1 _ pubnonce_first 0, nonce_agg_component_eq l 2 _ pubnonce_second 0]
    simp only [Option.bind_eq_bind, Option.bind_some, zero_add, spec_cbytes_ext, AggNonce.sum_eq]
    rfl
  · rw [AggNonce.sum_eq, AggNonce.sum_eq, (h.map _).sum_eq, (h.map _).sum_eq]
  · simp only [AggNonce.sum_eq, List.map_append, List.sum_append]

/-- Two opposite nonces sum to infinity. -/
example : AggNonce.sum [⟨Gpt, Gpt⟩, ⟨negGpt, Gpt⟩] = ⟨0, G + G⟩ := by
  rw [AggNonce.sum_eq]
  simp only [List.map_cons, List.map_nil, List.sum_cons, List.sum_nil, add_zero]
  congr 1
  exact add_neg_cancel G

end Verif
