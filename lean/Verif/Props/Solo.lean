import Verif.Lemmas.Props.Solo
import Verif.Props.NonceReuse
import Verif.Props.Deterministic
import Verif.Spec.Extract

/-!
# Properties C71-C74: single-signer signatures
-/

namespace Verif

/-! ## C71 -/

/-- **C71**, the reuse. Two adaptor signatures that verify under one key, with the same nonce point, give away the
secret key: the message and the adaptor point of either are arbitrary, as long as the signed challenges differ. -/
theorem C71_same_nonce_reveals (H : Hash) (hH : TagsAgree H) (sk : Scalar) (sig sig' : AdaptorSignature)
    (msg msg' : Bytes) (T T' : MaybePoint)
    (h : verifySingleAdaptor H (mulG sk) sig msg T = .ok ()) (h' : verifySingleAdaptor H (mulG sk) sig' msg' T' = .ok ())
    (hR : sig.R = sig'.R) (hR0 : sig.R ≠ 0)
    (hne : Spec.sgn (sig.R + T) * Spec.challenge H (sig.R + T) (mulG sk).1 msg
      ≠ Spec.sgn (sig'.R + T') * Spec.challenge H (sig'.R + T') (mulG sk).1 msg') :
    Spec.extractKey H (mulG sk).1 (sig.R + T) (sig'.R + T') msg msg' sig.s sig'.s = sk.1 := by
  obtain ⟨k, hk⟩ := mulG_surjective ⟨sig.R, hR0⟩
  have hk1 : sig.R = k.1 • G := (congrArg Subtype.val hk).symm
  have e1 := signed_equation hH hk1 h
  have e2 := signed_equation hH (hR ▸ hk1) h'
  unfold Spec.extractKey
  rw [div_eq_iff (sub_ne_zero.2 hne), e1, e2]
  have h1 := sgn_mul_sgn (mulG sk).1
  linear_combination (sk.1 * (Spec.sgn (sig.R + T) * Spec.challenge H (sig.R + T) (mulG sk).1 msg
      - Spec.sgn (sig'.R + T') * Spec.challenge H (sig'.R + T') (mulG sk).1 msg')) * h1

/-- **C71**, the code. `deterministic::adaptor::sign_solo` uses one nonce for all adaptor points; so two of its
signatures on one message with different signed challenges give away the secret key. -/
theorem C71_adaptor_points_share_nonce (H : Hash) (hH : TagsAgree H) (sk : Scalar) (msg : Bytes) (T T' : MaybePoint)
    (sig sig' : AdaptorSignature) (h : deterministicSignSoloAdaptor H sk msg T = some sig)
    (h' : deterministicSignSoloAdaptor H sk msg T' = some sig') :
    sig.R = sig'.R ∧
    (Spec.sgn (sig.R + T) * Spec.challenge H (sig.R + T) (mulG sk).1 msg
      ≠ Spec.sgn (sig'.R + T') * Spec.challenge H (sig'.R + T') (mulG sk).1 msg →
    Spec.extractKey H (mulG sk).1 (sig.R + T) (sig'.R + T') msg msg sig.s sig'.s = sk.1) := by
  have hv := (C51_deterministic_signatures_verify H sk msg Unit).2.1
  have v := hv T sig h
  have v' := hv T' sig' h'
  unfold deterministicSignSoloAdaptor at h h'
  cases hd : deriveNonceRfc6979 H sk msg with
  | none => rw [hd] at h; cases h
  | some k =>
    rw [hd] at h h'
    have hR : sig.R = (mulG (soloNonce H sk msg (serScalar k.1))).1 := by cases h; rfl
    have hR' : sig'.R = (mulG (soloNonce H sk msg (serScalar k.1))).1 := by cases h'; rfl
    refine ⟨hR.trans hR'.symm, fun hne => ?_⟩
    exact C71_same_nonce_reveals H hH sk sig sig' msg msg T T' v v' (hR.trans hR'.symm) (hR ▸ (mulG _).2) hne

/-- **C71**, the code. A plain deterministic signature and a deterministic adaptor signature on the same message share
their nonce too. -/
theorem C71_plain_and_adaptor_share_nonce (H : Hash) (hH : TagsAgree H) (sk : Scalar) (msg : Bytes) (T : MaybePoint)
    (f : LiftedSignature) (sig : AdaptorSignature)
    (h : (deterministicSignSolo H sk msg : Option (Res Unit _)) = some (.ok f))
    (h' : deterministicSignSoloAdaptor H sk msg T = some sig) :
    Spec.x f.R.1 = Spec.x sig.R ∧
    (Spec.sgn sig.R * Spec.challenge H sig.R (mulG sk).1 msg
      ≠ Spec.sgn (sig.R + T) * Spec.challenge H (sig.R + T) (mulG sk).1 msg →
    Spec.extractKey H (mulG sk).1 sig.R (sig.R + T) msg msg f.s sig.s = sk.1) := by
  unfold deterministicSignSolo at h
  cases hd : deriveNonceRfc6979 H sk msg with
  | none => rw [hd] at h; cases h
  | some k =>
    rw [hd] at h
    obtain ⟨sig0, h0⟩ : ∃ sig0, deterministicSignSoloAdaptor H sk msg 0 = some sig0 := by
      unfold deterministicSignSoloAdaptor
      rw [hd]
      exact ⟨_, rfl⟩
    obtain ⟨hR, hx⟩ := C71_adaptor_points_share_nonce H hH sk msg 0 T sig0 sig h0 h'
    have hs0 : sig0 = signSoloAdaptor H sk msg (serScalar k.1) 0 := by
      unfold deterministicSignSoloAdaptor at h0
      rw [hd] at h0
      cases h0
      rfl
    have hf : sig0.adapt 0 = some f := by
      rw [hs0]
      simp only [Option.some.injEq] at h
      unfold signSolo at h
      cases ha : (signSoloAdaptor H sk msg (serScalar k.1) 0).adapt 0 with
      | none => rw [ha] at h; cases h
      | some f' => rw [ha] at h; cases h; rfl
    obtain ⟨R, h1, h2, h3⟩ := adapt_eq_some.1 hf
    rw [zero_smul, add_zero] at h1
    rw [negIf_zero, add_zero] at h3
    rw [add_zero, ← h3, hR] at hx
    refine ⟨?_, hx⟩
    rw [h2, spec_x, spec_x, ← hR, ← h1, ← xonly_eq_iff_xNat, xonly_toEvenY]

/-- **C71**, partly true. What holds is that one adaptor point gets one signature, and that a nonce is hashed from the
message itself, so that two different messages (or two public keys with different x coordinates) never share a hash
input, whatever the seed. Missing: the adaptor point is not an input of the nonce. -/
theorem C71_messages_never_share_partial (H : Hash) (sk sk' : Scalar) (msg msg' : Bytes) (seed seed' : Arr 32)
    (h : Spec.soloNonceInput H sk.1.val msg seed.1 = Spec.soloNonceInput H sk'.1.val msg' seed'.1) :
    msg = msg' ∧ Spec.x (mulG sk).1 = Spec.x (mulG sk').1 ∧
      Spec.tagged_hash H "BIP0340/aux" seed.1 = Spec.tagged_hash H "BIP0340/aux" seed'.1 := by
  have hP : ∀ sk : Scalar, sk.1.val • Spec.G = (mulG sk).1 := fun sk => by rw [spec_G, ← smul_def]; rfl
  unfold Spec.soloNonceInput at h
  simp only [hP] at h
  have hlen : ∀ (n : ℕ) (a : Bytes), (Spec.bytes_xor (Spec.bytes_from_int n) (Spec.tagged_hash H "BIP0340/aux" a)).length
      = 32 := by
    intro n a
    unfold Spec.bytes_xor Spec.bytes_from_int Spec.tagged_hash
    rw [List.length_zipWith, beBytes_length, (H _).2]
    rfl
  have hlx : ∀ P, (Spec.xbytes P).length = 32 := fun P => beBytes_length 32 _
  obtain ⟨h1, h3⟩ := List.append_inj h (by simp only [List.length_append, hlen, hlx])
  obtain ⟨h1, h2⟩ := List.append_inj h1 (by simp only [hlen])
  rw [spec_xbytes, spec_xbytes] at h2
  have hx := Subtype.ext h2
  refine ⟨h3, by rw [spec_x, spec_x, ← xonly_eq_iff_xNat]; exact hx, ?_⟩
  have hd : ∀ sk : Scalar, Spec.bytes_from_int (if Spec.has_even_y (mulG sk).1 = true then sk.1.val else orderN - sk.1.val)
      = (serScalar (negIf (isOdd (mulG sk).1) sk.1)).1 := by
    intro sk
    rw [spec_has_even_y, spec_bytes_from_int _ (spec_neg_scalar_lt sk _), spec_neg_scalar]
  have hdd : negIf (isOdd (mulG sk).1) sk.1 = negIf (isOdd (mulG sk').1) sk'.1 := by
    rw [← smul_G_inj, ← negIf_smul, ← negIf_smul, ← mulG_val, ← mulG_val, ← toEvenY_val, ← toEvenY_val]
    exact eq_of_xonly_isOdd (by rw [xonly_toEvenY, xonly_toEvenY, hx]) (by rw [isOdd_toEvenY, isOdd_toEvenY])
  rw [hd, hd, hdd] at h1
  unfold Spec.bytes_xor at h1
  rw [zipWith_xor_comm, zipWith_xor_comm (serScalar _).1] at h1
  exact congrArg Subtype.val (xorBytes_left_inj (a := H _) (b := H _)
    (m := serScalar (negIf (isOdd (mulG sk').1) sk'.1)) (Subtype.ext h1))

/-- **C71** is false of the code. There are a key, a message and two adaptor points for which the two deterministic
adaptor signatures verify and anybody computes the secret key from them; likewise from the plain signature and one
adaptor signature. -/
theorem C71_deterministic_nonces_reused_false (sk : Scalar) (msg : Bytes) :
    ∃ (H : Hash) (T T' : MaybePoint) (sig sig' : AdaptorSignature) (f : LiftedSignature), TagsAgree H ∧ T ≠ T' ∧
      deterministicSignSoloAdaptor H sk msg T = some sig ∧ deterministicSignSoloAdaptor H sk msg T' = some sig' ∧
      (deterministicSignSolo H sk msg : Option (Res Unit _)) = some (.ok f) ∧
      verifySingleAdaptor H (mulG sk) sig msg T = .ok () ∧ verifySingleAdaptor H (mulG sk) sig' msg T' = .ok () ∧
      Spec.extractKey H (mulG sk).1 (sig.R + T) (sig'.R + T') msg msg sig.s sig'.s = sk.1 ∧
      Spec.extractKey H (mulG sk).1 sig.R (sig.R + T') msg msg f.s sig'.s = sk.1 := by
  have hd : ∀ T, deterministicSignSoloAdaptor stubHash sk msg T
      = some (signSoloAdaptor stubHash sk msg (serScalar scalarOne.1) T) := by
    intro T
    unfold deterministicSignSoloAdaptor
    rw [stub_derive]
  have hp : ∃ f, (deterministicSignSolo stubHash sk msg : Option (Res Unit _)) = some (.ok f) := by
    obtain ⟨f, hf, -⟩ := C35_solo_signature_verifies stubHash sk msg (serScalar scalarOne.1) Unit
    unfold deterministicSignSolo
    rw [stub_derive]
    exact ⟨f, congrArg some hf⟩
  obtain ⟨f, hf⟩ := hp
  have hR : ∀ T, (signSoloAdaptor stubHash sk msg (serScalar scalarOne.1) T).R = G := by
    intro T
    rw [signSoloAdaptor_eq, stub_soloNonce]
    exact one_smul _ _
  have hc : ∀ A : MaybePoint, Spec.challenge stubHash A (mulG sk).1 msg = 1 := by
    intro A
    rw [spec_challenge stubHash_tagsAgree]
    exact stubHash_tagHash _ (by decide) _
  have hA : G + -(G + G) = -G := by abel
  have hs1 : Spec.sgn G = 1 := by unfold Spec.sgn; rw [spec_has_even_y, isOdd_G]; rfl
  have hs2 : Spec.sgn (-G) = -1 := by unfold Spec.sgn; rw [spec_has_even_y, isOdd_neg G_ne_zero, isOdd_G]; rfl
  have hne : (1 : MaybeScalar) * 1 ≠ -1 * 1 := by
    intro h
    exact two_ne_zero_scalar (by linear_combination h)
  have hv := (C51_deterministic_signatures_verify stubHash sk msg Unit).2.1
  refine ⟨stubHash, 0, -(G + G), _, _, f, stubHash_tagsAgree, ?_, hd _, hd _, hf, hv _ _ (hd _), hv _ _ (hd _), ?_, ?_⟩
  · intro h
    have h2 : (2 : MaybeScalar) • G = 0 := by rw [two_smul, ← neg_eq_zero, ← h]
    exact two_ne_zero_scalar (smul_G_eq_zero.1 h2)
  · apply (C71_adaptor_points_share_nonce stubHash stubHash_tagsAgree sk msg _ _ _ _ (hd _) (hd _)).2
    rw [hc, hc, hR, hR, hA, add_zero, hs1, hs2]
    exact hne
  · have := (C71_plain_and_adaptor_share_nonce stubHash stubHash_tagsAgree sk msg (-(G + G)) f _ hf (hd _)).2
    rw [hR] at this ⊢
    apply this
    rw [hc, hc, hA, hs1, hs2]
    exact hne

/-- The hypothesis of the true part is met by two different secret keys: a key and its negation. -/
example (H : Hash) (sk : Scalar) (msg : Bytes) (seed : Arr 32) : sk ≠ sk.negIf true ∧
    Spec.soloNonceInput H sk.1.val msg seed.1 = Spec.soloNonceInput H (sk.negIf true).1.val msg seed.1 := by
  have hP : ∀ sk : Scalar, sk.1.val • Spec.G = (mulG sk).1 := fun sk => by rw [spec_G, ← smul_def]; rfl
  have hn : (mulG (sk.negIf true)).1 = -(mulG sk).1 := by
    rw [mulG_val, mulG_val, Scalar.negIf_val, negIf_true, neg_smul]
  constructor
  · intro h
    have h1 : sk.1 = -sk.1 := by
      have := congrArg Subtype.val h
      rwa [Scalar.negIf_val, negIf_true] at this
    rcases mul_eq_zero.1 (show (2 : MaybeScalar) * sk.1 = 0 by linear_combination h1) with h | h
    · exact two_ne_zero_scalar h
    · exact sk.2 h
  · unfold Spec.soloNonceInput
    simp only [hP]
    rw [spec_has_even_y, spec_has_even_y, spec_bytes_from_int _ (spec_neg_scalar_lt sk _),
      spec_bytes_from_int _ (spec_neg_scalar_lt (sk.negIf true) _), spec_neg_scalar, spec_neg_scalar, spec_xbytes,
      spec_xbytes, hn, xonly_neg, isOdd_neg (mulG sk).2, Scalar.negIf_val]
    cases isOdd (mulG sk).1 <;> simp

/-! ## C72 -/

/-- **C72**. The nonce point of a solo (adaptor) signature is `k • G`, where `k` is the hash, reduced modulo `n`, of an
input that commits to the message, the public key and the masked secret key; `1` stands in for a zero. -/
theorem C72_solo_nonce (H : Hash) (hH : TagsAgree H) (sk : Scalar) (msg : Bytes) (seed : Arr 32) (T : MaybePoint) :
    let k := Spec.int_from_bytes (Spec.tagged_hash H "BIP0340/nonce" (Spec.soloNonceInput H sk.1.val msg seed.1)) % orderN
    (signSoloAdaptor H sk msg seed T).R = (if k = 0 then 1 else k) • Spec.G := by
  intro k
  obtain ⟨h0, h1⟩ := solo_nonce_eq hH sk msg seed
  have hk : Spec.solo_nonce H sk msg seed.1 = k := rfl
  rw [hk] at h0 h1
  rw [signSoloAdaptor_eq, spec_G]
  split
  · rename_i h
    rw [h0 h]
    change (1 : MaybeScalar) • G = _
    rw [one_smul, one_smul]
  · rename_i h
    rw [← h1 h, ← smul_def]
    rfl

/-- **C71**, the exact behaviour of deterministic adaptor signing: two signatures under one key have the same nonce exactly
if they are of the same message, whatever the adaptor points, or if the nonce hash maps their two different inputs to the
same scalar. -/
theorem C71_nonce_shared_iff (H : Hash) (hH : TagsAgree H) (sk k k' : Scalar) (msg msg' : Bytes) (T T' : MaybePoint)
    (sig sig' : AdaptorSignature) (hk : deriveNonceRfc6979 H sk msg = some k)
    (hk' : deriveNonceRfc6979 H sk msg' = some k')
    (h : deterministicSignSoloAdaptor H sk msg T = some sig)
    (h' : deterministicSignSoloAdaptor H sk msg' T' = some sig') :
    let x := Spec.soloNonceInput H sk.1.val msg (Spec.bytes_from_int k.1.val)
    let x' := Spec.soloNonceInput H sk.1.val msg' (Spec.bytes_from_int k'.1.val)
    let nonce := fun x => orOne (Spec.int_from_bytes (Spec.tagged_hash H "BIP0340/nonce" x) % orderN)
    sig.R = sig'.R ↔ msg = msg' ∨ (x ≠ x' ∧ nonce x = nonce x') := by
  intro x x' nonce
  have key : ∀ (k : Scalar) (msg : Bytes) (T : MaybePoint) (sig : AdaptorSignature),
      deriveNonceRfc6979 H sk msg = some k → deterministicSignSoloAdaptor H sk msg T = some sig →
      sig.R = nonce (Spec.soloNonceInput H sk.1.val msg (Spec.bytes_from_int k.1.val)) • Spec.G := by
    intro k msg T sig hk h
    unfold deterministicSignSoloAdaptor at h
    rw [hk] at h
    cases h
    exact C72_solo_nonce H hH sk msg (serScalar k.1) T
  have hlt : ∀ x, nonce x < orderN := by
    intro x
    have h1 : 1 < orderN := one_lt_orderN
    simp only [nonce, orOne]
    split
    · exact h1
    · exact Nat.mod_lt _ (by omega)
  have hinj : ∀ a b : ℕ, a < orderN → b < orderN → a • Spec.G = b • Spec.G → a = b := by
    intro a b ha hb hab
    rw [spec_G] at hab
    have e : ∀ a : ℕ, a < orderN → a • G = ((a : ℕ) : MaybeScalar) • G := by
      intro a ha
      rw [smul_def, ZMod.val_natCast, Nat.mod_eq_of_lt ha]
    rw [e a ha, e b hb, smul_G_inj] at hab
    have := congrArg ZMod.val hab
    rwa [ZMod.val_natCast, ZMod.val_natCast, Nat.mod_eq_of_lt ha, Nat.mod_eq_of_lt hb] at this
  rw [key k msg T sig hk h, key k' msg' T' sig' hk' h']
  constructor
  · intro he
    by_cases hm : msg = msg'
    · exact .inl hm
    · refine .inr ⟨fun hx => hm ?_, hinj _ _ (hlt _) (hlt _) he⟩
      exact (C71_messages_never_share_partial H sk sk msg msg' (serScalar k.1) (serScalar k'.1) hx).1
  · rintro (rfl | ⟨-, he⟩)
    · rw [hk] at hk'
      cases hk'
      rfl
    · exact congrArg (· • Spec.G) he

/-- With the stub hash, where the derivation ends at once with nonce 1, all messages and adaptor points share it. -/
example (sk : Scalar) (msg msg' : Bytes) (T T' : MaybePoint) : ∃ (k k' : Scalar) (sig sig' : AdaptorSignature),
    deriveNonceRfc6979 stubHash sk msg = some k ∧ deriveNonceRfc6979 stubHash sk msg' = some k' ∧
    deterministicSignSoloAdaptor stubHash sk msg T = some sig ∧
    deterministicSignSoloAdaptor stubHash sk msg' T' = some sig' ∧ sig.R = sig'.R := by
  refine ⟨_, _, _, _, stub_derive sk msg, stub_derive sk msg', by unfold deterministicSignSoloAdaptor; rw [stub_derive],
    by unfold deterministicSignSoloAdaptor; rw [stub_derive], ?_⟩
  rw [signSoloAdaptor_eq, signSoloAdaptor_eq, stub_soloNonce, stub_soloNonce]

/-! ## C73 -/

/-- **C73**. For each key, message and nonce x coordinate there is at most one valid signature scalar. -/
theorem C73_unique_signature_scalar (H : Hash) (P : Point) (rx : Arr 32) (s s' : MaybeScalar) (msg : Bytes)
    (h : verifySingle H P ⟨rx, s⟩ msg = .ok ()) (h' : verifySingle H P ⟨rx, s'⟩ msg = .ok ()) : s = s' := by
  obtain ⟨V, h1, h2, h3⟩ := verifySingle_eq_ok.1 h
  obtain ⟨V', h1', h2', h3'⟩ := verifySingle_eq_ok.1 h'
  have hV : V.1 = V'.1 := eq_of_xonly_isOdd (h3.trans h3'.symm) (h2.trans h2'.symm)
  rw [hV] at h1
  exact smul_G_inj.1 (h1.trans h1'.symm)

/-- **C73**, for byte strings. Two accepted encodings of a signature of the same message under the same key that agree
in their first 32 bytes are the same string: nobody can turn a signature into another one with the same nonce. -/
theorem C73_bytes_not_malleable (H : Hash) (P : Point) (b b' msg : Bytes)
    (h : verifySingleBytes H P b msg = .ok ()) (h' : verifySingleBytes H P b' msg = .ok ())
    (hp : b.take 32 = b'.take 32) : b = b' := by
  have key : ∀ b, verifySingleBytes H P b msg = .ok () →
      ∃ c : CompactSignature, c.toBytes = b ∧ verifySingle H P c msg = .ok () := by
    intro b hb
    unfold verifySingleBytes at hb
    rcases CompactSignature.fromBytes_cases b with ⟨c, hc, hcb⟩ | ⟨e, he, -⟩
    · rw [hc] at hb
      exact ⟨c, hcb, hb⟩
    · rw [he] at hb
      cases hb
  obtain ⟨c, rfl, hc⟩ := key b h
  obtain ⟨c', rfl, hc'⟩ := key b' h'
  have ht : ∀ c : CompactSignature, c.toBytes.take 32 = c.rx.1 := by
    intro c; unfold CompactSignature.toBytes; rw [List.take_left' c.rx.2]
  rw [ht, ht] at hp
  have hrx : c.rx = c'.rx := Subtype.ext hp
  have hs := C73_unique_signature_scalar H P c.rx c.s c'.s msg hc (by rw [hrx]; exact hc')
  have : c = c' := by
    cases c; cases c'
    simp only at hrx hs
    rw [hrx, hs]
  rw [this]

/-- **C73**, adaptor signatures. For each key, message, adaptor point and nonce there is exactly one valid adaptor
signature scalar. -/
theorem C73_unique_adaptor_scalar (H : Hash) (P : Point) (R T : MaybePoint) (msg : Bytes) :
    ∃! s, verifySingleAdaptor H P ⟨R, s⟩ msg T = .ok () := by
  obtain ⟨a, ha⟩ := exists_dlog (negIf (isOdd (R + T)) R
    + computeChallengeHashTweak H (xonly (R + T)) P msg • (toEvenY P).1)
  refine ⟨a, verifySingleAdaptor_eq_ok.2 ha, fun s hs => ?_⟩
  exact smul_G_inj.1 ((verifySingleAdaptor_eq_ok.1 hs).trans ha.symm)

/-- **C73**, existence. For each key and message, each finite point with an even y coordinate is the nonce of exactly
one valid signature; a string that is not the x coordinate of a point is the nonce of none. -/
theorem C73_exists_iff_lift (H : Hash) (P : Point) (rx : Arr 32) (msg : Bytes) :
    (∃ s, verifySingle H P ⟨rx, s⟩ msg = .ok ()) ↔ ∃ A, Spec.lift_x rx.1 = some A := by
  rw [spec_lift_x]
  constructor
  · rintro ⟨s, h⟩
    obtain ⟨V, -, h2, h3⟩ := verifySingle_eq_ok.1 h
    exact ⟨V.1, by rw [liftX_eq_some.2 ⟨h3, h2⟩]; rfl⟩
  · rintro ⟨A, h⟩
    cases hl : liftX rx with
    | none => rw [hl] at h; cases h
    | some V =>
      obtain ⟨h3, h2⟩ := liftX_eq_some.1 hl
      obtain ⟨a, ha⟩ := exists_dlog (V.1 + computeChallengeHashTweak H rx P msg • (toEvenY P).1)
      exact ⟨a, verifySingle_eq_ok.2 ⟨V, ha, h2, h3⟩⟩

/-- Valid signatures exist for every key and message. -/
example (H : Hash) (sk : Scalar) (msg : Bytes) : ∃ b, verifySingleBytes H (mulG sk) b msg = .ok () := by
  obtain ⟨sig, -, h⟩ := C35_solo_signature_verifies H sk msg (serScalar 1) Unit
  refine ⟨sig.compact.toBytes, ?_⟩
  unfold verifySingleBytes
  rw [CompactSignature.fromBytes_toBytes]
  exact h

/-! ## C74 -/

/-- **C74**. Two valid signatures of two messages under one key, with the same nonce bytes and different challenges,
give away the secret key; no matter how they were made. -/
theorem C74_two_signatures_reveal (H : Hash) (hH : TagsAgree H) (sk : Scalar) (rx : Arr 32) (s s' : MaybeScalar)
    (msg msg' : Bytes) (A : MaybePoint) (hA : Spec.lift_x rx.1 = some A)
    (h : verifySingle H (mulG sk) ⟨rx, s⟩ msg = .ok ()) (h' : verifySingle H (mulG sk) ⟨rx, s'⟩ msg' = .ok ())
    (hne : Spec.challenge H A (mulG sk).1 msg ≠ Spec.challenge H A (mulG sk).1 msg') :
    sk.1 = Spec.sgn (mulG sk).1 * (s - s')
      / (Spec.challenge H A (mulG sk).1 msg - Spec.challenge H A (mulG sk).1 msg') := by
  rw [spec_lift_x] at hA
  cases hl : liftX rx with
  | none => rw [hl] at hA; cases hA
  | some V =>
    rw [hl] at hA
    cases hA
    obtain ⟨hx, ho⟩ := liftX_eq_some.1 hl
    obtain ⟨W, h1, h2, h3⟩ := verifySingle_eq_ok.1 h
    obtain ⟨W', h1', h2', h3'⟩ := verifySingle_eq_ok.1 h'
    have hW : W.1 = V.1 := eq_of_xonly_isOdd (h3.trans hx.symm) (h2.trans ho.symm)
    have hW' : W'.1 = V.1 := eq_of_xonly_isOdd (h3'.trans hx.symm) (h2'.trans ho.symm)
    simp only at h1 h1'
    rw [← hx, ← spec_challenge hH, toEvenY_val, ← sgn_smul] at h1 h1'
    rw [eq_div_iff (sub_ne_zero.2 hne)]
    have hd : (s - s') • G = ((Spec.challenge H V.1 (mulG sk).1 msg - Spec.challenge H V.1 (mulG sk).1 msg')
        * (Spec.sgn (mulG sk).1 * sk.1)) • G := by
      rw [sub_smul, h1, h1', hW, hW', mul_smul, mul_smul, sub_smul, ← mulG_val]
      abel
    rw [smul_G_inj.1 hd]
    have := sgn_mul_sgn (mulG sk).1
    linear_combination (-(sk.1 * (Spec.challenge H V.1 (mulG sk).1 msg - Spec.challenge H V.1 (mulG sk).1 msg'))) * this

/-- The hypotheses of C74 can be met: signatures of the messages `[1]` and `[2]` with the nonce `G`. -/
example (sk : Scalar) : ∃ (rx : Arr 32) (s s' : MaybeScalar) (A : MaybePoint), TagsAgree lastByteHash ∧
    Spec.lift_x rx.1 = some A ∧ verifySingle lastByteHash (mulG sk) ⟨rx, s⟩ [1] = .ok () ∧
    verifySingle lastByteHash (mulG sk) ⟨rx, s'⟩ [2] = .ok () ∧
    Spec.challenge lastByteHash A (mulG sk).1 [1] ≠ Spec.challenge lastByteHash A (mulG sk).1 [2] := by
  have hl := spec_lift_x_xonly Gpt
  obtain ⟨s, hs⟩ := (C73_exists_iff_lift lastByteHash (mulG sk) (xonly Gpt.1) [1]).2 ⟨_, hl⟩
  obtain ⟨s', hs'⟩ := (C73_exists_iff_lift lastByteHash (mulG sk) (xonly Gpt.1) [2]).2 ⟨_, hl⟩
  refine ⟨_, s, s', _, lastByteHash_tagsAgree, hl, hs, hs', ?_⟩
  rw [last_challenge, last_challenge]
  change ((1 : ℕ) : MaybeScalar) ≠ ((2 : ℕ) : MaybeScalar)
  intro h
  apply one_ne_zero (α := MaybeScalar)
  push_cast at h
  linear_combination -h

end Verif
