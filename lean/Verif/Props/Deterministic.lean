import Verif.Lemmas.Props.Deterministic
import Verif.Lemmas.Deterministic
import Verif.Props.Bip340

/-!
# Properties C51, C52: deterministic signing
-/

namespace Verif

/-! ## C51 -/

/-- **C51**. A derived nonce is in `[1, n-1]`, and it is exactly the first valid candidate of the RFC 6979 generator
started with the secret key and the message digest. -/
theorem C51_nonce_in_range (H : Hash) (sk : Scalar) (msg : Bytes) (k : Scalar) :
    (deriveNonceRfc6979 H sk msg = some k ↔ Spec.FirstValid H (Spec.drbgInitOctets H sk.1.val (H msg).1) k.1.val) ∧
    0 < k.1.val ∧ k.1.val < orderN := by
  rw [← init_eq]
  exact ⟨loop_iff H _ _ k, scalar_val_pos k⟩

/-- **C51**. The derivation fails to terminate only if no candidate of the infinite chain is valid. -/
theorem C51_diverges_iff (H : Hash) (sk : Scalar) (msg : Bytes) :
    deriveNonceRfc6979 H sk msg = none ↔ ∀ i,
      ¬ (0 < Spec.candidate H (Spec.drbgInitOctets H sk.1.val (H msg).1) i ∧
        Spec.candidate H (Spec.drbgInitOctets H sk.1.val (H msg).1) i < orderN) := by
  rw [← init_eq]
  constructor
  · intro h i hi
    classical
    have hex : ∃ i, 0 < Spec.candidate H ⟨(rfc6979Init H sk msg).1, (rfc6979Init H sk msg).2⟩ i ∧
      Spec.candidate H ⟨(rfc6979Init H sk msg).1, (rfc6979Init H sk msg).2⟩ i < orderN := ⟨i, hi⟩
    obtain ⟨s, hs, -⟩ := loop_complete H (Nat.find hex) _ _ _ rfl (Nat.find_spec hex).1 (Nat.find_spec hex).2
      fun j hj => Nat.find_min hex hj
    unfold deriveNonceRfc6979 at h
    simp only at h
    rw [hs] at h
    cases h
  · intro h
    cases hd : deriveNonceRfc6979 H sk msg with
    | none => rfl
    | some k =>
      obtain ⟨i, e, p, q, -⟩ := loop_sound H _ _ k hd
      rw [e] at p q
      exact absurd ⟨p, q⟩ (h i)

/-- **C51**. The signatures are those of BIP340 default signing with the derived nonce as the auxiliary randomness; the
adaptor signatures are those of `adaptor::sign_solo` with that seed. (BIP340 fails when its nonce hash is zero; then the
code signs with the nonce 1, see C36.) -/
theorem C51_aux_is_derived_nonce (H : Hash) (hH : TagsAgree H) (sk k : Scalar) (msg : Bytes) (ε : Type)
    (hk : deriveNonceRfc6979 H sk msg = some k) :
    (∀ bytes, Spec.schnorr_sign H (Spec.bytes_from_int sk.1.val) msg (Spec.bytes_from_int k.1.val) = some bytes →
      ∃ sig, (deterministicSignSolo H sk msg : Option (Res ε _)) = some (.ok sig) ∧ sig.toBytes = bytes) ∧
    (deterministicSignSolo H sk msg : Option (Res ε _)) = some (signSolo H sk msg (serScalar k.1)) ∧
    ∀ T, deterministicSignSoloAdaptor H sk msg T = some (signSoloAdaptor H sk msg (serScalar k.1) T) := by
  have h1 : (deterministicSignSolo H sk msg : Option (Res ε _)) = some (signSolo H sk msg (serScalar k.1)) := by
    unfold deterministicSignSolo
    rw [hk]
  refine ⟨fun bytes hb => ?_, h1, fun T => ?_⟩
  · have hser : Spec.bytes_from_int k.1.val = (serScalar k.1).1 := rfl
    rw [hser] at hb
    obtain ⟨sig, hs, hsb⟩ := (C36_solo_is_bip340_sign H hH sk msg (serScalar k.1) ε).1 bytes hb
    exact ⟨sig, by rw [h1, hs], hsb⟩
  · unfold deterministicSignSoloAdaptor
    rw [hk]

/-- **C51**. Deterministic signatures, plain and adaptor, verify; signing does not panic. -/
theorem C51_deterministic_signatures_verify (H : Hash) (sk : Scalar) (msg : Bytes) (ε : Type) :
    (∀ r, (deterministicSignSolo H sk msg : Option (Res ε _)) = some r →
      ∃ sig, r = .ok sig ∧ verifySingleLifted H (mulG sk) sig msg = .ok ()) ∧
    (∀ T sig, deterministicSignSoloAdaptor H sk msg T = some sig →
      verifySingleAdaptor H (mulG sk) sig msg T = .ok ()) ∧
    ((∃ k, deriveNonceRfc6979 H sk msg = some k) →
      (∃ r, (deterministicSignSolo H sk msg : Option (Res ε _)) = some r) ∧
      ∀ T, ∃ sig, deterministicSignSoloAdaptor H sk msg T = some sig) := by
  refine ⟨fun r h => ?_, fun T sig h => ?_, fun ⟨k, hk⟩ => ?_⟩
  · unfold deterministicSignSolo at h
    cases hk : deriveNonceRfc6979 H sk msg with
    | none => rw [hk] at h; cases h
    | some k =>
      rw [hk] at h
      cases h
      exact C35_solo_signature_verifies H sk msg _ ε
  · unfold deterministicSignSoloAdaptor at h
    cases hk : deriveNonceRfc6979 H sk msg with
    | none => rw [hk] at h; cases h
    | some k =>
      rw [hk] at h
      cases h
      exact (C37_solo_adaptor H sk msg _).1 T
  · unfold deterministicSignSolo deterministicSignSoloAdaptor
    rw [hk]
    exact ⟨⟨_, rfl⟩, fun T => ⟨_, rfl⟩⟩

/-! ## C52 -/

/-- **C52**, true part: if the message digest, read as an integer, is below `n`, the derived nonce is the RFC 6979 nonce.
Missing: digests that are at least `n`, which the RFC reduces modulo `n` (`bits2octets`) and the code does not, see
`C52_rfc6979_false`. -/
theorem C52_rfc6979_partial (H : Hash) (sk : Scalar) (msg : Bytes) (hd : beNat (H msg).1 < orderN) (k : Scalar) :
    deriveNonceRfc6979 H sk msg = some k ↔ Spec.IsRfc6979Nonce H sk.1.val msg k.1.val := by
  have hb : Spec.bits2octets (H msg).1 = (H msg).1 := by
    unfold Spec.bits2octets Spec.int2octets
    rw [Nat.mod_eq_of_lt hd]
    exact beBytes_beNat' (H msg).2
  unfold Spec.IsRfc6979Nonce Spec.drbgInit
  rw [hb]
  exact (C51_nonce_in_range H sk msg k).1

/-- **C52**, the exact behaviour: code and RFC take the first valid candidate of a generator seeded with the key and 32
octets; these are the digest in the code and the digest modulo `n` in the RFC, the same exactly if the digest is below
`n`. -/
theorem C52_rfc6979_exact (H : Hash) (sk : Scalar) (msg : Bytes) (k : Scalar) :
    let d := (H msg).1
    let d' := Spec.bits2octets d
    (deriveNonceRfc6979 H sk msg = some k ↔ Spec.FirstValid H (Spec.drbgInitOctets H sk.1.val d) k.1.val) ∧
    (Spec.IsRfc6979Nonce H sk.1.val msg k.1.val ↔ Spec.FirstValid H (Spec.drbgInitOctets H sk.1.val d') k.1.val) ∧
    (d = d' ↔ Spec.int_from_bytes d < orderN) := by
  intro d d'
  refine ⟨(C51_nonce_in_range H sk msg k).1, Iff.rfl, ?_⟩
  constructor
  · intro h
    rw [h]
    have hlt : beNat d % orderN < orderN := Nat.mod_lt _ (by decide +kernel)
    have h256 : orderN < 256 ^ 32 := by decide +kernel
    change beNat (beBytes 32 (beNat d % orderN)) < orderN
    rw [beNat_beBytes_of_lt (hlt.trans h256)]
    exact hlt
  · intro h
    change beNat d < orderN at h
    change d = Spec.bits2octets d
    unfold Spec.bits2octets Spec.int2octets
    rw [Nat.mod_eq_of_lt h]
    exact (beBytes_beNat' (H msg).2).symm

/-- Both C51 and C52 at work: with SHA-256, key 1 and message `"s"` the derivation terminates with this nonce, the
digest of the message is below `n`, and so the nonce is the one of the RFC. -/
example : (∃ k, deriveNonceRfc6979 sha256 skOne [115] = some k) ∧ beNat (sha256 [115]).1 < orderN ∧
    Spec.IsRfc6979Nonce sha256 1 [115]
      23811541301376427322566638629350632721800427365805819007653676916945408977770 := by
  have hne : ((23811541301376427322566638629350632721800427365805819007653676916945408977770 : ℕ) : MaybeScalar) ≠ 0 := by
    decide +kernel
  have hd : beNat (sha256 [115]).1 < orderN := by decide +kernel
  have h := derive_of_candidate sha_candidate hne
  refine ⟨⟨_, h⟩, hd, ?_⟩
  have h2 := (C52_rfc6979_partial sha256 skOne [115] hd _).1 h
  have e1 : skOne.1.val = 1 := by decide +kernel
  have e2 : (((23811541301376427322566638629350632721800427365805819007653676916945408977770 : ℕ) : MaybeScalar)).val
      = 23811541301376427322566638629350632721800427365805819007653676916945408977770 := by decide +kernel
  rw [e1] at h2
  simp only at h2
  rw [e2] at h2
  exact h2

/-- **C52** is false of the code in general: with `toyHash` the digest of the message `"X"` (88) is `FF…FF`, at least
`n`. The code feeds it to the generator unreduced and ends with a nonce that is not the one of the RFC. (For SHA-256
such messages exist with probability about `2^-128` each.) -/
theorem C52_rfc6979_false :
    ∃ (H : Hash) (sk : Scalar) (msg : Bytes) (k k' : Scalar), deriveNonceRfc6979 H sk msg = some k ∧
      Spec.IsRfc6979Nonce H sk.1.val msg k'.1.val ∧ ¬ Spec.IsRfc6979Nonce H sk.1.val msg k.1.val := by
  have hne : ((beNat (List.replicate 32 73) : ℕ) : MaybeScalar) ≠ 0 := by decide +kernel
  have hne' : ((beNat (List.replicate 32 98) : ℕ) : MaybeScalar) ≠ 0 := by decide +kernel
  have hc : (serScalar ((beNat (List.replicate 32 73) : ℕ) : MaybeScalar)).1
      = (hmac toyHash (rfc6979Init toyHash skOne [88]).1 (rfc6979Init toyHash skOne [88]).2.1).1 := by decide +kernel
  have hs : ((beNat (List.replicate 32 98) : ℕ) : MaybeScalar).val
      = beNat (Spec.drbgCandidate toyHash (Spec.drbgInit toyHash skOne.1.val (toyHash [88]).1)).1 := by decide +kernel
  have h' : Spec.IsRfc6979Nonce toyHash skOne.1.val [88] ((beNat (List.replicate 32 98) : ℕ) : MaybeScalar).val :=
    ⟨0, hs, (scalar_val_pos ⟨_, hne'⟩).1, (scalar_val_pos ⟨_, hne'⟩).2, fun j hj => absurd hj (by omega)⟩
  refine ⟨toyHash, skOne, [88], ⟨_, hne⟩, ⟨_, hne'⟩, derive_of_candidate hc hne, h', fun h => ?_⟩
  have this : ((beNat (List.replicate 32 73) : ℕ) : MaybeScalar).val = ((beNat (List.replicate 32 98) : ℕ) : MaybeScalar).val :=
    firstValid_unique (st := Spec.drbgInit toyHash skOne.1.val (toyHash [88]).1) h h'
  revert this
  decide +kernel

end Verif
