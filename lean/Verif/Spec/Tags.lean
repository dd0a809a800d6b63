import Verif.Spec.Bip327
import Verif.Model.TaggedHashes

/-!
# The hash functions the code is correct for

The code hard-codes the SHA-256 digests of ten tags (`src/tagged_hashes.rs`); the standards hash the tag. The two
agree for any hash function that maps the ten tags to the hard-coded digests. SHA-256 does
(`sha256_tagsAgree`), and so do infinitely many others: nothing is assumed about other inputs.
-/

namespace Verif

/-- `H` maps each tag to the digest that the code has for it. -/
structure TagsAgree (H : Hash) : Prop where
  keyAggList : (H (Spec.utf8 "KeyAgg list")).1 = KEYAGG_LIST_TAG_DIGEST
  keyAggCoeff : (H (Spec.utf8 "KeyAgg coefficient")).1 = KEYAGG_COEFF_TAG_DIGEST
  musigAux : (H (Spec.utf8 "MuSig/aux")).1 = MUSIG_AUX_TAG_DIGEST
  musigNonce : (H (Spec.utf8 "MuSig/nonce")).1 = MUSIG_NONCE_TAG_DIGEST
  musigNoncecoef : (H (Spec.utf8 "MuSig/noncecoef")).1 = MUSIG_NONCECOEF_TAG_DIGEST
  bip340Aux : (H (Spec.utf8 "BIP0340/aux")).1 = BIP0340_AUX_TAG_DIGEST
  bip340Nonce : (H (Spec.utf8 "BIP0340/nonce")).1 = BIP0340_NONCE_TAG_DIGEST
  bip340Challenge : (H (Spec.utf8 "BIP0340/challenge")).1 = BIP0340_CHALLENGE_TAG_DIGEST
  bip340Batch : (H (Spec.utf8 "BIP0340/batch")).1 = BIP0340_BATCH_TAG_DIGEST
  tapTweak : (H (Spec.utf8 "TapTweak")).1 = TAPROOT_TWEAK_TAG_DIGEST

theorem sha256_tagsAgree : TagsAgree sha256 where
  keyAggList := by decide +kernel
  keyAggCoeff := by decide +kernel
  musigAux := by decide +kernel
  musigNonce := by decide +kernel
  musigNoncecoef := by decide +kernel
  bip340Aux := by decide +kernel
  bip340Nonce := by decide +kernel
  bip340Challenge := by decide +kernel
  bip340Batch := by decide +kernel
  tapTweak := by decide +kernel

end Verif
