import Verif.Sha256

/-!
# `src/tagged_hashes.rs`
-/

namespace Verif

/-- `KEYAGG_LIST_TAG_DIGEST`, tagged_hashes.rs:45-49 (sha256 of "KeyAgg list"). -/
def KEYAGG_LIST_TAG_DIGEST : Bytes := [
  0x48, 0x1C, 0x97, 0x1C, 0x3C, 0x0B, 0x46, 0xD7, 0xF0, 0xB2, 0x75, 0xAE, 0x59, 0x8D, 0x4E, 0x2C,
  0x7E, 0xD7, 0x31, 0x9C, 0x59, 0x4A, 0x5C, 0x6E, 0xC7, 0x9E, 0xA0, 0xD4, 0x99, 0x02, 0x94, 0xF0]

/-- `KEYAGG_COEFF_TAG_DIGEST`, tagged_hashes.rs:51-55 (sha256 of "KeyAgg coefficient"). -/
def KEYAGG_COEFF_TAG_DIGEST : Bytes := [
  0xBF, 0xC9, 0x04, 0x03, 0x4D, 0x1C, 0x88, 0xE8, 0xC8, 0x0E, 0x22, 0xE5, 0x3D, 0x24, 0x56, 0x6D,
  0x64, 0x82, 0x4E, 0xD6, 0x42, 0x72, 0x81, 0xC0, 0x91, 0x00, 0xF9, 0x4D, 0xCD, 0x52, 0xC9, 0x81]

/-- `MUSIG_AUX_TAG_DIGEST`, tagged_hashes.rs:57-61 (sha256 of "MuSig/aux"). -/
def MUSIG_AUX_TAG_DIGEST : Bytes := [
  0x40, 0x8F, 0x8C, 0x1F, 0x29, 0x24, 0x21, 0xB5, 0x56, 0x9E, 0xBC, 0x6C, 0xB5, 0xF2, 0xE2, 0x0C,
  0xF1, 0xE3, 0x84, 0x1B, 0x47, 0x43, 0x9F, 0xCC, 0x58, 0x7D, 0x20, 0xE3, 0xC1, 0x7F, 0x08, 0x37]

/-- `MUSIG_NONCE_TAG_DIGEST`, tagged_hashes.rs:63-67 (sha256 of "MuSig/nonce"). -/
def MUSIG_NONCE_TAG_DIGEST : Bytes := [
  0xF8, 0xC1, 0x0C, 0xBC, 0x61, 0x4E, 0xD1, 0xA0, 0x84, 0xB4, 0x37, 0x05, 0x2B, 0x5D, 0x2C, 0x4B,
  0x50, 0x1A, 0x9D, 0xE7, 0xAA, 0xFB, 0xE3, 0x48, 0xAC, 0xE8, 0x02, 0x6C, 0xA7, 0xFC, 0xB1, 0x7B]

/-- `MUSIG_NONCECOEF_TAG_DIGEST`, tagged_hashes.rs:69-73 (sha256 of "MuSig/noncecoef"). -/
def MUSIG_NONCECOEF_TAG_DIGEST : Bytes := [
  0x5A, 0x6D, 0x45, 0xF6, 0xDA, 0x29, 0xE6, 0x51, 0xCB, 0x1B, 0xA2, 0xB8, 0xAC, 0x2C, 0xDD, 0x4E,
  0xBC, 0x15, 0xC2, 0xFB, 0xB2, 0x89, 0xF0, 0xCC, 0x82, 0x1B, 0xBF, 0x0A, 0x34, 0x09, 0x5F, 0x32]

/-- `BIP0340_AUX_TAG_DIGEST`, tagged_hashes.rs:75-79 (sha256 of "BIP0340/aux"). -/
def BIP0340_AUX_TAG_DIGEST : Bytes := [
  0xF1, 0xEF, 0x4E, 0x5E, 0xC0, 0x63, 0xCA, 0xDA, 0x6D, 0x94, 0xCA, 0xFA, 0x9D, 0x98, 0x7E, 0xA0,
  0x69, 0x26, 0x58, 0x39, 0xEC, 0xC1, 0x1F, 0x97, 0x2D, 0x77, 0xA5, 0x2E, 0xD8, 0xC1, 0xCC, 0x90]

/-- `BIP0340_NONCE_TAG_DIGEST`, tagged_hashes.rs:81-85 (sha256 of "BIP0340/nonce"). -/
def BIP0340_NONCE_TAG_DIGEST : Bytes := [
  0x07, 0x49, 0x77, 0x34, 0xA7, 0x9B, 0xCB, 0x35, 0x5B, 0x9B, 0x8C, 0x7D, 0x03, 0x4F, 0x12, 0x1C,
  0xF4, 0x34, 0xD7, 0x3E, 0xF7, 0x2D, 0xDA, 0x19, 0x87, 0x00, 0x61, 0xFB, 0x52, 0xBF, 0xEB, 0x2F]

/-- `BIP0340_CHALLENGE_TAG_DIGEST`, tagged_hashes.rs:87-91 (sha256 of "BIP0340/challenge"). -/
def BIP0340_CHALLENGE_TAG_DIGEST : Bytes := [
  0x7B, 0xB5, 0x2D, 0x7A, 0x9F, 0xEF, 0x58, 0x32, 0x3E, 0xB1, 0xBF, 0x7A, 0x40, 0x7D, 0xB3, 0x82,
  0xD2, 0xF3, 0xF2, 0xD8, 0x1B, 0xB1, 0x22, 0x4F, 0x49, 0xFE, 0x51, 0x8F, 0x6D, 0x48, 0xD3, 0x7C]

/-- `BIP0340_BATCH_TAG_DIGEST`, tagged_hashes.rs:93-97 (sha256 of "BIP0340/batch"). -/
def BIP0340_BATCH_TAG_DIGEST : Bytes := [
  0x77, 0x06, 0x39, 0x59, 0x84, 0x1F, 0xFA, 0x7B, 0x06, 0x15, 0x4E, 0xE0, 0x47, 0x50, 0x19, 0x40,
  0x36, 0x48, 0x7A, 0xB8, 0x91, 0x96, 0xD0, 0x6E, 0xC7, 0x3E, 0x75, 0x82, 0x90, 0x98, 0x41, 0xB5]

/-- `TAPROOT_TWEAK_TAG_DIGEST`, tagged_hashes.rs:99-103 (sha256 of "TapTweak"). -/
def TAPROOT_TWEAK_TAG_DIGEST : Bytes := [
  0xe8, 0x0f, 0xe1, 0x63, 0x9c, 0x9c, 0xa0, 0x50, 0xe3, 0xaf, 0x1b, 0x39, 0xc1, 0x43, 0xc6, 0x3e,
  0x42, 0x9c, 0xbc, 0xeb, 0x15, 0xd9, 0x40, 0xfb, 0xb5, 0xc5, 0xa1, 0xf4, 0xaf, 0x57, 0xc5, 0xe9]

/-- `with_tag_hash_prefix(digest)` followed by updates with `data` and `finalize()`
(tagged_hashes.rs:41-43): the hash of the digest twice and then the data. -/
def tagHash (H : Hash) (digest data : Bytes) : Arr 32 := H (digest ++ digest ++ data)

/-- The ten tags of the comments and test table (tagged_hashes.rs:45-103, 189-200). -/
def tagTable : List (String × Bytes) := [
  ("KeyAgg list", KEYAGG_LIST_TAG_DIGEST),
  ("KeyAgg coefficient", KEYAGG_COEFF_TAG_DIGEST),
  ("MuSig/aux", MUSIG_AUX_TAG_DIGEST),
  ("MuSig/nonce", MUSIG_NONCE_TAG_DIGEST),
  ("MuSig/noncecoef", MUSIG_NONCECOEF_TAG_DIGEST),
  ("BIP0340/aux", BIP0340_AUX_TAG_DIGEST),
  ("BIP0340/nonce", BIP0340_NONCE_TAG_DIGEST),
  ("BIP0340/challenge", BIP0340_CHALLENGE_TAG_DIGEST),
  ("BIP0340/batch", BIP0340_BATCH_TAG_DIGEST),
  ("TapTweak", TAPROOT_TWEAK_TAG_DIGEST)]

end Verif
