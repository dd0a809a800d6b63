import Mathlib.Data.List.Sort
import Verif.Model.Bip340
import Verif.Model.Conversions
import Verif.Model.Deterministic
import Verif.Model.Errors
import Verif.Model.Hex
import Verif.Model.KeyAgg
import Verif.Model.Nonces
import Verif.Model.Rounds
import Verif.Model.Serde
import Verif.Model.SigAgg
import Verif.Model.Signature
import Verif.Model.Signing
import Verif.Model.TaggedHashes
import Verif.Spec.Batch
import Verif.Spec.Bip327
import Verif.Spec.Bip340
import Verif.Spec.Bip341
import Verif.Spec.Extract
import Verif.Spec.Hex
import Verif.Spec.HonestSession
import Verif.Spec.Reachable
import Verif.Spec.Rfc6979
import Verif.Spec.Rounds
import Verif.Spec.Session
import Verif.Spec.Tags

/-!
# Definitions used in the statements of the properties

Each section belongs to the file of the same name under `Props`.
-/

namespace Verif

/-! ## `Props/Nonces` -/

/-- The code's replacement of a zero nonce by one. -/
def orOne (k : ℕ) : ℕ := if k = 0 then 1 else k

/-- The all-zero seed. -/
def zeroSeed : Arr 32 := ⟨List.replicate 32 0, rfl⟩

/-- What is hashed by the tagged hash of BIP340 (with the tag hashed by SHA-256). -/
def Spec.taggedInput (tag : String) (x : Bytes) : Bytes :=
  (sha256 (Spec.utf8 tag)).1 ++ (sha256 (Spec.utf8 tag)).1 ++ x

/-- What a builder configuration amounts to: masked secret key, public key, x coordinate of the aggregate key,
message, and total extra input (absent, or the concatenation). -/
structure NonceInputs where
  masked : Bytes
  pubkey : Option Point
  aggX : Option Bytes
  message : Option Bytes
  extra : Option Bytes

/-- The masked secret key, 32 zero bytes standing for an absent key. -/
def maskedSeckey (H : Hash) (seed : Arr 32) (seckey : Option Scalar) : Bytes :=
  Spec.bytes_xor (match seckey with | some sk => Spec.bytes_from_int sk.1.val | none => List.replicate 32 0)
    (H (Spec.taggedInput "MuSig/aux" seed.1)).1

/-- The inputs of a builder. -/
def nonceInputs (H : Hash) (b : SecNonceBuilder) : NonceInputs where
  masked := maskedSeckey H b.nonceSeedBytes b.seckey
  pubkey := b.pubkey
  aggX := b.aggregatedPubkey.map fun Q => Spec.xbytes Q.1
  message := b.message
  extra := if b.extraInputs = [] then none else some b.extraInputs.flatten

/-- The inputs of the nonce of `FirstRound::new`. -/
def roundNonceInputs (H : Hash) (ctx : KeyAggContext) (seed : Arr 32) (i : ℕ) (spices : SecNonceSpices) :
    NonceInputs where
  masked := maskedSeckey H seed spices.seckey
  pubkey := ctx.pubkeys[i]?
  aggX := some (Spec.xbytes ctx.aggregatedPubkey.1)
  message := spices.message
  extra := some (beBytes 4 i ++ spices.extraInputs.flatten)

/-- The byte string that the nonce hash is applied to, but for its last byte: each absent input but the last one gives
a zero byte, an absent extra input gives nothing. -/
def NonceInputs.bytes (x : NonceInputs) : Bytes :=
  x.masked
    ++ (match x.pubkey with | none => [0] | some P => [33] ++ Spec.cbytes P.1)
    ++ (match x.aggX with | none => [0] | some q => [32] ++ q)
    ++ (match x.message with | none => [0] | some m => [1] ++ beBytes 8 m.length ++ m)
    ++ (match x.extra with | none => [] | some e => beBytes 4 e.length ++ e)

/-- The secret nonce derived from a byte string: its tagged hash modulo `n`, or 1. -/
def nonceScalar (H : Hash) (x : Bytes) : ℕ :=
  orOne (Spec.int_from_bytes (H (Spec.taggedInput "MuSig/nonce" x)).1 % orderN)

/-- The first field of what BIP327 hashes (reference.py:269-272). -/
def Spec.nonce_rand (H : Hash) (seed : Arr 32) (seckey : Option Scalar) : Bytes :=
  match seckey with
  | some sk => Spec.bytes_xor (Spec.bytes_from_int sk.1.val) (Spec.tagged_hash H "MuSig/aux" seed.1)
  | none => seed.1

/-- The byte string that BIP327 hashes (`nonce_hash`, reference.py:255-266), but for its last byte. An absent public key
is taken as the empty byte string, BIP327 having no absent public keys. -/
def Spec.nonce_input (H : Hash) (seed : Arr 32) (seckey : Option Scalar) (pk aggpk msg extra : Option Bytes) : Bytes :=
  Spec.nonce_rand H seed seckey ++ beBytes 1 (pk.getD []).length ++ pk.getD [] ++ beBytes 1 (aggpk.getD []).length ++ aggpk.getD []
    ++ (match msg with | none => [0] | some m => [1] ++ beBytes 8 m.length ++ m)
    ++ beBytes 4 (extra.getD []).length ++ extra.getD []

/-! ## `Props/Bip340` -/

/-- The nonce hash of BIP340 default signing, modulo `n`. -/
def Spec.solo_nonce (H : Hash) (sk : Scalar) (msg aux : Bytes) : ℕ :=
  let P := sk.1.val • Spec.G
  let d := if Spec.has_even_y P then sk.1.val else orderN - sk.1.val
  Spec.int_from_bytes (Spec.tagged_hash H "BIP0340/nonce"
    (Spec.bytes_xor (Spec.bytes_from_int d) (Spec.tagged_hash H "BIP0340/aux" aux) ++ Spec.xbytes P ++ msg)) % orderN

/-! ## `Props/KeyAgg` -/

/-- The BIP327 view of a context: `Q`, `gacc`, `tacc`. -/
def specCtx (ctx : KeyAggContext) : Spec.KeyAggCtx :=
  ⟨ctx.aggregatedPubkey.1, if ctx.parityAcc then orderN - 1 else 1, ctx.tweakAcc.val⟩

/-- The sum that the documentation of `tweak_sum` speaks of. -/
def docTweakSum (ts : List (Scalar × Bool)) : MaybeScalar := (ts.map fun t => t.1.1).sum

/-- Keys sorted by their serialization (`key_sort`, reference.py:182-184). -/
def sortKeys (keys : List Point) : List Point :=
  keys.mergeSort fun P Q => decide ((serPoint P.1).1 ≤ (serPoint Q.1).1)

/-! ## `Props/Hashes` -/

namespace Spec

/-- The tags of BIP327, BIP340 and BIP341 that the library hashes with. -/
def tags : List String :=
  ["KeyAgg list", "KeyAgg coefficient", "MuSig/aux", "MuSig/nonce", "MuSig/noncecoef",
    "BIP0340/aux", "BIP0340/nonce", "BIP0340/challenge", "BIP0340/batch", "TapTweak"]

end Spec

/-! ## `Props/Batch` -/

/-- The adaptor signature of the forgery: its nonce is computed from the coefficient of its row. -/
def forgedNonce (H : Hash) (rng : SeedRng) (x : BatchItem) (P : Point) (msg : Bytes) (s : MaybeScalar) : MaybePoint :=
  let e := computeChallengeHashTweak H (xonly G) P msg
  let row0 := x.row H
  let seed := H (Spec.taggedInput "BIP0340/batch" (Spec.bytes_from_int row0.challenge.val ++ Spec.bytes_from_int e.val
    ++ (Spec.bytes_from_int row0.s.val ++ Spec.bytes_from_int s.val)))
  s • G - e • (toEvenY P).1
    + ((rng seed 0).1)⁻¹ • (row0.s • G - row0.R - row0.challenge • (toEvenY row0.pubkey).1)

/-- What the challenge of a plain item hashes. -/
def BatchItem.challengeInput : BatchItem → Bytes
  | .plain P msg sig => Spec.taggedInput "BIP0340/challenge" (Spec.xbytes sig.R.1 ++ Spec.xbytes P.1 ++ msg)
  | .adaptor P msg sig T => Spec.taggedInput "BIP0340/challenge" (Spec.xbytes (sig.R + T) ++ Spec.xbytes P.1 ++ msg)

/-- Two items are the same signature for the same message and x-only key. -/
def BatchItem.Same : BatchItem → BatchItem → Prop
  | .plain P msg sig, .plain P' msg' sig' => sig = sig' ∧ msg = msg' ∧ xonly P.1 = xonly P'.1
  | _, _ => False

/-! ## `Props/Signing` -/

/-- Every signer's contribution is present and passes `adaptor::verify_partial` (`verify_partial` for `T = ∞`). -/
def AllVerified (H : Hash) (ctx : KeyAggContext) (T : MaybePoint) (pubnonces : List PubNonce)
    (sigs : List PartialSignature) (msg : Bytes) : Prop :=
  pubnonces.length = ctx.pubkeys.length ∧ sigs.length = ctx.pubkeys.length ∧
  ∀ (i : ℕ) P pn s, ctx.pubkeys[i]? = some P → pubnonces[i]? = some pn → sigs[i]? = some s →
    verifyPartialAdaptor H ctx s (AggNonce.sum pubnonces) T P pn msg = .ok ()

/-! ## `Props/Rounds` -/

/-- The nonce a first round uses for `j` after the given calls: our own, or else the first one delivered for `j`. -/
def Spec.nonceFor (own : ℕ) (ours : PubNonce) (calls : List (ℕ × PubNonce)) (j : ℕ) : Option PubNonce :=
  Spec.firstValue ((own, ours) :: calls) j

/-- The secret key of the other member of the example group. -/
def skMinusOne : Scalar := ⟨-1, neg_ne_zero.2 one_ne_zero⟩

/-! ## `Props/NonceReuse` -/

/-- What an observer of a session knows: the coefficient `b`, the sign of the adapted nonce, and the challenge with that
sign. -/
structure Spec.Observed where
  b : MaybeScalar
  e : MaybeScalar
  sign : MaybeScalar

/-- What an observer computes for the session with this aggregated nonce, adaptor point and message. -/
def Spec.observe (H : Hash) (Q : Point) (an : AggNonce) (T : MaybePoint) (msg : Bytes) : Spec.Observed :=
  let b := an.nonceCoefficient H Q msg
  let R := (an.finalNonce b).1 + T
  ⟨b, Spec.sgn R * Spec.challenge H R Q.1 msg, Spec.sgn R⟩

/-- The sign with which secret keys enter partial signatures: `g · gacc` of BIP327. -/
def Spec.keySign (ctx : KeyAggContext) : MaybeScalar :=
  Spec.sgn ctx.aggregatedPubkey.1 * ((specCtx ctx).gacc : MaybeScalar)

/-! ## `Props/Group` -/

/-- The first half of a public nonce with which the scalar `s` is accepted from the owner of `P`. It is computed from
public data: the coefficient and the signed challenge of the session, the key coefficient `a` and the sign of the key. -/
def Spec.forgedNonce (o : Spec.Observed) (keySign a s : MaybeScalar) (P R2 : MaybePoint) : MaybePoint :=
  (o.sign * s) • G - (o.e * keySign * a) • P - o.b • R2

/-- `sig.encrypt(t1).encrypt(t2)…`. -/
def encryptAll (sig : AdaptorSignature) (ts : List Scalar) : AdaptorSignature :=
  ts.foldl AdaptorSignature.encrypt sig

/-! ## `Props/Exact` -/

/-- Tweak number `j` of the list is x-only, and the aggregate key is odd when it is applied. -/
def Spec.flipsAt (ctx : KeyAggContext) (ts : List (Scalar × Bool)) (j : ℕ) : Prop :=
  (∃ t, ts[j]? = some (t, true)) ∧
  ∃ c, ctx.withTweaks (ts.take j) = .ok c ∧ Spec.has_even_y c.aggregatedPubkey.1 = false

open Classical in
/-- The number of such tweaks from number `i` on. -/
noncomputable def Spec.flipsFrom (ctx : KeyAggContext) (ts : List (Scalar × Bool)) (i : ℕ) : ℕ :=
  ((Finset.Ico i ts.length).filter (Spec.flipsAt ctx ts)).card

/-- The sum of the tweaks, each with the sign given by the number of x-only tweaks of odd keys that come after it. -/
noncomputable def Spec.signedTweakSum (ctx : KeyAggContext) (ts : List (Scalar × Bool)) : MaybeScalar :=
  ∑ i : Fin ts.length, (-1) ^ Spec.flipsFrom ctx ts (i + 1) * (ts[i].1).1

/-- The generator that hands out the given coefficients, whatever its seed. -/
def coeffsRng {m : ℕ} (c : Fin m → Scalar) : SeedRng := fun _ j => if h : j < m then c ⟨j, h⟩ else scalarOne

/-! ## `Props/Forking` -/

/-- The secret key of `X`, from two signatures with one nonce and the challenges `e` and `e'`. -/
def Spec.forkKey (X : MaybePoint) (e e' s s' : MaybeScalar) : MaybeScalar := Spec.sgn X * (s - s') / (e - e')

end Verif
