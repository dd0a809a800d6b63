import Verif.Spec.Asker
import Verif.Spec.SoloForger

/-!
# Somebody who looks for two nonces that are the same

The hash function is given, but for the strings that begin with the tags of nonces and of their seeds: their hashes are drawn while they are
asked for. Used by `Props/NonceClash`.
-/

namespace Verif.NonceClash

open Forger (Log)

/-- The hash is drawn. -/
def Drawn (x : Bytes) : Prop :=
  Spec.taggedInput "MuSig/aux" [] <+: x ∨ Spec.taggedInput "MuSig/nonce" [] <+: x ∨
    Spec.taggedInput "BIP0340/aux" [] <+: x ∨ Spec.taggedInput "BIP0340/nonce" [] <+: x

instance : DecidablePred Drawn := fun x => inferInstanceAs (Decidable (_ <+: x ∨ _ <+: x ∨ _ <+: x ∨ _ <+: x))

/-- A call that makes a nonce: `SecNonceBuilder::build`, or solo signing with an adaptor point. -/
inductive Call where
  | session (b : SecNonceBuilder)
  | solo (sk : Scalar) (msg : Bytes) (seed : Arr 32) (T : MaybePoint)

/-- The public nonces. -/
def Call.nonces (H : Hash) : Call → List MaybePoint
  | .session b => [(b.build H).publicNonce.R1.1, (b.build H).publicNonce.R2.1]
  | .solo sk msg seed T => [(signSoloAdaptor H sk msg seed T).R]

/-- The lengths of messages fit into 64 bits. -/
def Call.Fits : Call → Prop
  | .session b => ∀ m ∈ b.message, m.length < 2 ^ 64
  | .solo _ _ _ _ => True

/-- The calls have different inputs: they differ in something else than seed and secret key, or in one of these only. (For sessions these
inputs are the public key, the x coordinate of the aggregated key, the message and the extra input.) -/
def Different : Call → Call → Prop
  | .session b, .session b' =>
    b.pubkey ≠ b'.pubkey ∨ (b.aggregatedPubkey.map fun Q => Spec.xbytes Q.1) ≠ (b'.aggregatedPubkey.map fun Q => Spec.xbytes Q.1) ∨
    b.message ≠ b'.message ∨ (b.extraInputs = []) ≠ (b'.extraInputs = []) ∨ b.extraInputs.flatten ≠ b'.extraInputs.flatten ∨
    (b.seckey = b'.seckey ∧ b.nonceSeedBytes ≠ b'.nonceSeedBytes) ∨ (b.seckey ≠ b'.seckey ∧ b.nonceSeedBytes = b'.nonceSeedBytes)
  | .solo sk msg seed _, .solo sk' msg' seed' _ => Spec.xbytes (mulG sk).1 ≠ Spec.xbytes (mulG sk').1 ∨ msg ≠ msg' ∨ seed ≠ seed'
  | _, _ => True

/-- What is hashed for the seed. -/
def Call.seedString : Call → Bytes
  | .session b => Spec.taggedInput "MuSig/aux" b.nonceSeedBytes.1
  | .solo _ _ seed _ => Spec.taggedInput "BIP0340/aux" seed.1

/-- What is hashed for the nonces. -/
def Call.nonceStrings (H : Hash) : Call → List Bytes
  | .session b => [Spec.nonceQuery H b 0, Spec.nonceQuery H b 1]
  | .solo sk msg seed _ => [SoloForger.nonceQuery sk (H (Spec.taggedInput "BIP0340/aux" seed.1)) msg]

/-- What is hashed in two calls. -/
def check (H : Hash) (c : Call × Call) : Asker (Call × Call) :=
  .ask c.1.seedString fun a => .ask c.2.seedString fun a' =>
    let O := Log.hash H [(c.1.seedString, a), (c.2.seedString, a')]
    Asker.askHashes (c.1.nonceStrings O ++ c.2.nonceStrings O) fun _ => .done c

/-- Two calls with different inputs have a nonce in common, up to sign; or the two nonces of one call are the same up to sign. -/
def Clash (H : Hash) (c c' : Call) : Prop :=
  (Different c c' ∧ ∃ R ∈ c.nonces H, ∃ R' ∈ c'.nonces H, Spec.xbytes R = Spec.xbytes R') ∨
  ∃ b : SecNonceBuilder, c = .session b ∧ Spec.xbytes (b.build H).publicNonce.R1.1 = Spec.xbytes (b.build H).publicNonce.R2.1

/-- The calls that are submitted clash. -/
def Finds {m : ℕ} (H : Hash) (A : Asker (Call × Call)) (ω : Fin m → Arr 32) : Prop :=
  let out := (A.bind (check H)).run Drawn H (Asker.draws ω) []
  Clash (out.2.hash H) out.1.1 out.1.2

end Verif.NonceClash
