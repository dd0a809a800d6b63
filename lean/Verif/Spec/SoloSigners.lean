import Verif.Spec.Member
import Verif.Spec.SoloForger

/-!
# Single signers who use `sign_solo`

In `Spec/Outsider` and `Spec/Watcher` single signers have random nonces. Here they call `sign_solo`, or
`sign_solo_adaptor` if an adaptor signature is wanted, with random seeds. The hashes that make
its nonces are drawn while they are asked for. Used by `Props/SoloSigners`.
-/

namespace Verif

namespace Outsider

/-- The hashes that `sign_solo` makes nonces from. -/
def DrawnSolo (x : Bytes) : Prop := Spec.taggedInput "BIP0340/aux" [] <+: x ∨ Spec.taggedInput "BIP0340/nonce" [] <+: x

instance : DecidablePred DrawnSolo := fun _ => inferInstanceAs (Decidable (_ ∨ _))

/-- What `sign_solo` hashes first: the seed. -/
def soloAux (seed : Arr 32) : Bytes := Spec.taggedInput "BIP0340/aux" seed.1

/-- What the library makes: `sign_solo`, or `sign_solo_adaptor` if there is an adaptor point. -/
def soloOutput (H : Hash) (o : Spec.SignerOrder) (seed : Arr 32) : Option Bytes :=
  match o.point with
  | none => (Spec.okay (Verif.signSolo (ε := Unit) H o.d o.msg seed)).map LiftedSignature.toBytes
  | some T => some (signSoloAdaptor H o.d o.msg seed T).toBytes

/-- The library asks for two hashes for its nonce. If it fails, the verdict is no. -/
def signSolo (H : Hash) (o : Spec.SignerOrder) (seed : Arr 32) (next : Bytes → Asker Prop) : Asker Prop :=
  .ask (soloAux seed) fun a => .ask (SoloForger.nonceQuery o.d a o.msg) fun h =>
    match soloOutput ((H.answering (soloAux seed) a).answering (SoloForger.nonceQuery o.d a o.msg) h) o seed with
    | some sig => next sig
    | none => .done False

/-- Single signers sign with `sign_solo` and `sign_solo_adaptor`, with the seeds `s 0`, `s 1`, …. -/
def solos (H : Hash) : Outsider Spec.SignerOrder → (ℕ → Arr 32) → Asker Prop
  | .done v, _ => .done v
  | .ask x next, s => .ask x fun a => solos H (next a) s
  | .sign o next, s => signSolo H o (s 0) fun sig => solos H (next sig) fun i => s (i + 1)

/-- The verdict on signers who use `sign_solo`. The seeds are drawn. -/
def OnSolos (D : Bytes → Prop) [DecidablePred D] (H : Hash) (A : Outsider Spec.SignerOrder) {k m : ℕ} (w : (Fin k → Arr 32) × (Fin m → Arr 32)) :
    Prop :=
  ((A.solos H (extend zeroSeed w.1)).run D H (Asker.draws w.2) []).1

/-- The verdict on signers with random nonces. -/
def OnRandomNonces (D : Bytes → Prop) [DecidablePred D] (H : Hash) (A : Outsider Spec.SignerOrder) {k m : ℕ}
    (w : (Fin k → Scalar) × (Fin m → Arr 32)) : Prop :=
  ((A.signers H (extend scalarOne w.1)).run D H (Asker.draws w.2) []).1

end Outsider

namespace Watcher

open Outsider (DrawnSolo)

/-- The hash is drawn. -/
def DrawnEvery (x : Bytes) : Prop := DrawnAll x ∨ DrawnSolo x

instance : DecidablePred DrawnEvery := fun _ => inferInstanceAs (Decidable (_ ∨ _))

/-- The verdict on a single signer who shows their key and uses `sign_solo`. The secret key and the seeds are drawn. -/
def OnSolo (D : Bytes → Prop) [DecidablePred D] (H : Hash) (A : Asker Plan) {k m : ℕ} (w : (Scalar × (Fin k → Arr 32)) × (Fin m → Arr 32)) : Prop :=
  ((A.bind fun p => ((p.watch (mulG w.1.1)).map (Order.signer w.1.1)).solos H (Outsider.extend zeroSeed w.1.2)).run D H
    (Asker.draws w.2) []).1

end Watcher

end Verif
