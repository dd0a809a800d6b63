import Verif.Model.Bip340
import Verif.Spec.Extract

/-!
# What a row of a batch stands for
-/

namespace Verif

/-- A signature put in a batch, plain or adaptor. -/
inductive BatchItem where
  | plain (P : Point) (msg : Bytes) (sig : LiftedSignature)
  | adaptor (P : Point) (msg : Bytes) (sig : AdaptorSignature) (T : MaybePoint)

/-- The item passes its own verification function. -/
def BatchItem.Valid (H : Hash) : BatchItem → Prop
  | .plain P msg sig => verifySingleLifted H P sig msg = .ok ()
  | .adaptor P msg sig T => verifySingleAdaptor H P sig msg T = .ok ()

/-- A lifted signature as the API makes them (C44); nothing is required of adaptor signatures. -/
def BatchItem.WellFormed : BatchItem → Prop
  | .plain _ _ sig => isOdd sig.R.1 = false
  | .adaptor .. => True

/-- The row made for the item. -/
def BatchItem.row (H : Hash) : BatchItem → BatchVerificationRow
  | .plain P msg sig => .fromSignature H P msg sig
  | .adaptor P msg sig T => .fromAdaptorSignature H P msg sig T

/-- The scalar of the signature. -/
def BatchItem.scalar : BatchItem → MaybeScalar
  | .plain _ _ sig => sig.s
  | .adaptor _ _ sig _ => sig.s

/-- The BIP340 challenge of the signature; for an adaptor signature, with the adapted nonce. -/
def BatchItem.challengeOf (H : Hash) : BatchItem → MaybeScalar
  | .plain P msg sig => Spec.challenge H sig.R.1 P.1 msg
  | .adaptor P msg sig T => Spec.challenge H (sig.R + T) P.1 msg

/-- Left side minus right side of the verification equation. -/
noncomputable def BatchItem.defect (H : Hash) : BatchItem → MaybePoint
  | .plain P msg sig => sig.s • G - sig.R.1 - Spec.challenge H sig.R.1 P.1 msg • Spec.sgn P.1 • P.1
  | .adaptor P msg sig T => sig.s • G - Spec.sgn (sig.R + T) • sig.R
      - Spec.challenge H (sig.R + T) P.1 msg • Spec.sgn P.1 • P.1

end Verif
