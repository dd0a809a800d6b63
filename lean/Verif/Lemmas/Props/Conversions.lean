import Verif.Spec.Claims
import Verif.Model.Conversions
import Verif.Lemmas.Props.Bip340
import Verif.Lemmas.Encoding
import Verif.Lemmas.Props.Signing
import Verif.Lemmas.Props.KeyAggBytes

/-!
# Lemmas and example data for `Props/Conversions`
-/

namespace Verif

theorem CompactSignature.toArr_val (c : CompactSignature) : c.toArr.1 = c.toBytes := rfl

theorem LiftedSignature.toArr_val (l : LiftedSignature) : l.toArr.1 = l.toBytes := rfl

end Verif
