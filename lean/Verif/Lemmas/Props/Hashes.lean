import Verif.Spec.Claims
import Verif.Model.Bip340
import Verif.Spec.Tags
import Verif.Lemmas.Spec
import Verif.Lemmas.Props.KeyAgg

/-!
# Lemmas and example data for `Props/Hashes`
-/

namespace Verif

theorem taggedInput_injective {t : String} {x y : Bytes} (h : Spec.taggedInput t x = Spec.taggedInput t y) : x = y :=
  List.append_cancel_left h

end Verif
