import Verif.Spec.Bip327
import Verif.Secp

/-!
# Sums weighted with the BIP327 key aggregation coefficients
-/

namespace Verif

/-- The BIP327 coefficient of the key `K` in the list `keys`. -/
def Spec.keyCoeff (H : Hash) (keys : List Point) (K : Point) : MaybeScalar :=
  (Spec.key_agg_coeff H (keys.map fun P => Spec.cbytes P.1) (Spec.cbytes K.1) : MaybeScalar)

/-- `Σ aᵢ·f(Kᵢ)` over the keys `Kᵢ`, with their coefficients `aᵢ`. -/
def Spec.weighted (H : Hash) (keys : List Point) (f : Point → MaybeScalar) : MaybeScalar :=
  (keys.map fun K => Spec.keyCoeff H keys K * f K).sum

end Verif
