import Verif.Spec.Bip327
import Verif.Model.Nonces

/-!
# The BIP327 session a context belongs to
-/

namespace Verif

/-- The context was obtained by `new(keys)` followed by the tweaks `ts`. -/
def BuiltFrom (H : Hash) (ctx : KeyAggContext) (keys : List Point) (ts : List (Scalar × Bool)) : Prop :=
  ∃ ctx0, KeyAggContext.new H keys = .ok ctx0 ∧ ctx0.withTweaks ts = .ok ctx

/-- The BIP327 `SessionContext`, as bytes. -/
def sessionOf (keys : List Point) (ts : List (Scalar × Bool)) (an : AggNonce) (msg : Bytes) : Spec.SessionCtx where
  aggnonce := Spec.cbytes_ext an.R1 ++ Spec.cbytes_ext an.R2
  pubkeys := keys.map fun P => Spec.cbytes P.1
  tweaks := ts.map fun t => (Spec.bytes_from_int t.1.1.val, t.2)
  msg := msg

end Verif
