import Verif.Model.KeyAgg

/-!
# Contexts a user can hold

`KeyAggContext` has private fields: the only ways to obtain one are the constructors below.
-/

namespace Verif

/-- The contexts obtainable through the API of `key_agg.rs`. -/
inductive Reachable (H : Hash) : KeyAggContext → Prop
  | new {keys ctx} : KeyAggContext.new H keys = .ok ctx → Reachable H ctx
  | plain {ctx ctx' t} : Reachable H ctx → ctx.withPlainTweak t = .ok ctx' → Reachable H ctx'
  | xonly {ctx ctx' t} : Reachable H ctx → ctx.withXonlyTweak t = .ok ctx' → Reachable H ctx'
  | tweak {ctx ctx' t x} : Reachable H ctx → ctx.withTweak t x = .ok ctx' → Reachable H ctx'
  | tweaks {ctx ctx' ts} : Reachable H ctx → ctx.withTweaks ts = .ok ctx' → Reachable H ctx'
  | taproot {ctx ctx' root} : Reachable H ctx → ctx.withTaprootTweak H root = .ok ctx' → Reachable H ctx'
  | unspendable {ctx ctx'} : Reachable H ctx → ctx.withUnspendableTaprootTweak H = .ok ctx' → Reachable H ctx'
  | decoded {b ctx} : KeyAggContext.fromBytes H b = .ok ctx → Reachable H ctx

end Verif
