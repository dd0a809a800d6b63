import Verif.Model.Constructors
import Verif.Spec.Forger

/-!
# Generators that replay what has been drawn

Used by `Props/Random`. A generator draws independent and uniform values; here they are given beforehand as sequences.
-/

namespace Verif

/-- The generator whose scalars are `k 0, k 1, …` and whose blocks of 32 bytes are `b 0, b 1, …`. The state counts both. -/
def Spec.replay (k : ℕ → Scalar) (b : ℕ → Arr 32) : Rng (ℕ × ℕ) where
  fill32 s := (b s.2, (s.1, s.2 + 1))
  scalar s := (k s.1, (s.1 + 1, s.2))

/-- Finitely many values as a sequence. -/
def Spec.sequence {α : Type} (d : α) {m : ℕ} (f : Fin m → α) (i : ℕ) : α := if h : i < m then f ⟨i, h⟩ else d

/-- The results of `m` calls of `f`, one after the other, and the final state. -/
def Spec.calls {σ α : Type} (f : σ → α × σ) : ℕ → σ → List α × σ
  | 0, s => ([], s)
  | m + 1, s => ((f s).1 :: (Spec.calls f m (f s).2).1, (Spec.calls f m (f s).2).2)

/-- The points of some public nonces. -/
def Spec.noncePoints (pns : List PubNonce) : List Point := pns.flatMap fun pn => [pn.R1, pn.R2]

end Verif
