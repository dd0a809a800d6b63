import Verif.Spec.Forger

/-!
# Forgers that choose the group, in the random oracle model

As in `Spec/Forger`, a forger asks the hash function about byte strings of its choice. Here it finally submits a group,
with keys of its choice beside the victim's, and a message and a signature of the group. The answers to challenges, and
to coefficients of certain keys, are drawn while the forger asks; the others are those of a given hash function. Used by
`Props/GroupForger`.
-/

namespace Verif

/-- A forger, as the tree of what it does next. -/
inductive GroupForger where
  /-- Submit a group and a forgery. -/
  | submit (keys : List Point) (msg : Bytes) (sig : CompactSignature)
  /-- Ask for the hash of `x`, and go on with the answer. -/
  | ask (x : Bytes) (next : Arr 32 → GroupForger)

namespace GroupForger

/-- Which answers are drawn. -/
structure Setting where
  /-- The keys whose coefficients are drawn. -/
  drawn : Point → Prop
  /-- The key of a group whose coefficient is renewed by the extractor. -/
  pivot : List Point → Point

/-- The answer to the string is drawn. -/
def Setting.Draws (S : Setting) (x : Bytes) : Prop :=
  Spec.taggedInput "BIP0340/challenge" [] <+: x ∨
    ∃ (h : Arr 32) (K : Point), S.drawn K ∧ x = Spec.taggedInput "KeyAgg coefficient" (h.1 ++ Spec.cbytes K.1)

/-- The forger asks for at most `q` answers that are drawn, and as often as it likes for others. -/
inductive AsksAtMost (S : Setting) : ℕ → GroupForger → Prop where
  | submit (q : ℕ) (keys : List Point) (msg : Bytes) (sig : CompactSignature) : AsksAtMost S q (.submit keys msg sig)
  | ask (q : ℕ) (x : Bytes) (next : Arr 32 → GroupForger) (h : ∀ a, AsksAtMost S q (next a)) :
      AsksAtMost S (q + 1) (.ask x next)
  | other (q : ℕ) (x : Bytes) (next : Arr 32 → GroupForger) (hx : ¬ S.Draws x) (h : ∀ a, AsksAtMost S q (next a)) :
      AsksAtMost S q (.ask x next)

/-- The outcome of a run. -/
structure Outcome where
  keys : List Point
  msg : Bytes
  sig : CompactSignature
  log : Forger.Log

/-- The key of a group, as the verifier of a forgery computes it. (`G` if the keys cannot be aggregated; such forgeries
are not accepted.) -/
def groupKey (H : Hash) (keys : List Point) : Point :=
  match KeyAggContext.new H keys with
  | .ok ctx => ctx.aggregatedPubkey
  | _ => Gpt

open Classical in
/-- A run with the answers `ω`, starting from a log. In the end the coefficient of the pivot and the challenge of the
forgery are asked, as the verifier does. -/
noncomputable def run (S : Setting) (H : Hash) (ω : ℕ → Arr 32) : GroupForger → Forger.Log → Outcome
  | .submit keys msg sig, log =>
    let log := log.add ω (Spec.coeffQuery H keys (S.pivot keys))
    ⟨keys, msg, sig, log.add ω (Spec.challengeQuery sig.rx.1 (groupKey (log.hash H) keys) msg)⟩
  | .ask x next, log =>
    if S.Draws x then run S H ω (next (log.answer ω x)) (log.add ω x) else run S H ω (next (H x)) log

/-- The run with the answers `ω` ends with a group that has the property `Fit`, and with a signature that `verify_single`
accepts for the aggregated key. -/
def Forges {q : ℕ} (S : Setting) (H : Hash) (Fit : List Point → Prop) (A : GroupForger) (ω : Fin q → Arr 32) : Prop :=
  let out := A.run S H (Forger.answers ω) []
  Fit out.keys ∧ ∃ ctx, KeyAggContext.new (out.log.hash H) out.keys = .ok ctx ∧
    verifySingle (out.log.hash H) ctx.aggregatedPubkey out.sig out.msg = .ok ()

/-- When in the run the coefficient of the pivot was asked. -/
def coefficientIndex (S : Setting) (H : Hash) (out : Outcome) : ℕ :=
  out.log.findIdx fun e => e.1 = Spec.coeffQuery H out.keys (S.pivot out.keys)

/-- When in the run the challenge was asked. -/
def challengeIndex (H : Hash) (out : Outcome) : ℕ :=
  out.log.findIdx fun e => e.1 = Spec.challengeQuery out.sig.rx.1 (groupKey (out.log.hash H) out.keys) out.msg

/-- The secret key of the group, computed from two runs. -/
noncomputable def groupSecret {q : ℕ} (S : Setting) (H : Hash) (A : GroupForger) (ω ω' : Fin q → Arr 32) : MaybeScalar :=
  let out := A.run S H (Forger.answers ω) []
  let j := challengeIndex H out
  let out' := A.run S H (Forger.answers (Forger.rewind j ω ω')) []
  Spec.sgn (groupKey (out.log.hash H) out.keys).1 * (out.sig.s - out'.sig.s)
    / (reduceFrom (Forger.answers ω j) - reduceFrom (Forger.answers ω' j))

/-- The extractor: it runs the forger four times. The second and the fourth run renew the answers of the run before from
the challenge on, the third one renews those of the first run from the coefficient of the pivot on. The result is the
secret key of the pivot. -/
noncomputable def extract {q : ℕ} (S : Setting) (H : Hash) (A : GroupForger) (ω₁ ω₂ ω₃ ω₄ : Fin q → Arr 32) :
    MaybeScalar :=
  let out := A.run S H (Forger.answers ω₁) []
  let i := coefficientIndex S H out
  (groupSecret S H A ω₁ ω₂ - groupSecret S H A (Forger.rewind i ω₁ ω₃) ω₄)
    / ((reduceFrom (Forger.answers ω₁ i) - reduceFrom (Forger.answers ω₃ i)) * (out.keys.count (S.pivot out.keys) : ℕ))

/-- In no two runs the forger submits different groups whose key lists have the same hash. -/
def NoListCollision (S : Setting) (H : Hash) (A : GroupForger) : Prop :=
  ∀ ω ω' : ℕ → Arr 32, ∀ keys keys', keys = (A.run S H ω []).keys → keys' = (A.run S H ω' []).keys →
    H (Spec.taggedInput "KeyAgg list" (keys.map fun K => Spec.cbytes K.1).flatten)
      = H (Spec.taggedInput "KeyAgg list" (keys'.map fun K => Spec.cbytes K.1).flatten) → keys = keys'

/-- Drawn are the coefficients of the victim's key `P`, in all groups. -/
def ofVictim (P : Point) : Setting := ⟨(· = P), fun _ => P⟩

/-- Drawn are the coefficients of all keys but the victim's. The extractor renews that of the first key of the group. -/
def ofOthers (P : Point) : Setting := ⟨(· ≠ P), fun keys => keys.headD P⟩

/-- The group contains `P`, whose coefficient is a hash since `P` is not the second distinct key. -/
def HashedMember (P : Point) (keys : List Point) : Prop :=
  P ∈ keys ∧ Spec.get_second_key (keys.map fun K => Spec.cbytes K.1) ≠ Spec.cbytes P.1

/-- The group consists of another key and `P` behind it, each perhaps several times. -/
def SecondOfTwo (P : Point) (keys : List Point) : Prop :=
  ∃ X others, keys = X :: others ∧ X ≠ P ∧ P ∈ others ∧ ∀ K ∈ others, K = X ∨ K = P

/-- The secret key of the second of two members, computed from the secret keys of the group and of the first member. -/
noncomputable def extractSecond {q : ℕ} (H : Hash) (P : Point) (A : GroupForger) (ω₁ ω₂ ω₃ ω₄ : Fin q → Arr 32) :
    MaybeScalar :=
  let S := ofOthers P
  let out := A.run S H (Forger.answers ω₁) []
  (groupSecret S H A ω₁ ω₂ - reduceFrom (Forger.answers ω₁ (coefficientIndex S H out))
      * (out.keys.count (S.pivot out.keys) : ℕ) * extract S H A ω₁ ω₂ ω₃ ω₄)
    / (out.keys.count P : ℕ)

end GroupForger

/-- What the forking lemma makes of a probability `t`, with `q` questions. -/
def Spec.forked (q : ℕ) (t : ℚ) : ℚ := max 0 (t ^ 2 / q - 2 * t / 2 ^ 256)

end Verif
