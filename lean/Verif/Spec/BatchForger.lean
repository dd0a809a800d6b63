import Verif.Spec.Claims
import Verif.Spec.Forger

/-!
# Somebody who looks for a batch with an invalid signature that passes

The hash function is given, but for the strings that begin with the tag of challenges or the tag of batch seeds; and the generator of
`verify_batch` is not given at all. These values are drawn while they are asked for. Used by `Props/BatchForger`.
-/

namespace Verif

/-- The string that is hashed to the seed of a batch with the challenges `es` and the signature scalars `ss`. -/
def Spec.batchString (es ss : List MaybeScalar) : Bytes :=
  Spec.taggedInput "BIP0340/batch" ((es.map fun e => Spec.bytes_from_int e.val).flatten
    ++ (ss.map fun s => Spec.bytes_from_int s.val).flatten)

/-- Plain signatures, as the API makes them. -/
def Spec.PlainBatch (items : List BatchItem) : Prop := ∀ x ∈ items, ∃ P m s, x = .plain P m s ∧ isOdd s.R.1 = false

/-- Plain signatures, as the API makes them, and adaptor signatures for adaptor points of a list. -/
def Spec.KnownBatch (Ts : List MaybePoint) (items : List BatchItem) : Prop :=
  ∀ x ∈ items, match x with
    | .plain _ _ s => isOdd s.R.1 = false
    | .adaptor _ _ _ T => T ∈ Ts

namespace BatchForger

/-- A question: for the hash of a string, or for the scalars that the generator makes from a seed. -/
abbrev Question : Type := Bytes ⊕ Arr 32

/-- The answer: a hash, or the first `L` scalars. -/
def Answer (L : ℕ) : Question → Type
  | .inl _ => Arr 32
  | .inr _ => Fin L → Scalar

/-- What is drawn for a question; one half of it is used. -/
abbrev Draw (L : ℕ) : Type := Arr 32 × (Fin L → Scalar)

/-- The half that answers the question. -/
def Draw.answer {L : ℕ} (d : Draw L) : (q : Question) → Answer L q
  | .inl _ => d.1
  | .inr _ => d.2

/-- The answer is drawn. -/
def Drawn : Question → Prop
  | .inl x => Spec.taggedInput "BIP0340/challenge" [] <+: x ∨ Spec.taggedInput "BIP0340/batch" [] <+: x
  | .inr _ => True

instance : DecidablePred Drawn
  | .inl x => inferInstanceAs (Decidable (_ <+: x ∨ _ <+: x))
  | .inr _ => inferInstanceAs (Decidable True)

/-- The answer that is given. -/
def given (L : ℕ) (H : Hash) : (q : Question) → Answer L q
  | .inl x => H x
  | .inr _ => fun _ => scalarOne

/-- The scalars of the generator. -/
def scalars {L : ℕ} (c : Fin L → Scalar) (j : ℕ) : Scalar := if h : j < L then c ⟨j, h⟩ else scalarOne

/-- The questions for which an answer was drawn, oldest first. -/
abbrev Log (L : ℕ) : Type := List (Question × Draw L)

/-- What was drawn for a question. -/
def Log.find {L : ℕ} (log : Log L) (q : Question) : Option (Draw L) := (log.find? fun e => e.1 = q).map (·.2)

/-- The hash function. -/
def Log.hash {L : ℕ} (H : Hash) (log : Log L) : Hash := fun x =>
  match log.find (.inl x) with
  | some d => d.1
  | none => H x

/-- The generator. -/
def Log.rng {L : ℕ} (log : Log L) : SeedRng := fun s =>
  match log.find (.inr s) with
  | some d => scalars d.2
  | none => fun _ => scalarOne

end BatchForger

/-- Somebody who asks questions, depending on the answers so far, and submits something. -/
inductive BatchForger (L : ℕ) (α : Type) where
  | submit (a : α)
  | ask (q : BatchForger.Question) (next : BatchForger.Answer L q → BatchForger L α)

namespace BatchForger

/-- One after the other. -/
def bind {L : ℕ} {α β : Type} : BatchForger L α → (α → BatchForger L β) → BatchForger L β
  | .submit a, f => f a
  | .ask q next, f => .ask q fun a => bind (next a) f

/-- A run: a question that was not asked before gets the next draw. -/
def run {L : ℕ} {α : Type} (H : Hash) (ω : ℕ → Draw L) : BatchForger L α → Log L → α × Log L
  | .submit a, log => (a, log)
  | .ask q next, log =>
    if Drawn q then
      match log.find q with
      | some d => run H ω (next (d.answer q)) log
      | none => run H ω (next ((ω log.length).answer q)) (log ++ [(q, ω log.length)])
    else run H ω (next (given L H q)) log

/-- At most `m` questions are asked whose answers are drawn, and what is submitted is as `post` says. -/
def AsksAtMost {L : ℕ} {α : Type} (post : α → Prop) : ℕ → BatchForger L α → Prop
  | _, .submit a => post a
  | m, .ask q next => if Drawn q then ∃ m', m = m' + 1 ∧ ∀ a, AsksAtMost post m' (next a) else ∀ a, AsksAtMost post m (next a)

/-- Ask for the hashes of several strings. -/
def askHashes {L : ℕ} {α : Type} : List Bytes → (List (Arr 32) → BatchForger L α) → BatchForger L α
  | [], next => next []
  | x :: xs, next => .ask (.inl x) fun h : Arr 32 => askHashes xs fun hs => next (h :: hs)

/-- What `verify_batch` asks for: the challenges, the seed and the scalars. -/
def check {L : ℕ} (items : List BatchItem) : BatchForger L (List BatchItem) :=
  askHashes (items.map (·.challengeInput)) fun hs =>
    .ask (.inl (Spec.batchString (hs.map reduceFrom) (items.map (·.scalar)))) fun seed : Arr 32 =>
      .ask (.inr seed) fun _ => .submit items

/-- A finite sequence of draws, continued somehow. -/
def draws {L m : ℕ} (ω : Fin m → Draw L) (i : ℕ) : Draw L := if h : i < m then ω ⟨i, h⟩ else (zeroSeed, fun _ => scalarOne)

/-- The batch that is submitted contains an invalid signature, and `verify_batch` accepts it. -/
def Fools {L m : ℕ} (H : Hash) (A : BatchForger L (List BatchItem)) (ω : Fin m → Draw L) : Prop :=
  let out := (A.bind check).run H (draws ω) []
  let O := out.2.hash H
  verifyBatch O out.2.rng (out.1.map (·.row O)) = .ok () ∧ ∃ x ∈ out.1, ¬ x.Valid O

/-- A signature of the empty message with the nonce `G` and a wrong scalar, for the key `G`. The challenge is `e`. -/
noncomputable def wrongItem (e : MaybeScalar) : BatchItem := .plain Gpt [] ⟨Gpt, e + 2⟩

/-- That signature, and an adaptor signature with the same adapted nonce, whose nonce is computed from the coefficient of its row. -/
noncomputable def adaptorBatch (e : MaybeScalar) (c : Fin 2 → Scalar) : List BatchItem :=
  let R := ((c 0).1⁻¹ - e) • G
  [wrongItem e, .adaptor Gpt [] ⟨R, 0⟩ (G - R)]

/-- With adaptor signatures it is easy. -/
noncomputable def adaptorForger : BatchForger 2 (List BatchItem) :=
  .ask (.inl (Spec.taggedInput "BIP0340/challenge" (Spec.xbytes G ++ Spec.xbytes G ++ []))) fun h : Arr 32 =>
    .ask (.inl (Spec.batchString [reduceFrom h, reduceFrom h] [reduceFrom h + 2, 0])) fun seed : Arr 32 =>
      .ask (.inr seed) fun c : Fin 2 → Scalar => .submit (adaptorBatch (reduceFrom h) c)

/-- The wrong signature twice. -/
noncomputable def twice : BatchForger 2 (List BatchItem) :=
  .ask (.inl (Spec.taggedInput "BIP0340/challenge" (Spec.xbytes G ++ Spec.xbytes G ++ []))) fun h : Arr 32 =>
    .submit [wrongItem (reduceFrom h), wrongItem (reduceFrom h)]

end BatchForger

end Verif
