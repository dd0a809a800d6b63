import Verif.Lemmas.Props.ManySigs
import Verif.Props.OneSigner

/-!
# Property C131: many signatures of groups beside those of single signers
-/

namespace Verif

open OneSigner CmaForger ManySigs

/-- **C131**. Whoever is given the hash function and any number `k` of signatures cannot tell whether groups made and completed
them as adaptor signatures, or for each group one signer with its aggregated secret key and a random nonce signed. The groups,
their tweaks, the messages, the adaptor secrets and the nonces of all members but one may be different in every session or the
same. Drawn are the nonces of one member in every session, and the answers for the nonce coefficients. -/
theorem C131_completed_signatures_like_single_signers (H : Hash) (hH : TagsAgree H) {k : ℕ} (ss : Fin k → Spec.GroupSession)
    (hs : ∀ i, (ss i).Fits H) (S : Set Bytes) [Finite S] (hS : ∀ i, (ss i).subject ∈ S) (D : Hash → (Fin k → Bytes) → Prop) :
    |(Spec.chance fun q : (AggNonce × S → Arr 32) × (Fin k → Scalar × Scalar) =>
        ∃ sigs : Fin k → LiftedSignature,
          (∀ i, Spec.GroupSignsAdapted (Spec.withAllCoefficients H S q.1) (ss i).ctx (ss i).sks
            ((ss i).before ++ ⟨(q.2 i).1, (q.2 i).2⟩ :: (ss i).after) (ss i).t (ss i).msg (sigs i)) ∧
          D (Spec.withAllCoefficients H S q.1) fun i => (sigs i).toBytes)
      - Spec.chance fun q : (AggNonce × S → Arr 32) × (Fin k → Scalar) =>
        D (Spec.withAllCoefficients H S q.1) fun i =>
          Spec.signWith (Spec.withAllCoefficients H S q.1) (ss i).d (q.2 i) (ss i).msg| ≤ k / 2 ^ 125 := by
  classical
  have : Nonempty (Arr 32) := ⟨zeroSeed⟩
  have : Nonempty Scalar := ⟨scalarOne⟩
  letI := Fintype.ofFinite (Arr 32)
  letI := Fintype.ofFinite Scalar
  letI := Fintype.ofFinite (AggNonce × S)
  let r : Fin k → MaybeScalar × MaybeScalar := fun i => total ((ss i).before ++ (ss i).after)
  let A : Fin k → Scalar × Scalar → AggNonce × S := fun i p => (place (r i) p, ⟨_, hS i⟩)
  have hA : ∀ i, Function.Injective (A i) := fun i p q h => place_injective (r i) (Prod.mk.inj h).1
  let v : Fin k → (AggNonce × S → Arr 32) → Scalar × Scalar → Option Scalar := fun i => nonce (A i) (r i) (ss i).t
  have hv := fun i => compare_nonce (hA i) (r i) (ss i).t
  let one : (AggNonce × S → Arr 32) → (Fin k → Scalar) → Prop := fun B c =>
    D (Spec.withAllCoefficients H S B) fun i => Spec.signWith (Spec.withAllCoefficients H S B) (ss i).d (c i) (ss i).msg
  let group : (AggNonce × S → Arr 32) → (Fin k → Scalar × Scalar) → Prop := fun B p =>
    ∃ sigs : Fin k → LiftedSignature,
      (∀ i, Spec.GroupSignsAdapted (Spec.withAllCoefficients H S B) (ss i).ctx (ss i).sks
        ((ss i).before ++ ⟨(p i).1, (p i).2⟩ :: (ss i).after) (ss i).t (ss i).msg (sigs i)) ∧
      D (Spec.withAllCoefficients H S B) fun i => (sigs i).toBytes
  have key : ∀ B p (c : Fin k → Scalar), (∀ i, v i B (p i) = some (c i)) → (group B p ↔ one B c) := by
    intro B p c h
    have hsess : ∀ i (P : Bytes → Prop), (∃ sig, Spec.GroupSignsAdapted (Spec.withAllCoefficients H S B) (ss i).ctx (ss i).sks
          ((ss i).before ++ ⟨(p i).1, (p i).2⟩ :: (ss i).after) (ss i).t (ss i).msg sig ∧ P sig.toBytes)
        ↔ P (Spec.signWith (Spec.withAllCoefficients H S B) (ss i).d (c i) (ss i).msg) := by
      intro i P
      obtain ⟨h1, h2⟩ := nonce_eq_some.1 (h i)
      rw [adapted_eq] at h1 h2
      have hct : value (r i) (p i) (B (A i (p i))) + (ss i).t ≠ 0 := by
        rw [h1]
        exact (c i).2
      have := session (withAll_tagsAgree H S B hH) (withAll_ctxInv H S B (hs i).reachable.inv) (hs i).keys (hs i).seckey
        (nonces := (ss i).before ++ ⟨(p i).1, (p i).2⟩ :: (ss i).after)
        (by have := (hs i).members; simp only [List.length_append, List.length_cons]; omega) (ss i).msg P
        (fun e => h2 (by rw [e, zero_add])) hct (by
          rw [show (ss i).ctx.pubkey = (ss i).ctx.aggregatedPubkey from rfl, withAll_nonceCoefficient H S B _ _ _ (hS i), sum_public,
            total_insert]
          rfl)
      rw [this, show (⟨_, hct⟩ : Scalar) = c i from Subtype.ext h1]
    constructor
    · rintro ⟨sigs, hg, hD⟩
      have e : (fun i => (sigs i).toBytes)
          = fun i => Spec.signWith (Spec.withAllCoefficients H S B) (ss i).d (c i) (ss i).msg := by
        funext i
        exact ((hsess i fun b => (sigs i).toBytes = b).1 ⟨sigs i, hg i, rfl⟩)
      rw [e] at hD
      exact hD
    · intro hD
      have he := fun i => (hsess i fun b => b = Spec.signWith (Spec.withAllCoefficients H S B) (ss i).d (c i) (ss i).msg).2 rfl
      choose sigs hg hb using he
      refine ⟨sigs, hg, ?_⟩
      rw [funext hb]
      exact hD
  have h1 := hybrid v hv fun B o => ∃ c : Fin k → Scalar, (∀ i, o i = some (c i)) ∧ one B c
  have h2 := hybrid v hv fun B o => ∀ c : Fin k → Scalar, (∀ i, o i = some (c i)) → one B c
  have e1 : ∀ (B) (c : Fin k → Scalar), (∃ c' : Fin k → Scalar, (∀ i, some (c i) = some (c' i)) ∧ one B c') ↔ one B c := by
    intro B c
    constructor
    · rintro ⟨c', h, h'⟩
      rwa [show c = c' from funext fun i => Option.some.inj (h i)]
    · intro h
      exact ⟨c, fun _ => rfl, h⟩
  have e2 : ∀ (B) (c : Fin k → Scalar), (∀ c' : Fin k → Scalar, (∀ i, some (c i) = some (c' i)) → one B c') ↔ one B c := by
    intro B c
    constructor
    · intro h
      exact h c fun _ => rfl
    · intro h c' hc
      rwa [← show c = c' from funext fun i => Option.some.inj (hc i)]
  simp only [e1] at h1
  simp only [e2] at h2
  rw [← chance_avg (fun B (c : Fin k → Scalar) => one B c)] at h1 h2
  rw [← chance_avg (fun B (p : Fin k → Scalar × Scalar) => ∃ c : Fin k → Scalar, (∀ i, v i B (p i) = some (c i)) ∧ one B c)] at h1
  rw [← chance_avg (fun B (p : Fin k → Scalar × Scalar) => ∀ c : Fin k → Scalar, (∀ i, v i B (p i) = some (c i)) → one B c)] at h2
  have b1 := chance_mono (E := fun q : (AggNonce × S → Arr 32) × (Fin k → Scalar × Scalar) =>
    ∃ c : Fin k → Scalar, (∀ i, v i q.1 (q.2 i) = some (c i)) ∧ one q.1 c) (F := fun q => group q.1 q.2)
    fun q ⟨c, hc, h⟩ => (key _ _ c hc).2 h
  have b2 := chance_mono (E := fun q : (AggNonce × S → Arr 32) × (Fin k → Scalar × Scalar) => group q.1 q.2)
    (F := fun q => ∀ c : Fin k → Scalar, (∀ i, v i q.1 (q.2 i) = some (c i)) → one q.1 c)
    fun q h c hc => (key _ _ c hc).1 h
  change |(Spec.chance fun q : (AggNonce × S → Arr 32) × (Fin k → Scalar × Scalar) => group q.1 q.2)
    - Spec.chance fun q : (AggNonce × S → Arr 32) × (Fin k → Scalar) => one q.1 q.2| ≤ _
  rw [div_eq_mul_one_div]
  generalize (k : ℚ) * (1 / 2 ^ 125) = ε at *
  rw [abs_le] at *
  constructor <;> linarith [h1.1, h2.2]

/-- **C131**. The same for groups that sign without an adaptor point. -/
theorem C131_signatures_like_single_signers (H : Hash) (hH : TagsAgree H) {k : ℕ} (ss : Fin k → Spec.GroupSession)
    (hs : ∀ i, (ss i).Fits H) (S : Set Bytes) [Finite S] (hS : ∀ i, (ss i).subject ∈ S) (D : Hash → (Fin k → Bytes) → Prop) :
    |(Spec.chance fun q : (AggNonce × S → Arr 32) × (Fin k → Scalar × Scalar) =>
        ∃ sigs : Fin k → LiftedSignature,
          (∀ i, Spec.GroupSigns (Spec.withAllCoefficients H S q.1) (ss i).ctx (ss i).sks
            ((ss i).before ++ ⟨(q.2 i).1, (q.2 i).2⟩ :: (ss i).after) (ss i).msg (sigs i)) ∧
          D (Spec.withAllCoefficients H S q.1) fun i => (sigs i).toBytes)
      - Spec.chance fun q : (AggNonce × S → Arr 32) × (Fin k → Scalar) =>
        D (Spec.withAllCoefficients H S q.1) fun i =>
          Spec.signWith (Spec.withAllCoefficients H S q.1) (ss i).d (q.2 i) (ss i).msg| ≤ k / 2 ^ 125 := by
  simp only [groupSigns_iff]
  exact C131_completed_signatures_like_single_signers H hH (fun i => { ss i with t := 0 })
    (fun i => ⟨(hs i).reachable, (hs i).keys, (hs i).seckey, (hs i).members⟩) S hS D

/-- **C131**. So it cannot be told which groups signed: any two series of sessions give the same view when the aggregated secret
keys and the messages are the same, one with adaptor signatures that are completed and the other without. -/
theorem C131_groups_sign_alike (H : Hash) (hH : TagsAgree H) {k : ℕ} (ss ss' : Fin k → Spec.GroupSession)
    (hs : ∀ i, (ss i).Fits H) (hs' : ∀ i, (ss' i).Fits H) (S : Set Bytes) [Finite S] (hS : ∀ i, (ss i).subject ∈ S)
    (hS' : ∀ i, (ss' i).subject ∈ S) (hd : ∀ i, (ss i).d = (ss' i).d) (hm : ∀ i, (ss i).msg = (ss' i).msg)
    (D : Hash → (Fin k → Bytes) → Prop) :
    |(Spec.chance fun q : (AggNonce × S → Arr 32) × (Fin k → Scalar × Scalar) =>
        ∃ sigs : Fin k → LiftedSignature,
          (∀ i, Spec.GroupSignsAdapted (Spec.withAllCoefficients H S q.1) (ss i).ctx (ss i).sks
            ((ss i).before ++ ⟨(q.2 i).1, (q.2 i).2⟩ :: (ss i).after) (ss i).t (ss i).msg (sigs i)) ∧
          D (Spec.withAllCoefficients H S q.1) fun i => (sigs i).toBytes)
      - Spec.chance fun q : (AggNonce × S → Arr 32) × (Fin k → Scalar × Scalar) =>
        ∃ sigs : Fin k → LiftedSignature,
          (∀ i, Spec.GroupSigns (Spec.withAllCoefficients H S q.1) (ss' i).ctx (ss' i).sks
            ((ss' i).before ++ ⟨(q.2 i).1, (q.2 i).2⟩ :: (ss' i).after) (ss' i).msg (sigs i)) ∧
          D (Spec.withAllCoefficients H S q.1) fun i => (sigs i).toBytes| ≤ k / 2 ^ 124 := by
  have h1 := C131_completed_signatures_like_single_signers H hH ss hs S hS D
  have h2 := C131_signatures_like_single_signers H hH ss' hs' S hS' D
  simp only [hd, hm] at h1 h2 ⊢
  rw [abs_sub_comm] at h2
  refine (abs_sub_le _ _ _).trans ((add_le_add h1 h2).trans (le_of_eq ?_))
  ring

/-- The sessions of the examples: the group of two signs any two messages, with adaptor secrets that differ. -/
def twoSessions (d : Scalar) (n : SecNonce) (msg msg' : Bytes) : Fin 2 → Spec.GroupSession :=
  ![⟨stubCtx, stubKeys, d, [n], [], 0, msg⟩, ⟨stubCtx, stubKeys, d, [], [n], 1, msg'⟩]

/-- The hypotheses can be met: a group of two signs two messages, or the same one twice. -/
example (n : SecNonce) (msg msg' : Bytes) : ∃ d : Scalar, TagsAgree stubHash ∧
    (∀ i, (twoSessions d n msg msg' i).Fits stubHash) ∧
    ∃ S : Set Bytes, Finite S ∧ ∀ i, (twoSessions d n msg msg' i).subject ∈ S := by
  obtain ⟨d, hd⟩ := C07_seckey_complete stubHash stubCtx (.new stubCtx_new) stubKeys rfl
  refine ⟨d, stubHash_tagsAgree, ?_, _, Set.finite_range fun i => (twoSessions d n msg msg' i).subject, fun i => ⟨i, rfl⟩⟩
  intro i
  fin_cases i
  · exact ⟨.new stubCtx_new, rfl, hd, rfl⟩
  · exact ⟨.new stubCtx_new, rfl, hd, rfl⟩

/-- The two chances are not both zero for every test: both messages are signed with a chance of at least `1 - 2 / 2 ^ 125`. -/
example (d : Scalar) (hd : stubCtx.aggregatedSeckey stubKeys = .ok d) (n : SecNonce) (msg msg' : Bytes) (S : Set Bytes) [Finite S]
    (hS : ∀ i, (twoSessions d n msg msg' i).subject ∈ S) :
    1 - 2 / 2 ^ 125 ≤ Spec.chance fun q : (AggNonce × S → Arr 32) × (Fin 2 → Scalar × Scalar) =>
      ∃ sigs : Fin 2 → LiftedSignature,
        (∀ i, Spec.GroupSignsAdapted (Spec.withAllCoefficients stubHash S q.1) (twoSessions d n msg msg' i).ctx
          (twoSessions d n msg msg' i).sks
          ((twoSessions d n msg msg' i).before ++ ⟨(q.2 i).1, (q.2 i).2⟩ :: (twoSessions d n msg msg' i).after)
          (twoSessions d n msg msg' i).t (twoSessions d n msg msg' i).msg (sigs i)) ∧ True := by
  have h := C131_completed_signatures_like_single_signers stubHash stubHash_tagsAgree (twoSessions d n msg msg') (by
    intro i
    fin_cases i
    · exact ⟨.new stubCtx_new, rfl, hd, rfl⟩
    · exact ⟨.new stubCtx_new, rfl, hd, rfl⟩) S hS fun _ _ => True
  have : Nonempty (Arr 32) := ⟨zeroSeed⟩
  have : Nonempty Scalar := ⟨scalarOne⟩
  rw [Decision.chance_true (Ω := (AggNonce × S → Arr 32) × (Fin 2 → Scalar)) fun _ => trivial, Nat.cast_ofNat] at h
  linarith [(abs_le.1 h).1]

end Verif
