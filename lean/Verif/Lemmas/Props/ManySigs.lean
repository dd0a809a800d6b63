import Verif.Spec.ManySigs
import Verif.Lemmas.Lazy
import Verif.Lemmas.Props.OneSigner

/-!
# Helpers of `Props/ManySigs`
-/

namespace Verif.ManySigs

open Verif.CmaForger Verif.OneSigner Verif.Asker

/-! ## The hash functions -/

theorem subjectQuery_inj {an an' : AggNonce} {x x' : Bytes} (h : Spec.subjectQuery an x = Spec.subjectQuery an' x') :
    an = an' ∧ x = x' := by
  unfold Spec.subjectQuery at h
  have h := taggedInput_injective h
  rw [spec_cbytes_ext, spec_cbytes_ext, spec_cbytes_ext, spec_cbytes_ext, List.append_assoc, List.append_assoc] at h
  obtain ⟨h1, h2⟩ := append_inj_len h (by rw [(serPoint _).2, (serPoint _).2])
  obtain ⟨h2, h3⟩ := append_inj_len h2 (by rw [(serPoint _).2, (serPoint _).2])
  have e1 := serPoint_injective (Subtype.ext h1)
  have e2 := serPoint_injective (Subtype.ext h2)
  refine ⟨?_, h3⟩
  cases an; cases an'
  simp only at e1 e2
  rw [e1, e2]

theorem noncecoefQuery_eq (an : AggNonce) (Q : Point) (msg : Bytes) :
    Spec.noncecoefQuery an Q msg = Spec.subjectQuery an (Spec.xbytes Q.1 ++ msg) := by
  unfold Spec.noncecoefQuery Spec.subjectQuery
  rw [← List.append_assoc]

section

variable (H : Hash) (S : Set Bytes) (B : AggNonce × S → Arr 32)

theorem withAll_query (p : AggNonce × S) : Spec.withAllCoefficients H S B (Spec.subjectQuery p.1 p.2) = B p := by
  have h : ∃ q : AggNonce × S, Spec.subjectQuery p.1 p.2 = Spec.subjectQuery q.1 q.2 := ⟨p, rfl⟩
  unfold Spec.withAllCoefficients
  rw [dif_pos h]
  obtain ⟨h1, h2⟩ := subjectQuery_inj h.choose_spec
  exact congrArg B (Prod.ext h1 (Subtype.ext h2)).symm

theorem withAll_of_not {x : Bytes} (hx : ¬ Asking.DrawnNonce x) : Spec.withAllCoefficients H S B x = H x := by
  unfold Spec.withAllCoefficients
  rw [dif_neg]
  rintro ⟨p, rfl⟩
  exact hx (tag_prefix _ _)

theorem withAll_nonceCoefficient (an : AggNonce) (Q : Point) (msg : Bytes) (hm : Spec.xbytes Q.1 ++ msg ∈ S) :
    an.nonceCoefficient (Spec.withAllCoefficients H S B) Q msg = reduceFrom (B (an, ⟨_, hm⟩)) := by
  rw [(C66_what_is_hashed _).2.2.1]
  refine congrArg reduceFrom (Eq.trans ?_ (withAll_query H S B (an, ⟨_, hm⟩)))
  rw [← noncecoefQuery_eq]
  rfl

theorem withAll_ctxInv {ctx : KeyAggContext} (hi : CtxInv H ctx) : CtxInv (Spec.withAllCoefficients H S B) ctx :=
  SessionForger.ctxInv_congr (fun _ _ hx => withAll_of_not H S B hx) hi

theorem subjectQuery_length (an : AggNonce) (x : Bytes) : 64 ≤ (Spec.subjectQuery an x).length := by
  unfold Spec.subjectQuery
  rw [taggedInput_eq (D := MUSIG_NONCECOEF_TAG_DIGEST) (by simp [tagTable])]
  simp only [List.length_append]
  have : MUSIG_NONCECOEF_TAG_DIGEST.length = 32 := rfl
  omega

theorem withAll_tagsAgree (hH : TagsAgree H) : TagsAgree (Spec.withAllCoefficients H S B) := by
  have key : ∀ t : Bytes, t.length < 64 → Spec.withAllCoefficients H S B t = H t := by
    intro t ht
    unfold Spec.withAllCoefficients
    rw [dif_neg]
    rintro ⟨p, rfl⟩
    have := subjectQuery_length p.1 p.2
    omega
  constructor <;> rw [key _ (by decide +kernel)]
  exacts [hH.keyAggList, hH.keyAggCoeff, hH.musigAux, hH.musigNonce, hH.musigNoncecoef, hH.bip340Aux, hH.bip340Nonce,
    hH.bip340Challenge, hH.bip340Batch, hH.tapTweak]

end

/-! ## One session after the other -/

open Classical in
/-- Whether the event happens, as a number. -/
noncomputable def ind (p : Prop) : ℚ := if p then 1 else 0

theorem chance_avg {α β : Type} [Fintype α] [Fintype β] (E : α → β → Prop) :
    (Spec.chance fun q : α × β => E q.1 q.2) = avg fun a => avg fun b => ind (E a b) := by
  rw [← avg_prod, chance_eq_sum]
  rfl

theorem avg_cons {α : Type} [Fintype α] {k : ℕ} (f : (Fin (k + 1) → α) → ℚ) :
    avg f = avg fun a : α => avg fun w : Fin k → α => f (Fin.cons a w) := by
  rw [← avg_prod (fun (a : α) (w : Fin k → α) => f (Fin.cons a w))]
  exact (avg_bij (f := f) (Fin.consEquiv fun _ => α).bijective).symm

/-- Every session replaced in turn. -/
theorem hybrid {Ω P K : Type} [Fintype Ω] [Fintype P] [Fintype K] [Nonempty P] [Nonempty K] {ε : ℚ} {k : ℕ}
    (v : Fin k → Ω → P → Option K)
    (hv : ∀ i (S : Ω → Option K → Prop),
      |(avg fun B => avg fun p => ind (S B (v i B p))) - avg fun B => avg fun c => ind (S B (some c))| ≤ ε)
    (D : Ω → (Fin k → Option K) → Prop) :
    |(avg fun B => avg fun w : Fin k → P => ind (D B fun i => v i B (w i)))
      - avg fun B => avg fun c : Fin k → K => ind (D B fun i => some (c i))| ≤ k * ε := by
  induction k with
  | zero =>
    have e : ∀ B, (avg fun w : Fin 0 → P => ind (D B fun i => v i B (w i)))
        = avg fun c : Fin 0 → K => ind (D B fun i => some (c i)) := by
      intro B
      have h1 : ∀ w : Fin 0 → P, (fun i => v i B (w i)) = Fin.elim0 := fun w => funext fun i => i.elim0
      have h2 : ∀ c : Fin 0 → K, (fun i => some (c i)) = (Fin.elim0 : Fin 0 → Option K) := fun w => funext fun i => i.elim0
      simp only [h1, h2, avg_const]
    simp [e]
  | succ k ih =>
    have h1 : ∀ p : P, |(avg fun B => avg fun w : Fin k → P => ind (D B (Fin.cons (v 0 B p) fun i => v i.succ B (w i))))
        - avg fun B => avg fun c : Fin k → K => ind (D B (Fin.cons (v 0 B p) fun i => some (c i)))| ≤ k * ε := fun p =>
      ih (fun i => v i.succ) (fun i => hv i.succ) fun B o => D B (Fin.cons (v 0 B p) o)
    have h2 : ∀ c : Fin k → K, |(avg fun B => avg fun p => ind (D B (Fin.cons (v 0 B p) fun i => some (c i))))
        - avg fun B => avg fun a => ind (D B (Fin.cons (some a) fun i => some (c i)))| ≤ ε := fun c =>
      hv 0 fun B o => D B (Fin.cons o fun i => some (c i))
    have e1 : (avg fun B => avg fun w : Fin (k + 1) → P => ind (D B fun i => v i B (w i)))
        = avg fun p : P => avg fun B => avg fun w : Fin k → P =>
          ind (D B (Fin.cons (v 0 B p) fun i => v i.succ B (w i))) := by
      refine Eq.trans ?_ (avg_comm _)
      refine congrArg avg (funext fun B => ?_)
      rw [avg_cons]
      refine congrArg avg (funext fun p => congrArg avg (funext fun w => ?_))
      congr 2
      funext i
      refine Fin.cases ?_ (fun i => ?_) i <;> rfl
    have e2 : (avg fun B => avg fun c : Fin (k + 1) → K => ind (D B fun i => some (c i)))
        = avg fun c : Fin k → K => avg fun B => avg fun a => ind (D B (Fin.cons (some a) fun i => some (c i))) := by
      refine Eq.trans ?_ (avg_comm _)
      refine congrArg avg (funext fun B => ?_)
      rw [avg_cons, avg_comm]
      refine congrArg avg (funext fun p => congrArg avg (funext fun w => ?_))
      congr 2
      funext i
      refine Fin.cases ?_ (fun i => ?_) i <;> rfl
    have e3 : (avg fun p : P => avg fun B => avg fun c : Fin k → K => ind (D B (Fin.cons (v 0 B p) fun i => some (c i))))
        = avg fun c : Fin k → K => avg fun B => avg fun p : P => ind (D B (Fin.cons (v 0 B p) fun i => some (c i))) := by
      refine Eq.trans (avg_comm _) (Eq.trans ?_ (avg_comm _))
      refine congrArg avg (funext fun B => ?_)
      exact avg_comm _
    rw [e1, e2]
    have t1 := (abs_avg_sub _ _).trans (avg_le h1)
    have t2 := (abs_avg_sub _ _).trans (avg_le h2)
    rw [e3] at t1
    refine (abs_sub_le _ _ _).trans ((add_le_add t1 t2).trans (le_of_eq ?_))
    push_cast
    ring

/-! ## The session nonces -/

section

variable {ι : Type}

open Classical in
/-- The session nonce with the adaptor secret, unless one is zero. -/
noncomputable def nonce (A : Scalar × Scalar → ι) (r : MaybeScalar × MaybeScalar) (t : MaybeScalar) (B : ι → Arr 32)
    (p : Scalar × Scalar) : Option Scalar :=
  if h : adapted A r t B p ≠ 0 ∧ adapted A r t B p ≠ t then some ⟨_, h.1⟩ else none

theorem nonce_eq_some {A : Scalar × Scalar → ι} {r : MaybeScalar × MaybeScalar} {t : MaybeScalar} {B : ι → Arr 32}
    {p : Scalar × Scalar} {c : Scalar} :
    nonce A r t B p = some c ↔ adapted A r t B p = c.1 ∧ adapted A r t B p ≠ t := by
  unfold nonce
  constructor
  · intro h
    split at h
    · next hh =>
      cases h
      exact ⟨rfl, hh.2⟩
    · cases h
  · rintro ⟨h1, h2⟩
    rw [dif_pos ⟨by rw [h1]; exact c.2, h2⟩]
    exact congrArg some (Subtype.ext h1)

theorem compare_nonce [Fintype ι] [DecidableEq ι] [Fintype (Arr 32)] [Fintype Scalar] {A : Scalar × Scalar → ι}
    (hA : Function.Injective A) (r : MaybeScalar × MaybeScalar)
    (t : MaybeScalar) (S : (ι → Arr 32) → Option Scalar → Prop) :
    |(avg fun B => avg fun p => ind (S B (nonce A r t B p))) - avg fun B => avg fun c => ind (S B (some c))| ≤ 1 / 2 ^ 125 := by
  have := compare hA r t (fun q => S q.1 (nonce A r t q.1 q.2)) (fun B c => S B (some c)) (by
    intro q hc ht
    rw [(nonce_eq_some (c := ⟨_, hc⟩)).2 ⟨rfl, ht⟩])
  rwa [chance_avg (fun B p => S B (nonce A r t B p)), chance_avg (fun B c => S B (some c))] at this

end

end Verif.ManySigs
