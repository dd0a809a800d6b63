import Mathlib.Data.List.Basic
import Verif.Lemmas.Spec
import Verif.Model.KeyAgg

/-!
# Facts about key aggregation contexts
-/

namespace Verif

/-! ## The index map -/

theorem HashMap.fromIter_eq_aux {κ ν : Type} (l : List (κ × ν)) (m : HashMap κ ν) :
    l.foldl (fun m kv => HashMap.insert m kv.1 kv.2) m = l.reverse ++ m := by
  induction l generalizing m with
  | nil => rfl
  | cons a l ih => rw [List.foldl_cons, ih]; simp [HashMap.insert]

theorem HashMap.fromIter_eq {κ ν : Type} (l : List (κ × ν)) : HashMap.fromIter l = l.reverse := by
  unfold HashMap.fromIter
  rw [HashMap.fromIter_eq_aux, List.append_nil]

/-- The index map built by `new`. -/
def indexMap (keys : List Point) : HashMap Point ℕ :=
  HashMap.fromIter (keys.zipIdx.map fun pi => (pi.1, pi.2))

theorem indexMap_append (keys : List Point) (P Q : Point) :
    HashMap.get? (indexMap (keys ++ [Q])) P
      = if Q = P then some keys.length else HashMap.get? (indexMap keys) P := by
  unfold indexMap
  rw [HashMap.fromIter_eq, HashMap.fromIter_eq]
  simp only [List.zipIdx_append, List.map_append, List.reverse_append, List.zipIdx_singleton, List.map_cons,
    List.map_nil, List.reverse_singleton, List.singleton_append]
  unfold HashMap.get?
  rw [List.find?_cons]
  by_cases h : Q = P
  · simp [h]
  · simp [h]

/-- The map gives the last position of a key. -/
theorem indexMap_get (keys : List Point) (P : Point) :
    (∀ i, HashMap.get? (indexMap keys) P = some i ↔ keys[i]? = some P ∧ ∀ j, i < j → keys[j]? ≠ some P) ∧
    (HashMap.get? (indexMap keys) P = none ↔ P ∉ keys) := by
  induction keys using List.reverseRecOn with
  | nil =>
    refine ⟨fun i => ?_, ?_⟩
    · simp [indexMap, HashMap.fromIter, HashMap.get?]
    · simp [indexMap, HashMap.fromIter, HashMap.get?]
  | append_singleton keys Q ih =>
    rw [indexMap_append]
    obtain ⟨ih1, ih2⟩ := ih
    by_cases h : Q = P
    · subst h
      simp only [if_true, Option.some.injEq]
      refine ⟨fun i => ⟨?_, ?_⟩, by simp⟩
      · rintro rfl
        refine ⟨by simp, fun j hj => ?_⟩
        rw [List.getElem?_eq_none (by simp; omega)]
        simp
      · rintro ⟨h1, h2⟩
        have hi : i < (keys ++ [Q]).length := by
          by_contra hc
          rw [List.getElem?_eq_none (by omega)] at h1
          cases h1
        rw [List.length_append, List.length_singleton] at hi
        by_contra hc
        exact h2 keys.length (by omega) (by simp)
    · rw [if_neg h]
      refine ⟨fun i => ?_, ?_⟩
      · rw [ih1]
        constructor
        · rintro ⟨h1, h2⟩
          have hi : i < keys.length := by
            by_contra hc
            rw [List.getElem?_eq_none (by omega)] at h1
            cases h1
          refine ⟨by rw [List.getElem?_append_left hi]; exact h1, fun j hj => ?_⟩
          by_cases hj' : j < keys.length
          · rw [List.getElem?_append_left hj']; exact h2 j hj
          · by_cases hj'' : j = keys.length
            · subst hj''; simpa using h
            · rw [List.getElem?_eq_none (by simp; omega)]; simp
        · rintro ⟨h1, h2⟩
          have hi : i < keys.length := by
            by_contra hc
            by_cases hj'' : i = keys.length
            · subst hj''; simp at h1; exact h h1
            · rw [List.getElem?_eq_none (by simp; omega)] at h1; cases h1
          rw [List.getElem?_append_left hi] at h1
          refine ⟨h1, fun j hj => ?_⟩
          by_cases hj' : j < keys.length
          · rw [← List.getElem?_append_left (l₂ := [Q]) hj']; exact h2 j hj
          · rw [List.getElem?_eq_none (by omega)]; simp
      · rw [ih2]
        simp only [List.mem_append, List.mem_singleton, not_or]
        exact ⟨fun h' => ⟨h', fun h'' => h h''.symm⟩, fun h' => h'.1⟩

/-! ## Coefficients -/

/-- The second key of the code (key_agg.rs:101-103). -/
def secondKey (keys : List Point) : Option Point :=
  match keys with
  | [] => none
  | first :: rest => rest.find? (fun pubkey => pubkey ≠ first)

/-- The coefficient of a key. -/
def coeffOf (H : Hash) (keys : List Point) (P : Point) : MaybeScalar :=
  computeKeyAggregationCoefficient H (hashPubkeys H keys) P (secondKey keys)

/-- The sum of the effective keys. -/
def keySum (H : Hash) (keys : List Point) : MaybePoint :=
  (keys.map fun P => coeffOf H keys P • P.1).sum

/-- The context `new` builds. -/
def baseCtx (H : Hash) (keys : List Point) (Q : Point) : KeyAggContext where
  pubkey := Q
  orderedPubkeys := keys
  pubkeyIndexes := indexMap keys
  keyCoefficients := keys.map (coeffOf H keys)
  effectivePubkeys := keys.map fun P => coeffOf H keys P • P.1
  parityAcc := false
  tweakAcc := 0

theorem new_eq (H : Hash) (keys : List Point) :
    KeyAggContext.new H keys
      = if keys = [] ∨ u32Max < keys.length then .panic
        else match notInf (keySum H keys) with
          | none => .err .keyAggError
          | some Q => .ok (baseCtx H keys Q) := by
  unfold KeyAggContext.new
  cases keys with
  | nil => simp
  | cons first rest =>
    by_cases hl : u32Max < (first :: rest).length
    · rw [if_pos (Or.inr hl)]
      have : decide ((first :: rest).length ≤ u32Max) = false := by simpa using hl
      rw [this]; rfl
    · rw [if_neg (by simp only [reduceCtorEq, false_or]; exact hl)]
      have : decide ((first :: rest).length ≤ u32Max) = true := by simpa using hl
      rw [this]
      simp only [List.isEmpty_cons, Bool.not_false, Res.assert_true, Res.bind_ok, index, List.getElem?_cons_zero,
        Res.unwrap_some, List.drop_succ_cons, List.drop_zero, List.map_map]
      cases hq : notInf (keySum H (first :: rest)) with
      | none =>
        have hs : notInf ((first :: rest).map ((fun x => x.1) ∘ fun pubkey =>
          (computeKeyAggregationCoefficient H (hashPubkeys H (first :: rest)) pubkey
            (rest.find? fun pubkey => decide (pubkey ≠ first)) • pubkey.1,
            computeKeyAggregationCoefficient H (hashPubkeys H (first :: rest)) pubkey
            (rest.find? fun pubkey => decide (pubkey ≠ first))))).sum = none := hq
        rw [hs]; rfl
      | some Q =>
        have hs : notInf ((first :: rest).map ((fun x => x.1) ∘ fun pubkey =>
          (computeKeyAggregationCoefficient H (hashPubkeys H (first :: rest)) pubkey
            (rest.find? fun pubkey => decide (pubkey ≠ first)) • pubkey.1,
            computeKeyAggregationCoefficient H (hashPubkeys H (first :: rest)) pubkey
            (rest.find? fun pubkey => decide (pubkey ≠ first))))).sum = some Q := hq
        rw [hs]; rfl

theorem new_eq_ok {H : Hash} {keys : List Point} {ctx : KeyAggContext} :
    KeyAggContext.new H keys = .ok ctx ↔
      keys ≠ [] ∧ keys.length ≤ u32Max ∧ ∃ Q : Point, keySum H keys = Q.1 ∧ ctx = baseCtx H keys Q := by
  rw [new_eq]
  constructor
  · intro h
    split at h
    · cases h
    rename_i hc
    rw [not_or] at hc
    split at h
    · cases h
    rename_i Q hQ
    simp only [Res.ok.injEq] at h
    exact ⟨hc.1, by omega, Q, notInf_eq_some.1 hQ, h.symm⟩
  · rintro ⟨h1, h2, Q, hQ, rfl⟩
    rw [if_neg (by rw [not_or]; exact ⟨h1, by omega⟩), notInf_eq_some.2 hQ]

/-! ## The invariant of contexts -/

/-- What holds of every context that the API can produce. -/
structure CtxInv (H : Hash) (ctx : KeyAggContext) : Prop where
  nonempty : ctx.orderedPubkeys ≠ []
  length_le : ctx.orderedPubkeys.length ≤ u32Max
  indexes : ctx.pubkeyIndexes = indexMap ctx.orderedPubkeys
  coeffs : ctx.keyCoefficients = ctx.orderedPubkeys.map (coeffOf H ctx.orderedPubkeys)
  eff : ctx.effectivePubkeys
    = ctx.orderedPubkeys.map fun P => coeffOf H ctx.orderedPubkeys P • P.1
  sum_ne : keySum H ctx.orderedPubkeys ≠ 0
  pub : ctx.pubkey.1 = negIf ctx.parityAcc (keySum H ctx.orderedPubkeys) + ctx.tweakAcc • G

theorem CtxInv.base {H : Hash} {keys : List Point} {Q : Point} (h1 : keys ≠ []) (h2 : keys.length ≤ u32Max)
    (hQ : keySum H keys = Q.1) : CtxInv H (baseCtx H keys Q) where
  nonempty := h1
  length_le := h2
  indexes := rfl
  coeffs := rfl
  eff := rfl
  sum_ne := by
    change keySum H keys ≠ 0
    rw [hQ]; exact Q.2
  pub := by
    change Q.1 = negIf false (keySum H keys) + (0 : MaybeScalar) • G
    rw [zero_smul, add_zero, negIf_false, hQ]

theorem CtxInv.of_new {H : Hash} {keys : List Point} {ctx : KeyAggContext}
    (h : KeyAggContext.new H keys = .ok ctx) : CtxInv H ctx := by
  obtain ⟨h1, h2, Q, hQ, rfl⟩ := new_eq_ok.1 h
  exact CtxInv.base h1 h2 hQ

theorem withPlainTweak_eq_ok {ctx ctx' : KeyAggContext} {t : Scalar} :
    ctx.withPlainTweak t = .ok ctx' ↔ ∃ Q : Point, ctx.pubkey.1 + t.1 • G = Q.1 ∧
      ctx' = { ctx with pubkey := Q, tweakAcc := ctx.tweakAcc + t.1 } := by
  unfold KeyAggContext.withPlainTweak
  rw [Res.bind_eq_ok]
  simp only [Res.okOr_eq_ok, notInf_eq_some, Res.pure_def, Res.ok.injEq]
  constructor
  · rintro ⟨Q, h, rfl⟩; exact ⟨Q, h, rfl⟩
  · rintro ⟨Q, h, rfl⟩; exact ⟨Q, h, rfl⟩

/-- The two x-only branches together. -/
theorem withXonlyTweak_eq_ok {ctx ctx' : KeyAggContext} {t : Scalar} :
    ctx.withXonlyTweak t = .ok ctx' ↔ ∃ Q : Point,
      negIf (isOdd ctx.pubkey.1) ctx.pubkey.1 + t.1 • G = Q.1 ∧
      ctx' = { ctx with pubkey := Q, parityAcc := isOdd ctx.pubkey.1 ^^ ctx.parityAcc,
                        tweakAcc := negIf (isOdd ctx.pubkey.1) ctx.tweakAcc + t.1 } := by
  unfold KeyAggContext.withXonlyTweak
  cases h : isOdd ctx.pubkey.1
  · simp only [Bool.not_false, if_true, negIf_false, Bool.false_xor]
    exact withPlainTweak_eq_ok
  · simp only [Bool.not_true, Bool.false_eq_true, if_false, negIf_true, Bool.true_xor]
    rw [Res.bind_eq_ok]
    simp only [Res.okOr_eq_ok, notInf_eq_some, Res.pure_def, Res.ok.injEq]
    constructor
    · rintro ⟨Q, h, rfl⟩
      exact ⟨Q, by rw [← h]; abel, by rw [show t.1 - ctx.tweakAcc = -ctx.tweakAcc + t.1 by ring]⟩
    · rintro ⟨Q, h, rfl⟩
      exact ⟨Q, by rw [← h]; abel, by rw [show t.1 - ctx.tweakAcc = -ctx.tweakAcc + t.1 by ring]⟩

/-- One tweak, both kinds: the fold step of the specification. -/
theorem withTweak_eq_ok {ctx ctx' : KeyAggContext} {t : Scalar} {x : Bool} :
    ctx.withTweak t x = .ok ctx' ↔ ∃ Q : Point,
      negIf (x && isOdd ctx.pubkey.1) ctx.pubkey.1 + t.1 • G = Q.1 ∧
      ctx' = { ctx with pubkey := Q, parityAcc := (x && isOdd ctx.pubkey.1) ^^ ctx.parityAcc,
                        tweakAcc := negIf (x && isOdd ctx.pubkey.1) ctx.tweakAcc + t.1 } := by
  unfold KeyAggContext.withTweak
  cases x
  · simp only [Bool.false_eq_true, if_false, Bool.false_and, negIf_false, Bool.false_xor]
    exact withPlainTweak_eq_ok
  · simp only [if_true, Bool.true_and]
    exact withXonlyTweak_eq_ok

theorem withTweak_ne_panic (ctx : KeyAggContext) (t : Scalar) (x : Bool) : ctx.withTweak t x ≠ .panic := by
  unfold KeyAggContext.withTweak KeyAggContext.withXonlyTweak KeyAggContext.withPlainTweak
  cases x <;> cases isOdd ctx.pubkey.1 <;>
    simp [Res.bind_eq_panic, Res.okOr_ne_panic]

theorem withTweak_eq_err {ctx : KeyAggContext} {t : Scalar} {x : Bool} {e : TweakError} :
    ctx.withTweak t x = .err e ↔ negIf (x && isOdd ctx.pubkey.1) ctx.pubkey.1 + t.1 • G = 0 := by
  have hp := withTweak_ne_panic ctx t x
  constructor
  · intro h
    by_contra hc
    have := (withTweak_eq_ok (ctx := ctx) (t := t) (x := x)).2 ⟨⟨_, hc⟩, rfl, rfl⟩
    rw [this] at h
    cases h
  · intro h
    cases hr : ctx.withTweak t x with
    | ok c =>
      obtain ⟨Q, hQ, -⟩ := withTweak_eq_ok.1 hr
      exact absurd (hQ.symm.trans h) Q.2
    | err e' => cases e; cases e'; rfl
    | panic => exact absurd hr hp

theorem CtxInv.tweakStep {H : Hash} {ctx : KeyAggContext} (h : CtxInv H ctx) {b : Bool} {t : MaybeScalar} {Q : Point}
    (hQ : negIf b ctx.pubkey.1 + t • G = Q.1) :
    CtxInv H { ctx with pubkey := Q, parityAcc := b ^^ ctx.parityAcc, tweakAcc := negIf b ctx.tweakAcc + t } where
  nonempty := h.nonempty
  length_le := h.length_le
  indexes := h.indexes
  coeffs := h.coeffs
  eff := h.eff
  sum_ne := h.sum_ne
  pub := by
    change Q.1 = negIf (b ^^ ctx.parityAcc) (keySum H ctx.orderedPubkeys) + (negIf b ctx.tweakAcc + t) • G
    rw [← hQ, h.pub, negIf_add, negIf_negIf, negIf_smul, add_smul, add_assoc]

theorem CtxInv.of_withTweak {H : Hash} {ctx ctx' : KeyAggContext} (h : CtxInv H ctx) {t : Scalar} {x : Bool}
    (ht : ctx.withTweak t x = .ok ctx') : CtxInv H ctx' := by
  obtain ⟨Q, hQ, rfl⟩ := withTweak_eq_ok.1 ht
  exact h.tweakStep hQ

theorem withTweaks_cons_eq_ok {ctx ctx' : KeyAggContext} {t : Scalar} {x : Bool} {ts : List (Scalar × Bool)} :
    ctx.withTweaks ((t, x) :: ts) = .ok ctx' ↔ ∃ c, ctx.withTweak t x = .ok c ∧ c.withTweaks ts = .ok ctx' := by
  rw [KeyAggContext.withTweaks, Res.bind_eq_ok]

theorem CtxInv.of_withTweaks {H : Hash} {ts : List (Scalar × Bool)} {ctx ctx' : KeyAggContext} (h : CtxInv H ctx)
    (ht : ctx.withTweaks ts = .ok ctx') : CtxInv H ctx' := by
  induction ts generalizing ctx with
  | nil =>
    simp only [KeyAggContext.withTweaks, Res.ok.injEq] at ht
    subst ht; exact h
  | cons t ts ih =>
    obtain ⟨t, x⟩ := t
    obtain ⟨c, hc, ht⟩ := withTweaks_cons_eq_ok.1 ht
    exact ih (h.of_withTweak hc) ht

theorem CtxInv.of_taproot {H : Hash} {ctx ctx' : KeyAggContext} (h : CtxInv H ctx) {root : Bytes}
    (ht : ctx.withTaprootTweakInternal H root = .ok ctx') : CtxInv H ctx' := by
  unfold KeyAggContext.withTaprootTweakInternal at ht
  obtain ⟨t, -, ht⟩ := Res.bind_eq_ok.1 ht
  obtain ⟨Q, hQ, rfl⟩ := withXonlyTweak_eq_ok.1 ht
  exact h.tweakStep hQ

/-! ## Lookups in a context -/

section
variable {H : Hash} {ctx : KeyAggContext} (h : CtxInv H ctx)
include h

theorem CtxInv.pubkeyIndex_eq_some {P : Point} {i : ℕ} :
    ctx.pubkeyIndex P = some i ↔
      ctx.orderedPubkeys[i]? = some P ∧ ∀ j, i < j → ctx.orderedPubkeys[j]? ≠ some P := by
  unfold KeyAggContext.pubkeyIndex
  rw [h.indexes]
  exact (indexMap_get _ _).1 i

theorem CtxInv.pubkeyIndex_eq_none {P : Point} : ctx.pubkeyIndex P = none ↔ P ∉ ctx.orderedPubkeys := by
  unfold KeyAggContext.pubkeyIndex
  rw [h.indexes]
  exact (indexMap_get _ _).2

theorem CtxInv.keyCoefficient_eq {ε : Type} (P : Point) :
    (ctx.keyCoefficient P : Res ε _)
      = .ok (if P ∈ ctx.orderedPubkeys then some (coeffOf H ctx.orderedPubkeys P) else none) := by
  unfold KeyAggContext.keyCoefficient
  cases hi : ctx.pubkeyIndex P with
  | none =>
    rw [h.pubkeyIndex_eq_none] at hi
    simp [hi]
  | some i =>
    have hi' := (h.pubkeyIndex_eq_some.1 hi).1
    have hm : P ∈ ctx.orderedPubkeys := List.mem_of_getElem? hi'
    simp only [index, h.coeffs, List.getElem?_map, hi', Option.map_some, Res.unwrap_some, Res.bind_ok, Res.pure_def,
      if_pos hm]

theorem CtxInv.effectivePubkey_eq {ε : Type} (P : Point) :
    (ctx.effectivePubkey P : Res ε _)
      = .ok (if P ∈ ctx.orderedPubkeys then some (coeffOf H ctx.orderedPubkeys P • P.1) else none) := by
  unfold KeyAggContext.effectivePubkey
  cases hi : ctx.pubkeyIndex P with
  | none =>
    rw [h.pubkeyIndex_eq_none] at hi
    simp [hi]
  | some i =>
    have hi' := (h.pubkeyIndex_eq_some.1 hi).1
    have hm : P ∈ ctx.orderedPubkeys := List.mem_of_getElem? hi'
    simp only [index, h.eff, List.getElem?_map, hi', Option.map_some, Res.unwrap_some, Res.bind_ok, Res.pure_def,
      if_pos hm]

end

/-! ## The specification on serialized keys -/

/-- The serialized keys. -/
def keyBytes (keys : List Point) : List Bytes := keys.map fun P => Spec.cbytes P.1

theorem keyBytes_eq (keys : List Point) : keyBytes keys = keys.map fun P => (serPoint P.1).1 := by
  unfold keyBytes
  exact List.map_congr_left fun P _ => spec_cbytes_point P

theorem serPoint_point_inj {P Q : Point} : (serPoint P.1).1 = (serPoint Q.1).1 ↔ P = Q := by
  constructor
  · intro h
    exact Subtype.ext (serPoint_injective (Subtype.ext h))
  · rintro rfl; rfl

theorem mem_keyBytes {keys : List Point} {P : Point} : (serPoint P.1).1 ∈ keyBytes keys ↔ P ∈ keys := by
  rw [keyBytes_eq, List.mem_map]
  constructor
  · rintro ⟨Q, hQ, h⟩
    rw [serPoint_point_inj] at h
    exact h ▸ hQ
  · intro h; exact ⟨P, h, rfl⟩

theorem serPoint_ne_zeros (P : Point) : (serPoint P.1).1 ≠ List.replicate 33 0 := by
  rw [← serPoint_zero]
  intro h
  exact P.2 (serPoint_injective (Subtype.ext h))

theorem spec_get_second_key (keys : List Point) :
    Spec.get_second_key (keyBytes keys)
      = match secondKey keys with
        | none => List.replicate 33 0
        | some P => (serPoint P.1).1 := by
  rw [keyBytes_eq]
  cases keys with
  | nil => rfl
  | cons first rest =>
    simp only [List.map_cons, Spec.get_second_key, secondKey]
    rw [List.find?_map]
    have hp : ((fun pk : Bytes => decide (pk ≠ (serPoint first.1).1)) ∘ fun P : Point => (serPoint P.1).1)
        = fun P : Point => decide (P ≠ first) := by
      funext P
      simp only [Function.comp, serPoint_point_inj, ne_eq]
    rw [hp]
    cases List.find? (fun P => decide (P ≠ first)) rest <;> rfl

theorem spec_key_agg_coeff {H : Hash} (hH : TagsAgree H) (keys : List Point) (P : Point) :
    Spec.key_agg_coeff H (keyBytes keys) (serPoint P.1).1 = (coeffOf H keys P).val := by
  unfold Spec.key_agg_coeff Spec.key_agg_coeff_internal coeffOf computeKeyAggregationCoefficient
  simp only
  rw [spec_get_second_key, Spec.hash_keys, tagged_keyAggList hH, tagged_keyAggCoeff hH]
  have hL : (tagHash H KEYAGG_LIST_TAG_DIGEST (keyBytes keys).flatten) = hashPubkeys H keys := by
    rw [keyBytes_eq]; rfl
  rw [hL]
  have h1 : (1 : MaybeScalar).val = 1 := ZMod.val_one'' (by have := one_lt_orderN; omega)
  cases hs : secondKey keys with
  | none =>
    simp only [reduceCtorEq, if_false]
    rw [if_neg (serPoint_ne_zeros P), reduceFrom_val]; rfl
  | some S =>
    simp only [Option.some.injEq]
    by_cases hS : S = P
    · rw [if_pos hS, if_pos (by rw [hS]), h1]
    · rw [if_neg hS, if_neg (by rw [serPoint_point_inj]; exact fun h => hS h.symm), reduceFrom_val]; rfl

theorem foldlM_key_agg (f : Bytes → ℕ) (l : List Point) (acc : MaybePoint) :
    (l.map fun P => (serPoint P.1).1).foldlM (m := Option) (fun (Q : Spec.Pt) pk => do
      let P_i ← Spec.cpoint pk
      some (Q + f pk • P_i)) acc
      = some (acc + (l.map fun P => (f (serPoint P.1).1 : MaybeScalar) • P.1).sum) := by
  induction l generalizing acc with
  | nil => simp
  | cons P l ih =>
    rw [List.map_cons, List.foldlM_cons, spec_cpoint_ser]
    simp only [Option.bind_eq_bind, Option.bind_some]
    have := ih (acc + f (serPoint P.1).1 • P.1)
    simp only [Option.bind_eq_bind] at this
    rw [this, List.map_cons, List.sum_cons, nsmul_eq, add_assoc]

theorem spec_key_agg {H : Hash} (hH : TagsAgree H) (keys : List Point) :
    Spec.key_agg H (keyBytes keys)
      = if keySum H keys = 0 then none else some ⟨keySum H keys, 1, 0⟩ := by
  have hsum : (keys.map fun P => ((Spec.key_agg_coeff H (keyBytes keys) (serPoint P.1).1 : ℕ) : MaybeScalar) • P.1).sum
      = keySum H keys := by
    unfold keySum
    congr 1
    refine List.map_congr_left fun P _ => ?_
    rw [spec_key_agg_coeff hH, ZMod.natCast_zmod_val]
  have hf := foldlM_key_agg (fun pk => Spec.key_agg_coeff H (keyBytes keys) pk) keys 0
  rw [zero_add, hsum, ← keyBytes_eq] at hf
  unfold Spec.key_agg
  have hf' : (keyBytes keys).foldlM (m := Option) (fun (Q : Spec.Pt) pk => do
      let P_i ← Spec.cpoint pk
      let a_i := Spec.key_agg_coeff_internal H (keyBytes keys) pk (Spec.get_second_key (keyBytes keys))
      some (Q + a_i • P_i)) 0 = some (keySum H keys) := hf
  simp only at hf' ⊢
  rw [hf']
  rfl

/-- Agreement of a context of the specification with one of the model. -/
def CtxAgree (c : Spec.KeyAggCtx) (ctx : KeyAggContext) : Prop :=
  c.Q = ctx.pubkey.1 ∧ (c.gacc : MaybeScalar) = negIf ctx.parityAcc 1 ∧ (c.tacc : MaybeScalar) = ctx.tweakAcc

/-- Tweaks as bytes. -/
def tweakBytes (ts : List (Scalar × Bool)) : List (Bytes × Bool) :=
  ts.map fun t => ((serScalar t.1.1).1, t.2)

theorem spec_apply_tweak {c : Spec.KeyAggCtx} {ctx : KeyAggContext} (h : CtxAgree c ctx) (t : Scalar) (x : Bool) :
    (∃ c' ctx', Spec.apply_tweak c (serScalar t.1).1 x = some c' ∧ ctx.withTweak t x = .ok ctx' ∧ CtxAgree c' ctx') ∨
    (Spec.apply_tweak c (serScalar t.1).1 x = none ∧ ctx.withTweak t x = .err .tweakError) := by
  obtain ⟨hQ, hg, ht⟩ := h
  unfold Spec.apply_tweak Spec.int_from_bytes
  rw [if_neg (by simp [(serScalar t.1).2])]
  simp only [beNat_serScalar, spec_has_even_y, Bool.not_not, hQ, spec_G]
  rw [if_neg (by have := ZMod.val_lt t.1; omega)]
  have h1 : 1 ≤ orderN := orderN_prime.one_lt.le
  have hgv : (((if (x && isOdd ctx.pubkey.1) = true then orderN - 1 else 1 : ℕ) : ℕ) : MaybeScalar)
      = negIf (x && isOdd ctx.pubkey.1) 1 := by
    cases (x && isOdd ctx.pubkey.1)
    · simp
    · simp only [if_true, negIf_true, cast_orderN_sub h1, Nat.cast_one]
  have hpt : (if (x && isOdd ctx.pubkey.1) = true then orderN - 1 else 1) • ctx.pubkey.1 + t.1.val • G
      = negIf (x && isOdd ctx.pubkey.1) ctx.pubkey.1 + t.1 • G := by
    rw [nsmul_eq, hgv, ← negIf_smul, one_smul, nsmul_eq, serScalar_val]
  rw [hpt]
  by_cases h0 : negIf (x && isOdd ctx.pubkey.1) ctx.pubkey.1 + t.1 • G = 0
  · right
    rw [if_pos h0]
    exact ⟨rfl, withTweak_eq_err.2 h0⟩
  · left
    rw [if_neg h0]
    refine ⟨_, _, rfl, withTweak_eq_ok.2 ⟨⟨_, h0⟩, rfl, rfl⟩, rfl, ?_, ?_⟩
    · simp only
      rw [cast_mod_orderN, Nat.cast_mul, hgv, hg]
      cases (x && isOdd ctx.pubkey.1) <;> cases ctx.parityAcc <;> simp
    · simp only
      rw [cast_mod_orderN, Nat.cast_add, Nat.cast_mul, hgv, ht, serScalar_val]
      cases (x && isOdd ctx.pubkey.1)
      · simp [add_comm]
      · simp [add_comm]

theorem spec_apply_tweaks {c : Spec.KeyAggCtx} {ctx : KeyAggContext} (h : CtxAgree c ctx)
    (ts : List (Scalar × Bool)) :
    (∃ c' ctx', (tweakBytes ts).foldlM (m := Option) (fun c t => Spec.apply_tweak c t.1 t.2) c = some c' ∧
        ctx.withTweaks ts = .ok ctx' ∧ CtxAgree c' ctx') ∨
    ((tweakBytes ts).foldlM (m := Option) (fun c t => Spec.apply_tweak c t.1 t.2) c = none ∧
        ctx.withTweaks ts = .err .tweakError) := by
  induction ts generalizing c ctx with
  | nil => exact Or.inl ⟨c, ctx, rfl, rfl, h⟩
  | cons t ts ih =>
    obtain ⟨t, x⟩ := t
    simp only [tweakBytes, List.map_cons, List.foldlM_cons, KeyAggContext.withTweaks]
    rcases spec_apply_tweak h t x with ⟨c', ctx', h1, h2, h3⟩ | ⟨h1, h2⟩
    · rw [h1, h2]
      exact ih h3
    · rw [h1, h2]
      exact Or.inr ⟨rfl, rfl⟩

theorem CtxAgree.of_new {H : Hash} (hH : TagsAgree H) {keys : List Point} {ctx : KeyAggContext}
    (h : KeyAggContext.new H keys = .ok ctx) :
    ∃ c, Spec.key_agg H (keyBytes keys) = some c ∧ CtxAgree c ctx := by
  obtain ⟨-, -, Q, hQ, rfl⟩ := new_eq_ok.1 h
  rw [spec_key_agg hH, if_neg (by rw [hQ]; exact Q.2)]
  exact ⟨_, rfl, hQ, by simp [baseCtx], by simp [baseCtx]⟩

/-- Keys and tweaks: the whole of `key_agg_and_tweak`. -/
theorem spec_key_agg_and_tweak {H : Hash} (hH : TagsAgree H) {keys : List Point} {ctx0 ctx : KeyAggContext}
    {ts : List (Scalar × Bool)}
    (h0 : KeyAggContext.new H keys = .ok ctx0) (h : ctx0.withTweaks ts = .ok ctx) :
    ∃ c, Spec.key_agg_and_tweak H (keyBytes keys) (tweakBytes ts) = some c ∧ CtxAgree c ctx := by
  obtain ⟨c, hc, ha⟩ := CtxAgree.of_new hH h0
  unfold Spec.key_agg_and_tweak
  rw [hc]
  rcases spec_apply_tweaks ha ts with ⟨c', ctx', h1, h2, h3⟩ | ⟨-, h2⟩
  · rw [h] at h2
    cases h2
    exact ⟨c', h1, h3⟩
  · rw [h] at h2
    cases h2

/-- Tweaks do not touch the member data. -/
theorem withTweaks_keys {ts : List (Scalar × Bool)} {ctx ctx' : KeyAggContext} (h : ctx.withTweaks ts = .ok ctx') :
    ctx'.orderedPubkeys = ctx.orderedPubkeys ∧ ctx'.pubkeyIndexes = ctx.pubkeyIndexes ∧
    ctx'.keyCoefficients = ctx.keyCoefficients ∧ ctx'.effectivePubkeys = ctx.effectivePubkeys := by
  induction ts generalizing ctx with
  | nil =>
    simp only [KeyAggContext.withTweaks, Res.ok.injEq] at h
    subst h; exact ⟨rfl, rfl, rfl, rfl⟩
  | cons t ts ih =>
    obtain ⟨t, x⟩ := t
    obtain ⟨c, hc, ht⟩ := withTweaks_cons_eq_ok.1 h
    obtain ⟨Q, -, rfl⟩ := withTweak_eq_ok.1 hc
    have := ih ht
    exact this

end Verif
