import Verif.Spec.Claims
import Verif.Lemmas.Props.Exact

/-!
# Lemmas and example data for `Props/Forking`
-/

namespace Verif

theorem negIf_injective (b : Bool) {x y : MaybePoint} (h : negIf b x = negIf b y) : x = y := by
  cases b
  · exact h
  · exact neg_injective h

theorem sum_sub_of_agree (P : Point) (f g : Point → MaybeScalar) (l : List Point)
    (h : ∀ Q ∈ l, Q ≠ P → f Q = g Q) :
    (l.map fun Q => f Q • Q.1).sum - (l.map fun Q => g Q • Q.1).sum
      = (((l.count P : ℕ) : MaybeScalar) * (f P - g P)) • P.1 := by
  induction l with
  | nil => simp
  | cons Q l ih =>
    have ih' := ih fun Q' h1 h2 => h Q' (List.mem_cons_of_mem _ h1) h2
    simp only [List.map_cons, List.sum_cons]
    rw [add_sub_add_comm, ih']
    by_cases hQ : Q = P
    · subst hQ
      rw [List.count_cons_self, Nat.cast_succ, add_mul, one_mul, add_smul, sub_smul, add_comm]
    · rw [h Q List.mem_cons_self hQ, sub_self, zero_add, List.count_cons_of_ne hQ]

/-- For the examples: SHA-256 on short inputs, and the number `v` on all others. -/
def constHash (v : ℕ) : Hash := fun m => if m.length < 32 then sha256 m else ⟨beBytes 32 v, beBytes_length 32 v⟩

theorem constHash_tagsAgree (v : ℕ) : TagsAgree (constHash v) := by
  have h : ∀ m : Bytes, m.length < 32 → constHash v m = sha256 m := fun m hm => if_pos hm
  have s := sha256_tagsAgree
  refine ⟨?_, ?_, ?_, ?_, ?_, ?_, ?_, ?_, ?_, ?_⟩
  · rw [h _ (by decide +kernel)]; exact s.keyAggList
  · rw [h _ (by decide +kernel)]; exact s.keyAggCoeff
  · rw [h _ (by decide +kernel)]; exact s.musigAux
  · rw [h _ (by decide +kernel)]; exact s.musigNonce
  · rw [h _ (by decide +kernel)]; exact s.musigNoncecoef
  · rw [h _ (by decide +kernel)]; exact s.bip340Aux
  · rw [h _ (by decide +kernel)]; exact s.bip340Nonce
  · rw [h _ (by decide +kernel)]; exact s.bip340Challenge
  · rw [h _ (by decide +kernel)]; exact s.bip340Batch
  · rw [h _ (by decide +kernel)]; exact s.tapTweak

theorem constHash_tagHash (v : ℕ) (hv : v < 100) (d : Bytes) (hd : d.length = 32) (m : Bytes) :
    reduceFrom (tagHash (constHash v) d m) = (v : MaybeScalar) := by
  have h : tagHash (constHash v) d m = ⟨beBytes 32 v, beBytes_length 32 v⟩ := by
    unfold tagHash constHash
    rw [if_neg (by simp only [List.length_append]; omega)]
  have h2 : 100 < orderN := by decide +kernel
  have h3 : v < 256 ^ 32 := by
    have : 100 < 256 ^ 32 := by norm_num
    omega
  rw [h]
  apply ZMod.val_injective
  rw [reduceFrom_val, ZMod.val_natCast]
  exact congrArg (· % orderN) (beNat_beBytes_of_lt h3)

theorem natCast_scalar_ne {i j : ℕ} (h : i < j) (hj : j < 100) : ((i : ℕ) : MaybeScalar) ≠ ((j : ℕ) : MaybeScalar) := by
  intro he
  have := natCast_scalar_ne_zero (k := j - i) (by omega) (by omega)
  rw [Nat.cast_sub h.le, he, sub_self] at this
  exact this rfl

theorem const_new (v : ℕ) (h0 : 0 < v) (hv : v < 100) :
    ∃ ctx, KeyAggContext.new (constHash v) [Gpt] = .ok ctx ∧
      (ctx.keyCoefficient (mulG scalarOne) : Res Unit _) = .ok (some (v : MaybeScalar)) := by
  have hco : coeffOf (constHash v) [Gpt] Gpt = (v : MaybeScalar) := by
    unfold coeffOf computeKeyAggregationCoefficient
    rw [if_neg (by simp [secondKey])]
    exact constHash_tagHash v hv _ (by decide) _
  have hs : keySum (constHash v) [Gpt] ≠ 0 := by
    unfold keySum
    simp only [List.map_cons, List.map_nil, List.sum_cons, List.sum_nil, add_zero, hco]
    change (v : MaybeScalar) • G ≠ 0
    rw [Ne, smul_G_eq_zero]
    exact natCast_scalar_ne_zero h0 hv
  have hn : KeyAggContext.new (constHash v) [Gpt] = .ok (baseCtx (constHash v) [Gpt] ⟨_, hs⟩) :=
    new_eq_ok.2 ⟨by simp, by simp [u32Max], ⟨_, hs⟩, rfl, rfl⟩
  refine ⟨_, hn, ?_⟩
  rw [(CtxInv.of_new hn).keyCoefficient_eq, mulG_one, if_pos (by simp [baseCtx])]
  exact congrArg (fun z => Res.ok (some z)) hco

theorem const_challenge (v : ℕ) (hv : v < 100) (rx : Arr 32) (X : Point) (msg : Bytes) :
    Spec.challengeBytes (constHash v) rx.1 X.1 msg = (v : MaybeScalar) := by
  rw [spec_challengeBytes (constHash_tagsAgree v)]
  exact constHash_tagHash v hv _ (by decide) _

end Verif
