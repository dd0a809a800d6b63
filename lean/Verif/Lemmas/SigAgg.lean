import Verif.Lemmas.Bip340

/-!
# Lemmas about the aggregation of partial signatures
-/

namespace Verif

theorem negIf_list_sum {α : Type} [SubtractionCommMonoid α] (b : Bool) (l : List α) :
    (l.map (negIf b)).sum = negIf b l.sum := by
  induction l with
  | nil => cases b <;> simp
  | cons a l ih => rw [List.map_cons, List.sum_cons, List.sum_cons, ih, negIf_add]

/-- The aggregated scalar. -/
def aggValue (H : Hash) (ctx : KeyAggContext) (an : AggNonce) (T : MaybePoint) (sigs : List MaybeScalar)
    (msg : Bytes) : MaybeScalar :=
  sigs.sum + negIf (isOdd ctx.pubkey.1) (sessionE H ctx an T msg * ctx.tweakAcc)

/-- Aggregation is the sum followed by one check, which is adaptor verification. -/
theorem aggregateAdaptor_eq (H : Hash) (ctx : KeyAggContext) (an : AggNonce) (T : MaybePoint)
    (sigs : List MaybeScalar) (msg : Bytes) :
    aggregatePartialAdaptorSignatures H ctx an T sigs msg =
      if verifySingleAdaptor H ctx.pubkey ⟨(sessionR H ctx an msg).1, aggValue H ctx an T sigs msg⟩ msg T = .ok ()
      then .ok ⟨(sessionR H ctx an msg).1, aggValue H ctx an T sigs msg⟩ else .err .badSignature := by
  have hv := verifySingleAdaptor_eq_ok (H := H) (P := ctx.pubkey) (msg := msg) (T := T)
    (sig := ⟨(sessionR H ctx an msg).1, aggValue H ctx an T sigs msg⟩)
  simp only at hv
  have hn : (if (!isOdd ((sessionR H ctx an msg).1 + T)) = true then (sessionR H ctx an msg).1
      else -(sessionR H ctx an msg).1) = negIf (isOdd ((sessionR H ctx an msg).1 + T)) (sessionR H ctx an msg).1 := by
    cases isOdd ((sessionR H ctx an msg).1 + T) <;> rfl
  rw [← hn] at hv
  by_cases h : verifySingleAdaptor H ctx.pubkey ⟨(sessionR H ctx an msg).1, aggValue H ctx an T sigs msg⟩ msg T
      = .ok ()
  · rw [if_pos h]
    exact if_neg (not_not.2 (hv.1 h))
  · rw [if_neg h]
    exact if_pos fun he => h (hv.2 he)

theorem aggregateAdaptor_eq_ok {H : Hash} {ctx : KeyAggContext} {an : AggNonce} {T : MaybePoint}
    {sigs : List MaybeScalar} {msg : Bytes} {sig : AdaptorSignature} :
    aggregatePartialAdaptorSignatures H ctx an T sigs msg = .ok sig ↔
      sig = ⟨(sessionR H ctx an msg).1, aggValue H ctx an T sigs msg⟩ ∧
        verifySingleAdaptor H ctx.pubkey sig msg T = .ok () := by
  rw [aggregateAdaptor_eq]
  constructor
  · intro h
    split at h
    · rename_i hv
      cases h
      exact ⟨rfl, hv⟩
    · cases h
  · rintro ⟨rfl, h⟩
    rw [if_pos h]

theorem adapt_zero (R : Point) (s : MaybeScalar) :
    (⟨R.1, s⟩ : AdaptorSignature).adapt 0 = some (LiftedSignature.new R s) := by
  refine adapt_eq_some.2 ⟨R, by simp, rfl, ?_⟩
  unfold LiftedSignature.new
  cases isOdd R.1 <;> simp

/-- Plain aggregation in one formula. -/
theorem aggregate_eq (H : Hash) (ctx : KeyAggContext) (an : AggNonce) (sigs : List MaybeScalar) (msg : Bytes) :
    aggregatePartialSignatures H ctx an sigs msg =
      if verifySingleLifted H ctx.pubkey
          (LiftedSignature.new (sessionR H ctx an msg) (aggValue H ctx an 0 sigs msg)) msg = .ok ()
      then .ok (LiftedSignature.new (sessionR H ctx an msg) (aggValue H ctx an 0 sigs msg))
      else .err .badSignature := by
  have hv := verify_adapt (H := H) (P := ctx.pubkey) (msg := msg)
    (adapt_zero (sessionR H ctx an msg) (aggValue H ctx an 0 sigs msg))
  rw [zero_smul] at hv
  unfold aggregatePartialSignatures
  rw [aggregateAdaptor_eq]
  by_cases h : verifySingleAdaptor H ctx.pubkey ⟨(sessionR H ctx an msg).1, aggValue H ctx an 0 sigs msg⟩ msg 0
      = .ok ()
  · rw [if_pos h, if_pos (hv.2 h)]
    simp only [Res.bind_ok, adapt_zero, Res.unwrap_some]
  · rw [if_neg h, if_neg (fun h' => h (hv.1 h'))]
    rfl

/-! ## Summing the partial equations -/

/-- Sum of the right-hand sides of the partial verification equations over a group. -/
theorem sum_partialRhs {H : Hash} {ctx : KeyAggContext} (an : AggNonce) (T : MaybePoint) (msg : Bytes)
    (l : List (Point × PubNonce)) :
    (l.map fun x => partialRhs H ctx an T x.1 x.2 msg).sum =
      negIf (isOdd (sessionRT H ctx an T msg))
          ((l.map fun x => x.2.R1.1).sum + an.nonceCoefficient H ctx.pubkey msg • (l.map fun x => x.2.R2.1).sum)
        + negIf (isOdd ctx.pubkey.1 ^^ ctx.parityAcc)
            (sessionE H ctx an T msg • (l.map fun x => coeffOf H ctx.orderedPubkeys x.1 • x.1.1).sum) := by
  induction l with
  | nil => simp [negIf_zero]
  | cons x l ih =>
    simp only [List.map_cons, List.sum_cons]
    rw [ih]
    unfold partialRhs
    simp only [smul_add, negIf_add]
    abel

/-- If every partial equation holds, the aggregate satisfies the adaptor equation, as long as the nonce is finite. -/
theorem agg_verifies {H : Hash} {ctx : KeyAggContext} (hi : CtxInv H ctx) (T : MaybePoint) (msg : Bytes)
    (l : List (Point × PubNonce)) (sigs : List MaybeScalar) (hk : l.map (·.1) = ctx.orderedPubkeys)
    (hs : sigs.map (· • G) = l.map fun x => partialRhs H ctx (AggNonce.sum (l.map (·.2))) T x.1 x.2 msg)
    (hR : (AggNonce.sum (l.map (·.2))).R1 + (AggNonce.sum (l.map (·.2))).nonceCoefficient H ctx.pubkey msg
      • (AggNonce.sum (l.map (·.2))).R2 ≠ 0) :
    verifySingleAdaptor H ctx.pubkey ⟨(sessionR H ctx (AggNonce.sum (l.map (·.2))) msg).1,
      aggValue H ctx (AggNonce.sum (l.map (·.2))) T sigs msg⟩ msg T = .ok () := by
  set an := AggNonce.sum (l.map (·.2)) with han
  rw [verifySingleAdaptor_eq_ok]
  simp only
  have hsum : ∀ k : List MaybeScalar, k.sum • G = (k.map (· • G)).sum := by
    intro k
    induction k with
    | nil => simp
    | cons a k ih => simp [add_smul, ih]
  have hRs : (sessionR H ctx an msg).1 = (l.map fun x => x.2.R1.1).sum
      + an.nonceCoefficient H ctx.pubkey msg • (l.map fun x => x.2.R2.1).sum := by
    unfold sessionR
    rw [finalNonce_eq_of_ne hR]
    have h1 : an.R1 = (l.map fun x => x.2.R1.1).sum := by
      rw [han]; unfold AggNonce.sum; simp only [List.map_map]; rfl
    have h2 : an.R2 = (l.map fun x => x.2.R2.1).sum := by
      rw [han]; unfold AggNonce.sum; simp only [List.map_map]; rfl
    rw [h1, h2]
  have hK : (l.map fun x => coeffOf H ctx.orderedPubkeys x.1 • x.1.1).sum = keySum H ctx.orderedPubkeys := by
    unfold keySum
    have : (l.map fun x => coeffOf H ctx.orderedPubkeys x.1 • x.1.1)
        = (l.map (·.1)).map fun P => coeffOf H ctx.orderedPubkeys P • P.1 := by rw [List.map_map]; rfl
    rw [this, hk]
  unfold aggValue
  rw [add_smul, hsum, hs, sum_partialRhs, hK, ← hRs, toEvenY_val, hi.pub]
  have hRT : (sessionR H ctx an msg).1 + T = sessionRT H ctx an T msg := rfl
  have hE : computeChallengeHashTweak H (xonly (sessionRT H ctx an T msg)) ctx.pubkey msg = sessionE H ctx an T msg := rfl
  rw [hRT, hE, negIf_add, negIf_negIf, smul_add, smul_negIf, smul_negIf, ← negIf_smul, mul_smul, ← add_assoc]

end Verif
