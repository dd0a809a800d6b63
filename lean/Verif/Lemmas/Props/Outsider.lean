import Verif.Spec.Outsider
import Verif.Lemmas.Lazy
import Verif.Lemmas.Props.ManySigs

/-!
# Helpers of `Props/Outsider`
-/

namespace Verif.Outsider

open Verif.CmaForger Verif.OneSigner Verif.Asker Verif.ManySigs
open Asking (DrawnNonce)
open Function

/-! ## Adaptor signatures -/

theorem adaptorWith_eq (H : Hash) (hH : TagsAgree H) (d k : Scalar) (T : MaybePoint) (msg : Bytes) :
    Spec.adaptorWith H d k T msg = (serPoint (mulG k).1).1 ++ (serScalar (Spec.sgn ((mulG k).1 + T) * k.1
      + computeChallengeHashTweak H (xonly ((mulG k).1 + T)) (mulG d) msg * (Spec.sgn (mulG d).1 * d.1))).1 := by
  unfold Spec.adaptorWith
  rw [spec_G]
  change Spec.cbytes_ext (mulG k).1 ++ Spec.bytes_from_int (Spec.sgn ((mulG k).1 + T) * k.1
    + Spec.challenge H ((mulG k).1 + T) (mulG d).1 msg * (Spec.sgn (mulG d).1 * d.1)).val = _
  rw [spec_challenge hH, spec_cbytes_ext, spec_bytes_from_int _ (ZMod.val_lt _), ZMod.natCast_zmod_val]

theorem adaptorWith_congr {H H' : Hash} (hH : TagsAgree H) (hH' : TagsAgree H')
    (h : ∀ x, tagHash H' BIP0340_CHALLENGE_TAG_DIGEST x = tagHash H BIP0340_CHALLENGE_TAG_DIGEST x) (d k : Scalar) (T : MaybePoint) (msg : Bytes) :
    Spec.adaptorWith H' d k T msg = Spec.adaptorWith H d k T msg := by
  rw [adaptorWith_eq _ hH, adaptorWith_eq _ hH']
  unfold computeChallengeHashTweak
  rw [h]

/-! ## The signature of a session -/

theorem mapM_of_forall₂ {α β : Type} {f : α → Option β} {l : List α} {l' : List β} (h : List.Forall₂ (fun a b => f a = some b) l l') :
    l.mapM f = some l' := by
  induction h with
  | nil => rfl
  | cons h _ ih => rw [List.mapM_cons, h, ih]; rfl

theorem signature_eq {H : Hash} {s : Spec.GroupSession} {p : Scalar × Scalar} {sig : LiftedSignature}
    (h : Spec.GroupSignsAdapted H s.ctx s.sks (s.nonces p) s.t s.msg sig) : s.signature H p = some sig.toBytes := by
  obtain ⟨sigs, h1, asig, h2, h3⟩ := h
  unfold Spec.GroupSession.signature
  rw [mapM_of_forall₂ (l' := sigs) (h1.imp fun a b hab => by
    unfold Spec.GroupSession.aggNonce
    rw [hab]
    rfl)]
  unfold Spec.GroupSession.aggNonce
  rw [Option.bind_eq_bind, Option.bind_some, h2]
  change (asig.adapt s.t >>= _) = _
  rw [h3]
  rfl

/-- The adaptor signature of the group, if the session nonce is not zero. -/
theorem adaptorSignature_eq {H : Hash} (hH : TagsAgree H) {s : Spec.GroupSession} (hi : CtxInv H s.ctx) (hk : s.ctx.pubkeys = s.sks.map mulG)
    (hd : s.ctx.aggregatedSeckey s.sks = .ok s.d) {p : Scalar × Scalar} (hl : (s.nonces p).length = s.sks.length) (T : MaybePoint) {c : Scalar}
    (hcv : c.1 = (total (s.nonces p)).1 + (s.aggNonce p).nonceCoefficient H s.ctx.pubkey s.msg * (total (s.nonces p)).2) :
    s.adaptorSignature H p T = some (Spec.adaptorWith H s.d c T s.msg) := by
  have hsum : (s.aggNonce p).R1 + (s.aggNonce p).nonceCoefficient H s.ctx.pubkey s.msg • (s.aggNonce p).R2 = (mulG c).1 := by
    rw [mulG_val, hcv]
    generalize (s.aggNonce p).nonceCoefficient H s.ctx.pubkey s.msg = b
    unfold Spec.GroupSession.aggNonce
    rw [sum_public, add_smul, mul_smul]
  have hne : (s.aggNonce p).R1 + (s.aggNonce p).nonceCoefficient H s.ctx.pubkey s.msg • (s.aggNonce p).R2 ≠ 0 := by
    rw [hsum]
    exact (mulG c).2
  have hR : (sessionR H s.ctx (s.aggNonce p) s.msg).1 = (mulG c).1 := by
    unfold sessionR
    rw [finalNonce_eq_of_ne hne, hsum]
  have hdp : mulG s.d = s.ctx.pubkey := Subtype.ext (C07_seckey_sound s.ctx s.sks s.d hd)
  obtain ⟨sigs, asig, h1, h2⟩ := aggregates hi hk hl s.msg T _ rfl hne
  unfold Spec.GroupSession.adaptorSignature
  rw [mapM_of_forall₂ (l' := sigs) (h1.imp fun a b hab => by
    unfold Spec.GroupSession.aggNonce
    rw [hab]
    rfl)]
  rw [Option.bind_eq_bind, Option.bind_some]
  change (Spec.okay (aggregatePartialAdaptorSignatures H s.ctx (s.aggNonce p) T sigs s.msg)).bind _ = _
  rw [show aggregatePartialAdaptorSignatures H s.ctx (s.aggNonce p) T sigs s.msg = _ from h2]
  change some asig.toBytes = _
  obtain ⟨e, hv⟩ := aggregateAdaptor_eq_ok.1 h2
  have hr : asig.R = (mulG c).1 := by
    rw [e]
    exact hR
  rw [verifySingleAdaptor_eq_ok, hr, ← hdp] at hv
  rw [adaptorWith_eq H hH]
  unfold AdaptorSignature.toBytes
  rw [hr]
  congr 4
  rw [toEvenY_val, ← sgn_smul, ← sgn_smul, mulG_val, mulG_val, ← mul_smul, ← mul_smul, ← mul_smul, ← add_smul, smul_G_inj] at hv
  rw [hv, mulG_val, mulG_val, mul_assoc]

theorem drawn_query (s : Spec.GroupOrder) (p : Scalar × Scalar) : DrawnNonce (s.query p) := Asking.drawnNonce_noncecoefQuery _ _ _

/-- The sums of the nonces of the others. -/
def rest (s : Spec.GroupOrder) : MaybeScalar × MaybeScalar := total (s.before ++ s.after)

/-- What is added to the session nonce when the signature is completed. -/
def shift (s : Spec.GroupOrder) : MaybeScalar :=
  match s.point with
  | none => s.t
  | some _ => 0

/-- The session nonce with the adaptor secret, if the signature is completed. -/
def sessionNonce (s : Spec.GroupOrder) (x y : MaybeScalar) (b : Arr 32) : MaybeScalar :=
  (rest s).1 + x + reduceFrom b * ((rest s).2 + y) + shift s

theorem output_answering {H : Hash} (hH : TagsAgree H) {s : Spec.GroupOrder} (hs : s.Fits H) (p : Scalar × Scalar) (b : Arr 32)
    {c : Scalar} (hc : sessionNonce s p.1.1 p.2.1 b = c.1) (ht : c.1 ≠ shift s) :
    s.output (H.answering (s.query p) b) p = some (s.signer.sign H c) := by
  have hlen : 64 ≤ (s.query p).length := noncecoefQuery_length _ _ _
  have hT := tagsAgree_answering hH hlen b
  have hi : CtxInv (H.answering (s.query p) b) s.ctx := SessionForger.ctxInv_congr (fun x _ hx => Hash.answering_of_ne _ _ (by
    rintro rfl
    exact hx (drawn_query s p))) hs.reachable.inv
  have ht' : total (s.nonces p) = ((rest s).1 + p.1.1, (rest s).2 + p.2.1) := total_insert _ _ p
  have hco : (rest s).1 + p.1.1 + reduceFrom b * ((rest s).2 + p.2.1) = (total (s.nonces p)).1
      + (s.aggNonce p).nonceCoefficient (H.answering (s.query p) b) s.ctx.pubkey s.msg * (total (s.nonces p)).2 := by
    rw [ht']
    dsimp only
    congr 2
    exact (nonceCoefficient_answering H (s.aggNonce p) s.ctx.aggregatedPubkey s.msg b).symm
  have hl : (s.nonces p).length = s.sks.length := by
    have := hs.members
    unfold Spec.GroupSession.nonces
    simp only [List.length_append, List.length_cons]
    omega
  have hch : ∀ x, tagHash (H.answering (s.query p) b) BIP0340_CHALLENGE_TAG_DIGEST x = tagHash H BIP0340_CHALLENGE_TAG_DIGEST x := by
    intro x
    unfold tagHash
    refine Hash.answering_of_ne _ _ ?_
    unfold Spec.GroupSession.query Spec.noncecoefQuery
    rw [taggedInput_eq (D := MUSIG_NONCECOEF_TAG_DIGEST) (by simp [tagTable])]
    exact tagged_ne (by decide) (by decide)
  unfold Spec.GroupOrder.output Spec.SignerOrder.sign Spec.GroupOrder.signer
  cases hp : s.point with
  | none =>
    have hsh : shift s = s.t := by
      unfold shift
      rw [hp]
    unfold sessionNonce at hc
    rw [hsh] at hc ht
    have hct : ((rest s).1 + p.1.1 + reduceFrom b * ((rest s).2 + p.2.1)) + s.t ≠ 0 := by
      rw [hc]
      exact c.2
    have key := session hT hi hs.keys hs.seckey hl s.msg (fun x => x = Spec.signWith H s.d c s.msg)
      (c := (rest s).1 + p.1.1 + reduceFrom b * ((rest s).2 + p.2.1)) (t := s.t)
      (fun e => ht (by rw [← hc, e, zero_add])) hct hco
    obtain ⟨sig, h1, h2⟩ := key.2 (by
      rw [show (⟨_, hct⟩ : Scalar) = c from Subtype.ext hc]
      exact signWith_congr hH hT hch _ _ _)
    dsimp only
    rw [signature_eq h1, h2]
  | some T =>
    have hsh : shift s = 0 := by
      unfold shift
      rw [hp]
    unfold sessionNonce at hc
    rw [hsh, add_zero] at hc
    dsimp only
    rw [adaptorSignature_eq hT hi hs.keys hs.seckey hl T (c := c) (by rw [← hc]; exact hco), adaptorWith_congr hH hT hch]

/-- The string of the session, for nonces that may be zero. -/
def stringOf (s : Spec.GroupOrder) (x y : MaybeScalar) : Bytes :=
  Spec.noncecoefQuery ⟨((rest s).1 + x) • G, ((rest s).2 + y) • G⟩ s.ctx.aggregatedPubkey s.msg

theorem query_eq (s : Spec.GroupOrder) (p : Scalar × Scalar) : s.query p = stringOf s p.1.1 p.2.1 := by
  unfold Spec.GroupSession.query stringOf Spec.GroupSession.aggNonce
  rw [sum_public]
  congr 2
  · exact congrArg (fun z : MaybeScalar × MaybeScalar => (z.1 • G : MaybePoint)) (total_insert s.before s.after p)
  · exact congrArg (fun z : MaybeScalar × MaybeScalar => (z.2 • G : MaybePoint)) (total_insert s.before s.after p)

theorem stringOf_inj {s : Spec.GroupOrder} {x x' y y' : MaybeScalar} (h : stringOf s x y = stringOf s x' y') : x = x' ∧ y = y' := by
  have h1 := (noncecoefQuery_inj h).1
  simp only [AggNonce.mk.injEq, smul_G_inj, add_right_inj] at h1
  exact h1

/-! ## Averages -/

theorem avg_hit {α β : Type} [Fintype α] {φ : α → β} (hφ : Injective φ) (z : β) [∀ x, Decidable (φ x = z)] :
    (avg fun x => if φ x = z then (1 : ℚ) else 0) ≤ 1 / Fintype.card α := by
  unfold avg
  refine div_le_div_of_nonneg_right ?_ (Nat.cast_nonneg _)
  rw [Finset.sum_boole]
  have : (Finset.univ.filter fun x => φ x = z).card ≤ 1 := Finset.card_le_one.2 fun a ha b hb => by
    simp only [Finset.mem_filter, Finset.mem_univ, true_and] at ha hb
    exact hφ (ha.trans hb.symm)
  exact_mod_cast this

variable [Fintype Scalar] [Fintype MaybeScalar]

theorem card_scalar' : (Fintype.card Scalar : ℚ) = (orderN - 1 : ℕ) := by
  rw [← Nat.card_eq_fintype_card, card_scalar]

theorem card_maybe : (Fintype.card MaybeScalar : ℚ) = orderN := by
  rw [← Nat.card_eq_fintype_card]
  exact congrArg _ (Nat.card_zmod _)

theorem order_pos : (0 : ℚ) < (orderN - 1 : ℕ) := by
  have := one_lt_orderN
  exact_mod_cast (by omega : 0 < orderN - 1)

theorem order_le : (1 : ℚ) / orderN ≤ 1 / (orderN - 1 : ℕ) := by
  refine one_div_le_one_div_of_le order_pos ?_
  exact_mod_cast Nat.sub_le _ _

/-- Whether zero is among the scalars hardly matters. -/
theorem avg_scalar (g : MaybeScalar → ℚ) (h0 : ∀ x, 0 ≤ g x) (h1 : ∀ x, g x ≤ 1) :
    |(avg fun x : Scalar => g x.1) - avg g| ≤ 1 / (orderN - 1 : ℕ) := by
  classical
  have hsum : ∑ x, g x = g 0 + ∑ x : Scalar, g x.1 := by
    rw [← Finset.add_sum_erase _ _ (Finset.mem_univ (0 : MaybeScalar))]
    congr 1
    refine (Finset.sum_subtype _ (p := fun x : MaybeScalar => x ≠ 0) (fun x => ?_) g)
    simp
  have hS0 : 0 ≤ ∑ x : Scalar, g x.1 := Finset.sum_nonneg fun x _ => h0 _
  have hS1 : ∑ x : Scalar, g x.1 ≤ (orderN - 1 : ℕ) := by
    rw [← card_scalar']
    calc _ ≤ ∑ _x : Scalar, (1 : ℚ) := Finset.sum_le_sum fun x _ => h1 _
      _ = _ := by simp
  have hn : (orderN : ℚ) = (orderN - 1 : ℕ) + 1 := by
    rw [Nat.cast_pred orderN_prime.pos]
    ring
  refine le_trans ?_ order_le
  unfold avg
  rw [hsum, card_scalar', card_maybe, hn]
  have hp := order_pos
  have g0 := h0 0
  have g1 := h1 0
  generalize ((orderN - 1 : ℕ) : ℚ) = n at *
  generalize (∑ x : Scalar, g x.1) = S at *
  generalize g 0 = a at *
  have e : S / n - (a + S) / (n + 1) = (S - a * n) / (n * (n + 1)) := by
    field_simp
    ring
  rw [e, abs_div, abs_of_pos (by positivity : 0 < n * (n + 1)), div_le_div_iff₀ (by positivity) (by positivity), one_mul]
  have : |S - a * n| ≤ n := by
    have := mul_le_mul_of_nonneg_right g1 hp.le
    have := mul_nonneg g0 hp.le
    rw [abs_le]
    constructor <;> linarith
  exact mul_le_mul_of_nonneg_right this (by positivity)

/-! ## One signature -/

variable [Fintype (Arr 32)] {D : Bytes → Prop} [DecidablePred D] {H O : Hash} {s : Spec.GroupOrder} {T : Table} {f : Bytes → Asker Prop}

open Classical in
/-- What comes of the session nonce `c`. -/
noncomputable def worth (D : Bytes → Prop) [DecidablePred D] (H O : Hash) (s : Spec.GroupOrder) (f : Bytes → Asker Prop) (c : MaybeScalar) (T : Table) : ℚ :=
  if h : c ≠ 0 ∧ c ≠ shift s then value D H (f (s.signer.sign O ⟨c, h.1⟩)) T else 0

theorem worth_nonneg (c : MaybeScalar) (T : Table) : 0 ≤ worth D H O s f c T := by
  unfold worth
  split
  · exact (value_mem _ _).1
  · exact le_rfl

theorem worth_le_one (c : MaybeScalar) (T : Table) : worth D H O s f c T ≤ 1 := by
  unfold worth
  split
  · exact (value_mem _ _).2
  · exact zero_le_one

/-- The group signs. -/
def groupStep (O : Hash) (s : Spec.GroupOrder) (f : Bytes → Asker Prop) (p : Scalar × Scalar) : Asker Prop :=
  .ask (s.query p) fun b =>
    match s.output (O.answering (s.query p) b) p with
    | some sig => f sig
    | none => .done False

open Classical in
theorem groupStep_close (hD : ∀ x, DrawnNonce x → D x) (hH : TagsAgree O) (hs : s.Fits O) (p : Scalar × Scalar) :
    |value D H (groupStep O s f p) T
      - avg fun b => worth D H O s f (sessionNonce s p.1.1 p.2.1 b) (update T (stringOf s p.1.1 p.2.1) (some b))|
      ≤ (if ∃ y, stringOf s p.1.1 p.2.1 = y ∧ T y ≠ none then 1 else 0)
        + avg fun b => ((if sessionNonce s p.1.1 p.2.1 b = 0 then (1 : ℚ) else 0)
          + if sessionNonce s p.1.1 p.2.1 b = shift s then (1 : ℚ) else 0) := by
  have : Nonempty (Arr 32) := ⟨zeroSeed⟩
  have hpos : 0 ≤ avg fun b : Arr 32 => ((if sessionNonce s p.1.1 p.2.1 b = 0 then (1 : ℚ) else 0)
      + if sessionNonce s p.1.1 p.2.1 b = shift s then (1 : ℚ) else 0) :=
    avg_nonneg fun b => add_nonneg (by split <;> norm_num) (by split <;> norm_num)
  have hm := value_mem (D := D) (H := H) (groupStep O s f p) T
  by_cases hb : ∃ y, stringOf s p.1.1 p.2.1 = y ∧ T y ≠ none
  · rw [if_pos hb]
    have h0 : 0 ≤ avg fun b => worth D H O s f (sessionNonce s p.1.1 p.2.1 b) (update T (stringOf s p.1.1 p.2.1) (some b)) :=
      avg_nonneg fun b => worth_nonneg _ _
    have h1 : (avg fun b => worth D H O s f (sessionNonce s p.1.1 p.2.1 b) (update T (stringOf s p.1.1 p.2.1) (some b))) ≤ 1 :=
      avg_le fun b => worth_le_one _ _
    rw [abs_le]
    constructor <;> linarith [hm.1, hm.2]
  · rw [if_neg hb, zero_add]
    have hT : T (s.query p) = none := by
      rw [query_eq]
      by_contra h
      exact hb ⟨_, rfl, h⟩
    unfold groupStep
    rw [value_drawn (hD _ (drawn_query s p)) hT]
    refine (abs_avg_sub _ _).trans (avg_mono fun b => ?_)
    rw [← query_eq]
    by_cases h0 : sessionNonce s p.1.1 p.2.1 b = 0
    · rw [if_pos h0]
      have hw0 := worth_nonneg (D := D) (H := H) (O := O) (s := s) (f := f) (sessionNonce s p.1.1 p.2.1 b) (update T (s.query p) (some b))
      have hw1 := worth_le_one (D := D) (H := H) (O := O) (s := s) (f := f) (sessionNonce s p.1.1 p.2.1 b) (update T (s.query p) (some b))
      have hv := value_mem (D := D) (H := H) (match s.output (O.answering (s.query p) b) p with
        | some sig => f sig
        | none => .done False) (update T (s.query p) (some b))
      have : (0 : ℚ) ≤ if sessionNonce s p.1.1 p.2.1 b = shift s then (1 : ℚ) else 0 := by split <;> norm_num
      rw [abs_le]
      constructor <;> linarith [hv.1, hv.2]
    by_cases ht : sessionNonce s p.1.1 p.2.1 b = shift s
    · rw [if_pos ht, if_neg h0]
      have hw0 := worth_nonneg (D := D) (H := H) (O := O) (s := s) (f := f) (sessionNonce s p.1.1 p.2.1 b) (update T (s.query p) (some b))
      have hw1 := worth_le_one (D := D) (H := H) (O := O) (s := s) (f := f) (sessionNonce s p.1.1 p.2.1 b) (update T (s.query p) (some b))
      have hv := value_mem (D := D) (H := H) (match s.output (O.answering (s.query p) b) p with
        | some sig => f sig
        | none => .done False) (update T (s.query p) (some b))
      rw [abs_le]
      constructor <;> linarith [hv.1, hv.2]
    · rw [if_neg h0, if_neg ht, add_zero, output_answering hH hs p b (c := ⟨_, h0⟩) rfl ht]
      unfold worth
      rw [dif_pos ⟨h0, ht⟩, sub_self, abs_zero]

/-- The first nonce, from the session nonce. -/
def firstNonce (s : Spec.GroupOrder) (c y : MaybeScalar) (b : Arr 32) : MaybeScalar :=
  c - shift s - reduceFrom b * ((rest s).2 + y) - (rest s).1

theorem sessionNonce_bij (y : MaybeScalar) (b : Arr 32) : Bijective fun c => firstNonce s c y b :=
  ⟨fun c c' h => by simpa [firstNonce] using h, fun x => ⟨sessionNonce s x y b, by simp only [firstNonce, sessionNonce]; ring⟩⟩

theorem sessionNonce_firstNonce (c y : MaybeScalar) (b : Arr 32) : sessionNonce s (firstNonce s c y b) y b = c := by
  simp only [firstNonce, sessionNonce]
  ring

theorem sessionNonce_inj (y : MaybeScalar) (b : Arr 32) : Injective fun x : Scalar => sessionNonce s x.1 y b := fun x x' h =>
  Subtype.ext (by simpa [sessionNonce] using h)

/-- What comes of the nonces `x` and `y`. -/
noncomputable def gain (D : Bytes → Prop) [DecidablePred D] (H O : Hash) (s : Spec.GroupOrder) (f : Bytes → Asker Prop) (T : Table) (x y : MaybeScalar) (b : Arr 32) : ℚ :=
  worth D H O s f (sessionNonce s x y b) (update T (stringOf s x y) (some b))

theorem hcard : (1 : ℚ) / Fintype.card Scalar = 1 / (orderN - 1 : ℕ) := by rw [card_scalar']

open Classical in
theorem step_one (hD : ∀ x, DrawnNonce x → D x) (hH : TagsAgree O) (hs : s.Fits O) {j : ℕ} (hT : Small T j) :
    |(avg fun p : Scalar × Scalar => value D H (groupStep O s f p) T)
    - avg fun p : Scalar × Scalar => avg fun b => gain D H O s f T p.1.1 p.2.1 b| ≤ j / (orderN - 1 : ℕ) + (1 / (orderN - 1 : ℕ) + 1 / (orderN - 1 : ℕ)) := by
  have : Nonempty (Arr 32) := ⟨zeroSeed⟩
  have : Nonempty Scalar := ⟨scalarOne⟩
  have hn := order_pos
  refine (abs_avg_sub _ _).trans ((avg_mono fun p => groupStep_close hD hH hs p).trans ?_)
  rw [avg_add]
  refine add_le_add ?_ ?_
  · unfold avg
    have h1 := hT.sum_le (Γ := Scalar × Scalar) (s := fun p y => stringOf s p.1.1 p.2.1 = y) (fun p p' y h h' => by
      obtain ⟨e1, e2⟩ := stringOf_inj (h.trans h'.symm)
      exact Prod.ext (Subtype.ext e1) (Subtype.ext e2))
    rw [Fintype.card_prod, Nat.cast_mul, card_scalar', ← div_div]
    refine div_le_div_of_nonneg_right ?_ hn.le
    have h1n : (1 : ℚ) ≤ (orderN - 1 : ℕ) := by
      have := one_lt_orderN
      exact_mod_cast (by omega : 1 ≤ orderN - 1)
    rw [div_le_iff₀ hn]
    have hj : (0 : ℚ) ≤ j := Nat.cast_nonneg _
    nlinarith
  · have e : (avg fun p : Scalar × Scalar => avg fun b : Arr 32 => ((if sessionNonce s p.1.1 p.2.1 b = 0 then (1 : ℚ) else 0)
        + if sessionNonce s p.1.1 p.2.1 b = shift s then (1 : ℚ) else 0))
        = avg fun b : Arr 32 => avg fun y : Scalar => (avg fun x : Scalar => if sessionNonce s x.1 y.1 b = 0 then (1 : ℚ) else 0)
          + avg fun x : Scalar => if sessionNonce s x.1 y.1 b = shift s then (1 : ℚ) else 0 := by
      rw [avg_comm]
      congr 1
      funext b
      rw [avg_prod (fun x y : Scalar => (if sessionNonce s x.1 y.1 b = 0 then (1 : ℚ) else 0)
        + if sessionNonce s x.1 y.1 b = shift s then (1 : ℚ) else 0), avg_comm]
      congr 1
      funext y
      rw [avg_add]
    rw [e, ← hcard]
    exact avg_le fun b => avg_le fun y => add_le_add (avg_hit (sessionNonce_inj y.1 b) 0) (avg_hit (sessionNonce_inj y.1 b) (shift s))

open Classical in
theorem step_two :
    |(avg fun p : Scalar × Scalar => avg fun b => gain D H O s f T p.1.1 p.2.1 b)
    - avg fun b => avg fun y : Scalar => avg fun x : MaybeScalar => gain D H O s f T x y.1 b| ≤ 1 / (orderN - 1 : ℕ) := by
  have : Nonempty (Arr 32) := ⟨zeroSeed⟩
  have : Nonempty Scalar := ⟨scalarOne⟩
  have hn := order_pos
  have e : (avg fun p : Scalar × Scalar => avg fun b => gain D H O s f T p.1.1 p.2.1 b)
      = avg fun b => avg fun y : Scalar => avg fun x : Scalar => gain D H O s f T x.1 y.1 b := by
    rw [avg_comm]
    congr 1
    funext b
    rw [avg_prod (fun x y : Scalar => gain D H O s f T x.1 y.1 b), avg_comm]
  rw [e]
  refine (abs_avg_sub _ _).trans (avg_le fun b => (abs_avg_sub _ _).trans (avg_le fun y => ?_))
  exact avg_scalar (fun x => gain D H O s f T x y.1 b) (fun x => worth_nonneg _ _) (fun x => worth_le_one _ _)

open Classical in
theorem step_three :
    (avg fun b => avg fun y : Scalar => avg fun x : MaybeScalar => gain D H O s f T x y.1 b)
    = avg fun b => avg fun c : MaybeScalar => avg fun y : Scalar => worth D H O s f c (update T (stringOf s (firstNonce s c y.1 b) y.1) (some b)) := by
  have : Nonempty (Arr 32) := ⟨zeroSeed⟩
  have : Nonempty Scalar := ⟨scalarOne⟩
  have hn := order_pos
  congr 1
  funext b
  refine Eq.trans ?_ (avg_comm _)
  congr 1
  funext y
  rw [← avg_bij (sessionNonce_bij (s := s) y.1 b)]
  congr 1
  funext c
  unfold gain
  rw [sessionNonce_firstNonce]

open Classical in
theorem step_four {l : ℕ} {post : Prop → Prop}
    (hf : ∀ sig, AsksAtMost D post l (f sig)) :
    |(avg fun b => avg fun c : MaybeScalar => avg fun y : Scalar => worth D H O s f c (update T (stringOf s (firstNonce s c y.1 b) y.1) (some b)))
    - avg fun _b : Arr 32 => avg fun c : MaybeScalar => avg fun _y : Scalar => worth D H O s f c T| ≤ l / (orderN - 1 : ℕ) := by
  have : Nonempty (Arr 32) := ⟨zeroSeed⟩
  have : Nonempty Scalar := ⟨scalarOne⟩
  have hn := order_pos
  refine (abs_avg_sub _ _).trans (avg_le fun b => (abs_avg_sub _ _).trans (avg_le fun c => ?_))
  refine (abs_avg_sub _ _).trans ?_
  by_cases hc : c ≠ 0 ∧ c ≠ shift s
  · have e : ∀ T', worth D H O s f c T' = value D H (f (s.signer.sign O ⟨c, hc.1⟩)) T' := fun T' => dif_pos hc
    simp only [e]
    refine (avg_mono fun y : Scalar => value_close (Z := fun z => stringOf s (firstNonce s c y.1 b) y.1 = z) _ (fun z hz => ?_)).trans ?_
    · exact update_of_ne (fun e => hz e.symm) _ _
    · refine (avg_touch (fun (y : Scalar) z => stringOf s (firstNonce s c y.1 b) y.1 = z) (c := 1 / (orderN - 1 : ℕ)) (by positivity)
        (fun z => ?_) (hf _) T).trans (le_of_eq (by ring))
      rw [← hcard]
      convert avg_hit (φ := fun y : Scalar => stringOf s (firstNonce s c y.1 b) y.1) (fun y y' h => Subtype.ext (stringOf_inj h).2) z
  · have e : ∀ T', worth D H O s f c T' = 0 := fun T' => dif_neg hc
    simp only [e, sub_self, abs_zero]
    rw [avg_const]
    positivity

open Classical in
theorem step_five :
    |(avg fun c : MaybeScalar => worth D H O s f c T) - avg fun c : Scalar => value D H (f (s.signer.sign O c)) T|
    ≤ 1 / (orderN - 1 : ℕ) + 1 / (orderN - 1 : ℕ) := by
  have : Nonempty (Arr 32) := ⟨zeroSeed⟩
  have : Nonempty Scalar := ⟨scalarOne⟩
  have hn := order_pos
  have h1 := avg_scalar (fun c => worth D H O s f c T) (fun x => worth_nonneg _ _) (fun x => worth_le_one _ _)
  have h2 : |(avg fun c : Scalar => worth D H O s f c.1 T) - avg fun c : Scalar => value D H (f (s.signer.sign O c)) T|
      ≤ 1 / (orderN - 1 : ℕ) := by
    rw [← hcard]
    refine (abs_avg_sub _ _).trans ((avg_mono fun c => ?_).trans (avg_hit (φ := fun c : Scalar => c.1) Subtype.val_injective (shift s)))
    by_cases hc : c.1 = shift s
    · rw [if_pos hc]
      have hv := value_mem (D := D) (H := H) (f (s.signer.sign O c)) T
      have h0 : 0 ≤ worth D H O s f c.1 T := worth_nonneg _ _
      have h1 : worth D H O s f c.1 T ≤ 1 := worth_le_one _ _
      rw [abs_le]
      constructor <;> linarith [hv.1, hv.2]
    · rw [if_neg hc]
      have : worth D H O s f c.1 T = value D H (f (s.signer.sign O c)) T := dif_pos ⟨c.2, hc⟩
      rw [this, sub_self, abs_zero]
  rw [abs_sub_comm] at h1
  exact (abs_sub_le _ _ _).trans (add_le_add h1 h2)

theorem step_close (hD : ∀ x, DrawnNonce x → D x) (hH : TagsAgree O) (hs : s.Fits O) {j l : ℕ} (hT : Small T j) {post : Prop → Prop}
    (hf : ∀ sig, AsksAtMost D post l (f sig)) :
    |(avg fun p : Scalar × Scalar => value D H (groupStep O s f p) T)
      - avg fun c : Scalar => value D H (f (s.signer.sign O c)) T| ≤ (j + l + 5) / (orderN - 1 : ℕ) := by
  have : Nonempty (Arr 32) := ⟨zeroSeed⟩
  have : Nonempty Scalar := ⟨scalarOne⟩
  have a1 := step_one (H := H) (f := f) hD hH hs hT
  have a2 := step_two (D := D) (H := H) (O := O) (s := s) (f := f) (T := T)
  have a4 := step_four (D := D) (H := H) (O := O) (s := s) (T := T) hf
  have a5 := step_five (D := D) (H := H) (O := O) (s := s) (f := f) (T := T)
  rw [step_three] at a2
  simp only [avg_const] at a4
  have e : ((j : ℚ) + l + 5) / (orderN - 1 : ℕ) = j / (orderN - 1 : ℕ) + (1 / (orderN - 1 : ℕ) + 1 / (orderN - 1 : ℕ)) + 1 / (orderN - 1 : ℕ)
      + l / (orderN - 1 : ℕ) + (1 / (orderN - 1 : ℕ) + 1 / (orderN - 1 : ℕ)) := by ring
  rw [e]
  exact (abs_sub_le _ _ _).trans (add_le_add ((abs_sub_le _ _ _).trans (add_le_add ((abs_sub_le _ _ _).trans (add_le_add a1 a2)) a4)) a5)

/-! ## The whole game -/

omit [Fintype Scalar] [Fintype MaybeScalar] [Fintype (Arr 32)] in
theorem asks_groups (hD : ∀ x, DrawnNonce x → D x) {A : Outsider Spec.GroupOrder} {q k : ℕ} (hA : A.Within D (Spec.GroupOrder.Fits O) q k) (w : ℕ → Scalar × Scalar) :
    (A.groups O w).AsksAtMost D (fun _ => True) (q + k) := by
  induction A generalizing q k w with
  | done v => trivial
  | ask x next ih =>
    unfold Within at hA
    unfold groups Asker.AsksAtMost
    split at hA
    · rename_i hx
      obtain ⟨q', rfl, hA⟩ := hA
      rw [if_pos hx]
      exact ⟨q' + k, by omega, fun a => ih a (hA a) w⟩
    · rename_i hx
      rw [if_neg hx]
      exact fun a => ih a (hA a) w
  | sign s next ih =>
    obtain ⟨-, k', rfl, hA⟩ := hA
    unfold groups Asker.AsksAtMost
    rw [if_pos (hD _ (drawn_query s _))]
    refine ⟨q + k', by omega, fun b => ?_⟩
    dsimp only
    split
    · exact ih _ (hA _) _
    · trivial

omit [Fintype Scalar] [Fintype MaybeScalar] [Fintype (Arr 32)] in
theorem within_map {σ τ : Type} {f : σ → τ} {fits : σ → Prop} {fits' : τ → Prop} (hf : ∀ s, fits s → fits' (f s)) {A : Outsider σ} {q k : ℕ}
    (hA : A.Within D fits q k) : (A.map f).Within D fits' q k := by
  induction A generalizing q k with
  | done v => trivial
  | ask x next ih =>
    unfold Within at hA
    unfold map Within
    split at hA
    · rename_i hx
      obtain ⟨q', rfl, hA⟩ := hA
      rw [if_pos hx]
      exact ⟨q', rfl, fun a => ih a (hA a)⟩
    · rename_i hx
      rw [if_neg hx]
      exact fun a => ih a (hA a)
  | sign s next ih =>
    obtain ⟨hs, k', rfl, hA⟩ := hA
    exact ⟨hf s hs, k', rfl, fun sig => ih sig (hA sig)⟩

omit [Fintype Scalar] [Fintype MaybeScalar] [Fintype (Arr 32)] in
theorem map_map {σ τ υ : Type} (f : σ → τ) (g : τ → υ) (A : Outsider σ) : (A.map f).map g = A.map fun s => g (f s) := by
  induction A with
  | done v => rfl
  | ask x next ih =>
    simp only [map]
    exact congrArg _ (funext ih)
  | sign s next ih =>
    simp only [map]
    exact congrArg _ (funext ih)

omit [Fintype Scalar] [Fintype MaybeScalar] [Fintype (Arr 32)] in
theorem asks_signers {A : Outsider Spec.SignerOrder} {fits : Spec.SignerOrder → Prop} {q k : ℕ} (hA : A.Within D fits q k) (c : ℕ → Scalar) :
    (A.signers O c).AsksAtMost D (fun _ => True) q := by
  induction A generalizing q k c with
  | done v => trivial
  | ask x next ih =>
    unfold Within at hA
    unfold signers Asker.AsksAtMost
    split at hA
    · rename_i hx
      obtain ⟨q', rfl, hA⟩ := hA
      rw [if_pos hx]
      exact ⟨q', rfl, fun a => ih a (hA a) c⟩
    · rename_i hx
      rw [if_neg hx]
      exact fun a => ih a (hA a) c
  | sign s next ih =>
    obtain ⟨-, k', rfl, hA⟩ := hA
    unfold signers
    exact ih _ (hA _) _

omit [Fintype Scalar] [Fintype MaybeScalar] [Fintype (Arr 32)] in
theorem extend_cons_zero {α : Type} (d a : α) {k : ℕ} (w : Fin k → α) : extend d (Fin.cons a w : Fin (k + 1) → α) 0 = a := by
  unfold extend
  rw [dif_pos (Nat.succ_pos k)]
  rfl

omit [Fintype Scalar] [Fintype MaybeScalar] [Fintype (Arr 32)] in
theorem extend_cons_succ {α : Type} (d a : α) {k : ℕ} (w : Fin k → α) (i : ℕ) :
    extend d (Fin.cons a w : Fin (k + 1) → α) (i + 1) = extend d w i := by
  unfold extend
  by_cases h : i < k
  · rw [dif_pos h, dif_pos (Nat.succ_lt_succ h)]
    rfl
  · rw [dif_neg h, dif_neg fun h' => h (Nat.lt_of_succ_lt_succ h')]

theorem game_close (hD : ∀ x, DrawnNonce x → D x) (hH : TagsAgree O) {A : Outsider Spec.GroupOrder} {q k j : ℕ} (hA : A.Within D (Spec.GroupOrder.Fits O) q k) (hT : Small T j) :
    |(avg fun w : Fin k → Scalar × Scalar => value D H (A.groups O (extend (scalarOne, scalarOne) w)) T)
      - avg fun c : Fin k → Scalar => value D H ((A.map Spec.GroupOrder.signer).signers O (extend scalarOne c)) T|
      ≤ k * (j + q + k + 5) / (orderN - 1 : ℕ) := by
  have : Nonempty (Arr 32) := ⟨zeroSeed⟩
  have : Nonempty Scalar := ⟨scalarOne⟩
  have hn := order_pos
  induction A generalizing q k j T with
  | done v =>
    simp only [groups, map, signers, avg_const, sub_self, abs_zero]
    positivity
  | ask x next ih =>
    unfold Within at hA
    simp only [groups, map, signers]
    split at hA
    · rename_i hx
      obtain ⟨q', rfl, hA⟩ := hA
      cases hTx : T x with
      | some d =>
        simp only [value_known hx hTx]
        refine (ih d (hA d) hT).trans ?_
        refine div_le_div_of_nonneg_right (mul_le_mul_of_nonneg_left ?_ (Nat.cast_nonneg _)) hn.le
        push_cast
        linarith
      | none =>
        simp only [value_drawn hx hTx]
        rw [avg_comm, avg_comm (fun (c : Fin k → Scalar) h => value D H (((next h).map Spec.GroupOrder.signer).signers O (extend scalarOne c)) (update T x (some h)))]
        refine (abs_avg_sub _ _).trans (avg_le fun h => (ih h (hA h) (hT.update x _)).trans (le_of_eq ?_))
        push_cast
        ring
    · rename_i hx
      simp only [value_given hx]
      exact ih _ (hA _) hT
  | sign s next ih =>
    obtain ⟨hs, k', rfl, hA⟩ := hA
    let f : (Fin k' → Scalar × Scalar) → Bytes → Asker Prop := fun w sig => (next sig).groups O (extend (scalarOne, scalarOne) w)
    have e1 : (avg fun w : Fin (k' + 1) → Scalar × Scalar =>
        value D H ((Outsider.sign s next).groups O (extend (scalarOne, scalarOne) w)) T)
        = avg fun w : Fin k' → Scalar × Scalar => avg fun p : Scalar × Scalar => value D H (groupStep O s (f w) p) T := by
      rw [avg_cons, avg_comm]
      refine congrArg avg (funext fun w => congrArg avg (funext fun p => ?_))
      have e : (Outsider.sign s next).groups O (extend (scalarOne, scalarOne) (Fin.cons p w : Fin (k' + 1) → Scalar × Scalar))
          = groupStep O s (f w) p := by
        rw [groups]
        simp only [extend_cons_zero, extend_cons_succ]
        rfl
      rw [e]
    have e2 : (avg fun c : Fin (k' + 1) → Scalar => value D H (((Outsider.sign s next).map Spec.GroupOrder.signer).signers O (extend scalarOne c)) T)
        = avg fun a : Scalar => avg fun c : Fin k' → Scalar =>
          value D H (((next (s.signer.sign O a)).map Spec.GroupOrder.signer).signers O (extend scalarOne c)) T := by
      rw [avg_cons]
      refine congrArg avg (funext fun a => congrArg avg (funext fun c => ?_))
      have e : ((Outsider.sign s next).map Spec.GroupOrder.signer).signers O (extend scalarOne (Fin.cons a c : Fin (k' + 1) → Scalar))
          = ((next (s.signer.sign O a)).map Spec.GroupOrder.signer).signers O (extend scalarOne c) := by
        rw [map, signers]
        simp only [extend_cons_zero, extend_cons_succ]
      rw [e]
    rw [e1, e2]
    have h1 : |(avg fun w : Fin k' → Scalar × Scalar => avg fun p : Scalar × Scalar => value D H (groupStep O s (f w) p) T)
        - avg fun w : Fin k' → Scalar × Scalar => avg fun a : Scalar => value D H (f w (s.signer.sign O a)) T|
        ≤ (j + (q + k' : ℕ) + 5) / (orderN - 1 : ℕ) :=
      (abs_avg_sub _ _).trans (avg_le fun w => step_close hD hH hs hT fun sig => asks_groups hD (hA sig) _)
    have h2 : |(avg fun w : Fin k' → Scalar × Scalar => avg fun a : Scalar => value D H (f w (s.signer.sign O a)) T)
        - avg fun a : Scalar => avg fun c : Fin k' → Scalar =>
          value D H (((next (s.signer.sign O a)).map Spec.GroupOrder.signer).signers O (extend scalarOne c)) T|
        ≤ k' * (j + q + k' + 5) / (orderN - 1 : ℕ) := by
      rw [avg_comm]
      exact (abs_avg_sub _ _).trans (avg_le fun a => ih _ (hA _) hT)
    refine (abs_sub_le _ _ _).trans ((add_le_add h1 h2).trans ?_)
    rw [← add_div]
    refine div_le_div_of_nonneg_right ?_ hn.le
    push_cast
    nlinarith [(Nat.cast_nonneg k' : (0 : ℚ) ≤ k')]

omit [Fintype Scalar] [Fintype MaybeScalar] in
theorem chance_game {α : Type} [Fintype α] {m : ℕ} {p : α → Asker Prop} (hp : ∀ a, (p a).AsksAtMost D (fun _ => True) m) :
    (Spec.chance fun w : α × (Fin m → Arr 32) => ((p w.1).run D H (draws w.2) []).1)
      = avg fun a => value D H (p a) fun _ => none := by
  rw [Decision.chance_prod (fun a (ω : Fin m → Arr 32) => ((p a).run D H (draws ω) []).1)]
  unfold avg
  congr 2
  funext a
  exact chance_run (hp a) []

end Verif.Outsider
