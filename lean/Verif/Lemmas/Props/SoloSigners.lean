import Verif.Spec.SoloSigners
import Verif.Lemmas.Props.Member
import Verif.Lemmas.Props.SoloForger

/-!
# Helpers of `Props/SoloSigners`
-/

set_option linter.unusedSectionVars false

namespace Verif.Outsider

open Verif.CmaForger Verif.Asker Verif.ManySigs
open SecNonceBuilder (reduceOrOne)
open Function Finset
open NonceUser (avg_small avg_point avg_reduceOrOne)
open SoloForger (nonceQuery nonceQuery_inj not_both)

/-! ## What is hashed -/

theorem soloAux_inj {s s' : Arr 32} (h : soloAux s = soloAux s') : s = s' := by
  unfold soloAux Spec.taggedInput at h
  exact Subtype.ext (List.append_cancel_left h)

theorem drawn_soloAux (s : Arr 32) : DrawnSolo (soloAux s) := .inl (tag_prefix _ _)

theorem drawn_soloNonce (sk : Scalar) (a : Arr 32) (msg : Bytes) : DrawnSolo (nonceQuery sk a msg) := .inr (tag_prefix _ _)

theorem solo_ne (sk : Scalar) (s a : Arr 32) (msg : Bytes) : nonceQuery sk a msg ≠ soloAux s := fun h =>
  not_both (t := "BIP0340/nonce") (t' := "BIP0340/aux") (by decide +kernel) (by decide +kernel) (by decide) s.1 (by
    change _ <+: soloAux s
    rw [← h]
    exact tag_prefix _ _)

theorem tag_length (t : String) (x : Bytes) : 64 ≤ (Spec.taggedInput t x).length := by
  unfold Spec.taggedInput
  rw [List.length_append, List.length_append, (sha256 _).2]
  omega

/-- The adaptor signature of `sign_solo_adaptor` is that of its nonce. -/
theorem signSoloAdaptor_bytes {H : Hash} (hH : TagsAgree H) (d : Scalar) (msg : Bytes) (seed : Arr 32) (T : MaybePoint) :
    (signSoloAdaptor H d msg seed T).toBytes = Spec.adaptorWith H d (soloNonce H d msg seed) T msg := by
  rw [signSoloAdaptor_eq, adaptorWith_eq H hH, sgn_mul, sgn_mul]
  rfl

/-- What the library makes is that of its nonce. -/
theorem soloOutput_eq {H : Hash} (hH : TagsAgree H) (o : Spec.SignerOrder) (seed : Arr 32) :
    soloOutput H o seed = some (o.sign H (soloNonce H o.d o.msg seed)) := by
  unfold soloOutput Spec.SignerOrder.sign
  cases o.point with
  | none =>
    obtain ⟨sig, hs, hb⟩ := OneSigner.signSolo_bytes (ε := Unit) hH o.d o.msg seed
    dsimp only
    rw [hs, ← hb]
    rfl
  | some T =>
    dsimp only
    rw [signSoloAdaptor_bytes hH]

theorem sign_congr {H H' : Hash} (hH : TagsAgree H) (hH' : TagsAgree H')
    (h : ∀ x, tagHash H' BIP0340_CHALLENGE_TAG_DIGEST x = tagHash H BIP0340_CHALLENGE_TAG_DIGEST x) (o : Spec.SignerOrder) (k : Scalar) :
    o.sign H' k = o.sign H k := by
  unfold Spec.SignerOrder.sign
  cases o.point with
  | none => exact OneSigner.signWith_congr hH hH' h _ _ _
  | some T => exact adaptorWith_congr hH hH' h _ _ _ _

/-- What `sign_solo` and `sign_solo_adaptor` do. -/
theorem signSolo_eq {H : Hash} (hH : TagsAgree H) (o : Spec.SignerOrder) (s : Arr 32) (next : Bytes → Asker Prop) :
    signSolo H o s next = .ask (soloAux s) fun a => .ask (nonceQuery o.d a o.msg) fun h => next (o.sign H (reduceOrOne h)) := by
  unfold signSolo
  refine congrArg _ (funext fun a => congrArg _ (funext fun h => ?_))
  have h1 : TagsAgree (H.answering (soloAux s) a) := tagsAgree_answering hH (tag_length "BIP0340/aux" s.1) a
  have h2 : TagsAgree ((H.answering (soloAux s) a).answering (nonceQuery o.d a o.msg) h) := tagsAgree_answering h1 (tag_length _ _) h
  have e1 : SoloForger.mask ((H.answering (soloAux s) a).answering (nonceQuery o.d a o.msg) h) s = a := by
    unfold SoloForger.mask
    change ((H.answering (soloAux s) a).answering (nonceQuery o.d a o.msg) h) (soloAux s) = a
    rw [Hash.answering_of_ne _ _ fun e => solo_ne o.d s a o.msg e.symm, Hash.answering_same]
  have e2 : soloNonce ((H.answering (soloAux s) a).answering (nonceQuery o.d a o.msg) h) o.d o.msg s = reduceOrOne h := by
    rw [SoloForger.soloNonce_eq, e1, Hash.answering_same]
  rw [soloOutput_eq h2, e2]
  dsimp only
  rw [sign_congr hH h2 fun x => ?_]
  have hc : ∀ t : String, t = "BIP0340/aux" ∨ t = "BIP0340/nonce" → ∀ y, Spec.taggedInput "BIP0340/challenge" x ≠ Spec.taggedInput t y := by
    intro t ht y
    exact C66_domain_separation _ _ (by decide +kernel) (by rcases ht with rfl | rfl <;> decide +kernel) (by rcases ht with rfl | rfl <;> decide) _ _
  unfold tagHash
  rw [← taggedInput_eq (tag := "BIP0340/challenge") (D := BIP0340_CHALLENGE_TAG_DIGEST) (by simp [tagTable]),
    Hash.answering_of_ne _ _ (x := nonceQuery o.d a o.msg) (hc _ (.inr rfl) _), Hash.answering_of_ne _ _ (x := soloAux s) (hc _ (.inl rfl) _)]

/-! ## One signature -/

variable [Fintype Scalar] [Fintype (Arr 32)]
variable {D : Bytes → Prop} [DecidablePred D] {H O : Hash} {T : Table} {f : Bytes → Asker Prop} {o : Spec.SignerOrder}

/-- The strings that are hashed for the nonce. -/
def SoloHashed (sk : Scalar) (msg : Bytes) (p : Arr 32 × Arr 32) (y : Bytes) : Prop := y = soloAux p.1 ∨ y = nonceQuery sk p.2 msg

open Classical in
theorem solo_at (hD : ∀ x, DrawnSolo x → D x) (hO : TagsAgree O) (s : Arr 32) :
    |value D H (signSolo O o s f) T - avg fun h : Arr 32 => value D H (f (o.sign O (reduceOrOne h))) T|
      ≤ (if ∃ y, y = soloAux s ∧ T y ≠ none then (1 : ℚ) else 0)
        + avg fun a : Arr 32 => ((if ∃ y, y = nonceQuery o.d a o.msg ∧ T y ≠ none then (1 : ℚ) else 0)
          + avg fun h : Arr 32 => touch D H (SoloHashed o.d o.msg (s, a)) (f (o.sign O (reduceOrOne h))) T) := by
  have : Nonempty (Arr 32) := ⟨zeroSeed⟩
  have ht : ∀ a, 0 ≤ avg fun h : Arr 32 => touch D H (SoloHashed o.d o.msg (s, a)) (f (o.sign O (reduceOrOne h))) T :=
    fun a => avg_nonneg fun h => touch_nonneg _ _ _
  have hv : 0 ≤ (avg fun h : Arr 32 => value D H (f (o.sign O (reduceOrOne h))) T) ∧
      (avg fun h : Arr 32 => value D H (f (o.sign O (reduceOrOne h))) T) ≤ 1 :=
    ⟨avg_nonneg fun h => (value_mem _ _).1, avg_le fun h => (value_mem _ _).2⟩
  have hpos : ∀ a, 0 ≤ ((if ∃ y, y = nonceQuery o.d a o.msg ∧ T y ≠ none then (1 : ℚ) else 0)
      + avg fun h : Arr 32 => touch D H (SoloHashed o.d o.msg (s, a)) (f (o.sign O (reduceOrOne h))) T) :=
    fun a => add_nonneg (by split <;> norm_num) (ht a)
  by_cases hs : ∃ y, y = soloAux s ∧ T y ≠ none
  · rw [if_pos hs]
    have h1 := avg_nonneg hpos
    have h2 := value_mem (D := D) (H := H) (signSolo O o s f) T
    rw [abs_le]
    constructor <;> linarith [h2.1, h2.2, hv.1, hv.2]
  rw [if_neg hs, zero_add, signSolo_eq hO]
  have hs : T (soloAux s) = none := by
    by_contra h
    exact hs ⟨_, rfl, h⟩
  rw [value_drawn (hD _ (drawn_soloAux s)) hs,
    ← avg_const (α := Arr 32) (avg fun h : Arr 32 => value D H (f (o.sign O (reduceOrOne h))) T)]
  refine (abs_avg_sub _ _).trans (avg_mono fun a => ?_)
  by_cases ha : ∃ y, y = nonceQuery o.d a o.msg ∧ T y ≠ none
  · rw [if_pos ha]
    have h1 := ht a
    have h2 := value_mem (D := D) (H := H) (.ask (nonceQuery o.d a o.msg) fun h => f (o.sign O (reduceOrOne h)))
      (update T (soloAux s) (some a))
    rw [abs_le]
    constructor <;> linarith [h2.1, h2.2, hv.1, hv.2]
  rw [if_neg ha, zero_add]
  have h0 : T (nonceQuery o.d a o.msg) = none := by
    by_contra h
    exact ha ⟨_, rfl, h⟩
  rw [value_drawn (hD _ (drawn_soloNonce o.d a o.msg)) (by rw [update_of_ne (solo_ne o.d s a o.msg), h0])]
  refine (abs_avg_sub _ _).trans (avg_mono fun h => ?_)
  refine value_close _ fun y hy => ?_
  unfold SoloHashed at hy
  rw [not_or] at hy
  rw [update_of_ne hy.2, update_of_ne hy.1]

open Classical in
theorem soloHashed_rare (sk : Scalar) (msg y : Bytes) :
    (avg fun p : Arr 32 × Arr 32 => if SoloHashed sk msg p y then (1 : ℚ) else 0) ≤ 2 / 2 ^ 256 := by
  have : Nonempty (Arr 32) := ⟨zeroSeed⟩
  have h : ∀ p : Arr 32 × Arr 32, (if SoloHashed sk msg p y then (1 : ℚ) else 0) ≤ (if y = soloAux p.1 then (1 : ℚ) else 0)
      + if y = nonceQuery sk p.2 msg then (1 : ℚ) else 0 := by
    intro p
    unfold SoloHashed
    by_cases h1 : y = soloAux p.1
    · rw [if_pos (.inl h1), if_pos h1]
      have : (0 : ℚ) ≤ if y = nonceQuery sk p.2 msg then (1 : ℚ) else 0 := by split <;> norm_num
      linarith
    · rw [if_neg h1, zero_add]
      by_cases h2 : y = nonceQuery sk p.2 msg
      · rw [if_pos h2, if_pos (.inr h2)]
      · rw [if_neg h2, if_neg (not_or.2 ⟨h1, h2⟩)]
  refine (avg_mono h).trans ?_
  rw [avg_add, avg_prod (fun s _ => if y = soloAux s then (1 : ℚ) else 0),
    avg_prod (fun _ a => if y = nonceQuery sk a msg then (1 : ℚ) else 0)]
  simp only [avg_const]
  have h1 := avg_point (p := fun s => y = soloAux s) fun s s' h h' => soloAux_inj (h.symm.trans h')
  have h2 := avg_point (p := fun a => y = nonceQuery sk a msg) fun a a' h h' => (nonceQuery_inj (h.symm.trans h')).1
  refine (add_le_add h1 h2).trans (le_of_eq ?_)
  ring

theorem solo_step (hD : ∀ x, DrawnSolo x → D x) (hO : TagsAgree O) {j l : ℕ} (hT : Small T j)
    (hf : ∀ sig, (f sig).AsksAtMost D (fun _ => True) l) :
    |(avg fun s : Arr 32 => value D H (signSolo O o s f) T)
      - avg fun c : Scalar => value D H (f (o.sign O c)) T| ≤ 2 * (j + l) / 2 ^ 256 + 1 / 2 ^ 127 := by
  classical
  have : Nonempty (Arr 32) := ⟨zeroSeed⟩
  have h1 : |(avg fun s : Arr 32 => value D H (signSolo O o s f) T)
      - avg fun h : Arr 32 => value D H (f (o.sign O (reduceOrOne h))) T| ≤ 2 * (j + l) / 2 ^ 256 := by
    rw [← avg_const (α := Arr 32) (avg fun h : Arr 32 => value D H (f (o.sign O (reduceOrOne h))) T)]
    refine (abs_avg_sub _ _).trans ((avg_mono fun s => solo_at hD hO s).trans ?_)
    rw [avg_add]
    simp only [avg_add]
    rw [avg_const]
    have a1 := avg_small hT (s := fun s y => y = soloAux s) fun s s' y h h' => soloAux_inj (h.symm.trans h')
    have a2 := avg_small hT (s := fun a y => y = nonceQuery o.d a o.msg) fun a a' y h h' => (nonceQuery_inj (h.symm.trans h')).1
    have a3 : (avg fun s : Arr 32 => avg fun a : Arr 32 => avg fun h : Arr 32 =>
        touch D H (SoloHashed o.d o.msg (s, a)) (f (o.sign O (reduceOrOne h))) T) ≤ l * (2 / 2 ^ 256) := by
      rw [← avg_prod (fun s a : Arr 32 => avg fun h : Arr 32 =>
        touch D H (SoloHashed o.d o.msg (s, a)) (f (o.sign O (reduceOrOne h))) T), avg_comm]
      exact avg_le fun h => avg_touch (SoloHashed o.d o.msg) (by norm_num) (soloHashed_rare o.d o.msg) (hf _) T
    refine (add_le_add a1 (add_le_add a2 a3)).trans (le_of_eq ?_)
    ring
  have h2 := avg_reduceOrOne (fun c => value D H (f (o.sign O c)) T) fun c => value_mem _ _
  exact (abs_sub_le _ _ _).trans (add_le_add h1 h2)

/-! ## All signatures -/

omit [Fintype Scalar] [Fintype (Arr 32)] in
theorem asks_solo (hD : ∀ x, DrawnSolo x → D x) (hO : TagsAgree O) {l : ℕ} (hf : ∀ sig, (f sig).AsksAtMost D (fun _ => True) l) (s : Arr 32) :
    (signSolo O o s f).AsksAtMost D (fun _ => True) (l + 2) := by
  rw [signSolo_eq hO]
  unfold Asker.AsksAtMost
  rw [if_pos (hD _ (drawn_soloAux s))]
  refine ⟨l + 1, rfl, fun a => ?_⟩
  unfold Asker.AsksAtMost
  rw [if_pos (hD _ (drawn_soloNonce o.d a o.msg))]
  exact ⟨l, rfl, fun h' => hf _⟩

omit [Fintype Scalar] [Fintype (Arr 32)] in
theorem asks_solos (hD : ∀ x, DrawnSolo x → D x) (hO : TagsAgree O) {fits : Spec.SignerOrder → Prop} {A : Outsider Spec.SignerOrder} {q k : ℕ}
    (hA : A.Within D fits q k) (s : ℕ → Arr 32) : (A.solos O s).AsksAtMost D (fun _ => True) (q + 2 * k) := by
  induction A generalizing q k s with
  | done v => trivial
  | ask x next ih =>
    unfold Within at hA
    unfold solos Asker.AsksAtMost
    split at hA
    · rename_i hx
      obtain ⟨q', rfl, hA⟩ := hA
      rw [if_pos hx]
      exact ⟨q' + 2 * k, by omega, fun a => ih a (hA a) s⟩
    · rename_i hx
      rw [if_neg hx]
      exact fun a => ih a (hA a) s
  | sign o next ih =>
    obtain ⟨-, k', rfl, hA⟩ := hA
    exact asks_solo hD hO (fun sig => ih sig (hA sig) _) (s 0)

theorem solos_close (hD : ∀ x, DrawnSolo x → D x) (hO : TagsAgree O) {fits : Spec.SignerOrder → Prop} {A : Outsider Spec.SignerOrder} {q k j : ℕ}
    (hA : A.Within D fits q k) (hT : Small T j) :
    |(avg fun s : Fin k → Arr 32 => value D H (A.solos O (extend zeroSeed s)) T)
      - avg fun c : Fin k → Scalar => value D H (A.signers O (extend scalarOne c)) T|
      ≤ k * (2 * (j + q + 2 * k) / 2 ^ 256 + 1 / 2 ^ 127) := by
  have : Nonempty (Arr 32) := ⟨zeroSeed⟩
  have : Nonempty Scalar := ⟨scalarOne⟩
  have hmono : ∀ {x y : ℚ}, x ≤ y → (k : ℚ) * (2 * x / 2 ^ 256 + 1 / 2 ^ 127) ≤ k * (2 * y / 2 ^ 256 + 1 / 2 ^ 127) := by
    intro x y h
    gcongr
  induction A generalizing q k j T with
  | done v =>
    simp only [solos, signers, avg_const, sub_self, abs_zero]
    positivity
  | ask x next ih =>
    unfold Within at hA
    simp only [solos, signers]
    split at hA
    · rename_i hx
      obtain ⟨q', rfl, hA⟩ := hA
      cases hTx : T x with
      | some d =>
        simp only [value_known hx hTx]
        refine (ih d (hA d) hT hmono).trans (hmono ?_)
        push_cast
        linarith
      | none =>
        simp only [value_drawn hx hTx]
        rw [avg_comm, avg_comm (fun (c : Fin k → Scalar) h => value D H ((next h).signers O (extend scalarOne c)) (update T x (some h)))]
        refine (abs_avg_sub _ _).trans (avg_le fun h => (ih h (hA h) (hT.update x _) hmono).trans (hmono (le_of_eq ?_)))
        push_cast
        ring
    · rename_i hx
      simp only [value_given hx]
      exact ih _ (hA _) hT hmono
  | sign o next ih =>
    clear hmono
    obtain ⟨-, k', rfl, hA⟩ := hA
    let f : (Fin k' → Arr 32) → Bytes → Asker Prop := fun s sig => (next sig).solos O (extend zeroSeed s)
    have e1 : (avg fun s : Fin (k' + 1) → Arr 32 => value D H ((Outsider.sign o next).solos O (extend zeroSeed s)) T)
        = avg fun s : Fin k' → Arr 32 => avg fun t : Arr 32 => value D H (signSolo O o t (f s)) T := by
      rw [avg_cons, avg_comm]
      refine congrArg avg (funext fun s => congrArg avg (funext fun t => ?_))
      have e : (Outsider.sign o next).solos O (extend zeroSeed (Fin.cons t s : Fin (k' + 1) → Arr 32)) = signSolo O o t (f s) := by
        rw [solos]
        simp only [extend_cons_zero, extend_cons_succ]
        rfl
      rw [e]
    have e2 : (avg fun c : Fin (k' + 1) → Scalar => value D H ((Outsider.sign o next).signers O (extend scalarOne c)) T)
        = avg fun a : Scalar => avg fun c : Fin k' → Scalar =>
          value D H ((next (o.sign O a)).signers O (extend scalarOne c)) T := by
      rw [avg_cons]
      refine congrArg avg (funext fun a => congrArg avg (funext fun c => ?_))
      have e : (Outsider.sign o next).signers O (extend scalarOne (Fin.cons a c : Fin (k' + 1) → Scalar))
          = (next (o.sign O a)).signers O (extend scalarOne c) := by
        rw [signers]
        simp only [extend_cons_zero, extend_cons_succ]
      rw [e]
    rw [e1, e2]
    have h1 : |(avg fun s : Fin k' → Arr 32 => avg fun t : Arr 32 => value D H (signSolo O o t (f s)) T)
        - avg fun s : Fin k' → Arr 32 => avg fun a : Scalar => value D H (f s (o.sign O a)) T|
        ≤ 2 * (j + (q + 2 * k' : ℕ)) / 2 ^ 256 + 1 / 2 ^ 127 :=
      (abs_avg_sub _ _).trans (avg_le fun s => solo_step hD hO hT fun sig => asks_solos hD hO (hA sig) _)
    have h2 : |(avg fun s : Fin k' → Arr 32 => avg fun a : Scalar => value D H (f s (o.sign O a)) T)
        - avg fun a : Scalar => avg fun c : Fin k' → Scalar =>
          value D H ((next (o.sign O a)).signers O (extend scalarOne c)) T|
        ≤ k' * (2 * (j + q + 2 * k') / 2 ^ 256 + 1 / 2 ^ 127) := by
      rw [avg_comm]
      refine (abs_avg_sub _ _).trans (avg_le fun a => ih _ (hA _) hT ?_)
      intro x y h
      gcongr
    refine (abs_sub_le _ _ _).trans ((add_le_add h1 h2).trans ?_)
    have h3 : (k' : ℚ) * (2 * (j + q + 2 * k') / 2 ^ 256 + 1 / 2 ^ 127)
        ≤ k' * (2 * (j + q + 2 * (k' + 1 : ℕ)) / 2 ^ 256 + 1 / 2 ^ 127) := by
      gcongr
      omega
    have h4 : 2 * ((j : ℚ) + (q + 2 * k' : ℕ)) / 2 ^ 256 + 1 / 2 ^ 127
        ≤ 2 * (j + q + 2 * (k' + 1 : ℕ)) / 2 ^ 256 + 1 / 2 ^ 127 := by
      have : (j : ℚ) + (q + 2 * k' : ℕ) ≤ j + q + 2 * (k' + 1 : ℕ) := by
        push_cast
        linarith
      gcongr
    refine (add_le_add h4 h3).trans (le_of_eq ?_)
    push_cast
    ring

end Verif.Outsider

namespace Verif.Watcher

open Verif.Asker Outsider
open NonceUser (DrawnSeed)

theorem every_any (x : Bytes) (h : DrawnAny x) : DrawnEvery x := .inl (.inl h)

theorem every_seed (x : Bytes) (h : DrawnSeed x) : DrawnEvery x := .inl (.inr h)

theorem every_solo (x : Bytes) (h : DrawnSolo x) : DrawnEvery x := .inr h

variable {D : Bytes → Prop} [DecidablePred D] {H : Hash} {p : Plan} {N q' k : ℕ}

/-- The single signer of `sign_solo`. -/
def solo (H : Hash) (x : Scalar) (s : ℕ → Arr 32) (p : Plan) : Asker Prop := ((p.watch (mulG x)).map (Order.signer x)).solos H s

theorem asks_solo (hD : ∀ x, DrawnSolo x → D x) (hH : TagsAgree H) (hp : p.Within D N q' k) (x : Scalar) (s : ℕ → Arr 32) :
    (solo H x s p).AsksAtMost D (fun _ => True) (q' + 2 * k) :=
  Outsider.asks_solos hD hH (Outsider.within_map (fits' := fun _ => True) (fun _ _ => trivial) (hp.2 _)) s

theorem single_solo [Fintype Scalar] [Fintype (Arr 32)] (hD : ∀ x, DrawnSolo x → D x) (hH : TagsAgree H) (hp : p.Within D N q' k) {T : Table}
    {j : ℕ} (hT : Small T j) :
    |(avg fun g : Scalar × (Fin k → Scalar) => value D H (single H g.1 (extend scalarOne g.2) p) T)
      - avg fun g : Scalar × (Fin k → Arr 32) => value D H (solo H g.1 (extend zeroSeed g.2) p) T|
      ≤ k * (2 * (j + q' + 2 * k) / 2 ^ 256 + 1 / 2 ^ 127) := by
  have : Nonempty Scalar := ⟨scalarOne⟩
  have : Nonempty (Arr 32) := ⟨zeroSeed⟩
  rw [Asker.avg_prod fun x (c : Fin k → Scalar) => value D H (single H x (extend scalarOne c) p) T,
    Asker.avg_prod fun x (s : Fin k → Arr 32) => value D H (solo H x (extend zeroSeed s) p) T]
  refine (Asker.abs_avg_sub _ _).trans (Asker.avg_le fun x => ?_)
  rw [abs_sub_comm]
  exact Outsider.solos_close hD hH (Outsider.within_map (fits' := fun _ => True) (fun _ _ => trivial) (hp.2 _)) hT

theorem bound_solo (k q q' : ℕ) (M c : ℚ) (hM : (q : ℚ) + q' + 2 * k ≤ M) :
    (k : ℚ) * M / 2 ^ 254 + k / 2 ^ 126 + c + k * (2 * (q + q' + 2 * k) / 2 ^ 256 + 1 / 2 ^ 127) ≤ k * M / 2 ^ 253 + k / 2 ^ 125 + c := by
  have hk : (0 : ℚ) ≤ k := Nat.cast_nonneg k
  have h : (k : ℚ) * (2 * (q + q' + 2 * k) / 2 ^ 256 + 1 / 2 ^ 127) ≤ k * (2 * M / 2 ^ 256 + 1 / 2 ^ 127) := by gcongr
  have hM0 : (0 : ℚ) ≤ k * M := mul_nonneg hk (le_trans (by positivity) hM)
  have e : (k : ℚ) * M / 2 ^ 253 + k / 2 ^ 125 + c = k * M / 2 ^ 254 + k / 2 ^ 126 + c + k * (2 * M / 2 ^ 256 + 1 / 2 ^ 127)
      + (k * M / 2 ^ 255 + k / 2 ^ 127) := by ring
  rw [e]
  have h0 : 0 ≤ (k : ℚ) * M / 2 ^ 255 + k / 2 ^ 127 := by positivity
  exact (add_le_add le_rfl h).trans (le_add_of_nonneg_right h0)

end Verif.Watcher
