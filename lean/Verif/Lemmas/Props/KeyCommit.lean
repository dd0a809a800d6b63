import Verif.Spec.KeyCommit
import Verif.Lemmas.Asker
import Verif.Lemmas.Props.AnyGroup
import Verif.Props.Uniform

/-!
# Lemmas for `Props/KeyCommit`
-/

namespace Verif.KeyCommit

open CmaForger (chance_mono chance_or chance_nonneg)
open Forger (Log)
open AnyForger (coeffString)
open Asker (Distinct find_none mem_of_find find_of_mem)

/-! ## What is hashed -/

theorem flatten_inj {l l' : List Point} (h : (l.map fun K => Spec.cbytes K.1).flatten = (l'.map fun K => Spec.cbytes K.1).flatten) :
    l = l' := by
  have hlen : ∀ K : Point, (Spec.cbytes K.1).length = 33 := fun K => by rw [spec_cbytes_point]; exact (serPoint _).2
  induction l generalizing l' with
  | nil =>
    cases l' with
    | nil => rfl
    | cons K l' =>
      have := congrArg List.length h
      rw [List.map_cons, List.flatten_cons, List.length_append, hlen] at this
      simp at this
      omega
  | cons K l ih =>
    cases l' with
    | nil =>
      have := congrArg List.length h
      rw [List.map_cons, List.flatten_cons, List.length_append, hlen] at this
      simp at this
    | cons K' l' =>
      rw [List.map_cons, List.map_cons, List.flatten_cons, List.flatten_cons] at h
      obtain ⟨h1, h2⟩ := List.append_inj h (by rw [hlen, hlen])
      rw [spec_cbytes_point, spec_cbytes_point, serPoint_point_inj] at h1
      rw [h1, ih h2]

theorem listString_inj {l l' : List Point} (h : listString l = listString l') : l = l' := flatten_inj (taggedInput_injective h)

theorem coeffString_inj {L L' : Arr 32} {P P' : Point} (h : coeffString (L, P) = coeffString (L', P')) : L = L' ∧ P = P' :=
  C66_inputs_determined.2.2 _ _ _ _ h

theorem tap_inj {Q Q' : Point} {r r' : Bytes} (h : Spec.taptweakQuery Q r = Spec.taptweakQuery Q' r') :
    xonly Q.1 = xonly Q'.1 ∧ r = r' := by
  have h := taggedInput_injective h
  rw [spec_xbytes, spec_xbytes] at h
  obtain ⟨h1, h2⟩ := List.append_inj h (by rw [(xonly _).2, (xonly _).2])
  exact ⟨Subtype.ext h1, h2⟩

theorem tag_apart {t t' : String} (ht : t ∈ Spec.tags) (ht' : t' ∈ Spec.tags) (hne : t ≠ t') (x : Bytes) :
    ¬ Spec.taggedInput t [] <+: Spec.taggedInput t' x := by
  rintro ⟨r, hr⟩
  refine C66_domain_separation t t' ht ht' hne r x ?_
  rw [← hr]
  unfold Spec.taggedInput
  rw [List.append_nil]

theorem drawn_list (keys : List Point) : Drawn (listString keys) := .inl (tag_prefix _ _)
theorem drawn_coeff (c : Arr 32 × Point) : Drawn (coeffString c) := .inr (.inl (tag_prefix _ _))
theorem drawn_tap (Q : Point) (r : Bytes) : Drawn (Spec.taptweakQuery Q r) := .inr (.inr (tag_prefix _ _))

theorem coeffString_ne_listString (c : Arr 32 × Point) (keys : List Point) : coeffString c ≠ listString keys :=
  C66_domain_separation _ _ (by simp [Spec.tags]) (by simp [Spec.tags]) (by decide) _ _

theorem hashPubkeys_eq (O : Hash) (keys : List Point) : hashPubkeys O keys = O (listString keys) := (C66_what_is_hashed _).1 _

theorem coeffQuery_eq (O : Hash) (keys : List Point) (P : Point) : Spec.coeffQuery O keys P = coeffString (O (listString keys), P) := rfl

/-- The sum depends on few hashes. -/
theorem keySum_congr {O O' : Hash} {keys : List Point} (hL : O (listString keys) = O' (listString keys))
    (hc : ∀ P ∈ keys, secondKey keys ≠ some P → O (coeffString (O (listString keys), P)) = O' (coeffString (O (listString keys), P))) :
    keySum O keys = keySum O' keys := by
  unfold keySum
  congr 1
  refine List.map_congr_left fun P hP => ?_
  congr 1
  by_cases h2 : secondKey keys = some P
  · rw [GroupForger.coeffOf_second h2, GroupForger.coeffOf_second h2]
  · rw [GroupForger.coeffOf_of_ne h2, GroupForger.coeffOf_of_ne h2, coeffQuery_eq, coeffQuery_eq, hc P hP h2, hL]

theorem key_eq_some {O : Hash} {g : Group} {Q : Point} :
    g.key O = some Q ↔ g.keys ≠ [] ∧ g.keys.length ≤ u32Max ∧ keySum O g.keys = Q.1 := by
  unfold Group.key
  constructor
  · intro h
    split at h
    · rename_i ctx hctx
      obtain ⟨h1, h2, Q', h3, rfl⟩ := new_eq_ok.1 hctx
      cases h
      exact ⟨h1, h2, h3⟩
    · cases h
  · rintro ⟨h1, h2, h3⟩
    rw [new_eq_ok.2 ⟨h1, h2, Q, h3, rfl⟩]
    rfl

theorem output_eq_some {O : Hash} {g : Group} {Q : Point} (h : g.output O = some Q) :
    ∃ Q₀ : Point, g.key O = some Q₀ ∧
      Q.1 = (toEvenY Q₀).1 + reduceFrom (O (Spec.taptweakQuery Q₀ g.rootBytes)) • G := by
  unfold Group.output at h
  split at h
  · rename_i ctx hctx
    have hi : g.tweak O ctx = ctx.withTaprootTweakInternal O g.rootBytes := by
      unfold Group.tweak Group.rootBytes
      cases g.root <;> rfl
    rw [hi] at h
    split at h
    · rename_i ctx' hctx'
      cases h
      refine ⟨ctx.aggregatedPubkey, by unfold Group.key; rw [hctx], ?_⟩
      unfold KeyAggContext.withTaprootTweakInternal at hctx'
      simp only [Res.bind_eq_ok, Res.okOr_eq_ok] at hctx'
      obtain ⟨k, hk, e⟩ := hctx'
      obtain ⟨Q', hQ', rfl⟩ := withXonlyTweak_eq_ok.1 e
      have hq : tagHash O TAPROOT_TWEAK_TAG_DIGEST ((xonly ctx.pubkey.1).1 ++ g.rootBytes)
          = O (Spec.taptweakQuery ctx.aggregatedPubkey g.rootBytes) := by
        unfold tagHash Spec.taptweakQuery
        rw [taggedInput_eq (D := TAPROOT_TWEAK_TAG_DIGEST) (by simp [tagTable]), spec_xbytes]
        rfl
      rw [hq] at hk
      have hr : reduceFrom (O (Spec.taptweakQuery ctx.aggregatedPubkey g.rootBytes)) = k.1 := by
        unfold reduceFrom
        rw [parseScalar_val hk]
        exact ZMod.natCast_zmod_val _
      rw [hr]
      exact hQ'.symm.trans (by rw [toEvenY_val]; rfl)
    · cases h
  · cases h

/-! ## Chances -/

theorem chance_mem {α Ω : Type} [Finite Ω] [Nonempty Ω] (l : List α) (E : α → Ω → Prop) (c : ℚ) (h : ∀ a ∈ l, Spec.chance (E a) ≤ c) :
    (Spec.chance fun ω => ∃ a ∈ l, E a ω) ≤ l.length * c := by
  induction l with
  | nil =>
    refine le_of_eq ?_
    unfold Spec.chance
    simp
  | cons a l ih =>
    have h1 : ∀ ω, (∃ b ∈ a :: l, E b ω) → E a ω ∨ ∃ b ∈ l, E b ω := fun ω h => by simpa using h
    refine (chance_mono h1).trans ((chance_or _ _).trans ?_)
    have h2 := h a (by simp)
    have h3 := ih fun b hb => h b (by simp [hb])
    rw [List.length_cons]
    push_cast
    linarith

theorem chance_eq_prob (E : Arr 32 → Prop) : Spec.chance E = Spec.prob E := by
  unfold Spec.chance Spec.prob
  rw [arr_card]
  norm_num

theorem chance_two {E : Arr 32 → Prop} (hE : ∀ h h', E h → E h' → reduceFrom h = reduceFrom h') : Spec.chance E ≤ 2 / 2 ^ 256 :=
  (chance_eq_prob E).trans_le (prob_le_two hE)

theorem chance_xonly {f : Arr 32 → MaybePoint} (hf : ∀ h h', f h = f h' → reduceFrom h = reduceFrom h') (Q : MaybePoint) :
    (Spec.chance fun h => xonly (f h) = xonly Q) ≤ 4 / 2 ^ 256 := by
  have h1 : ∀ h, xonly (f h) = xonly Q → f h = Q ∨ f h = -Q := fun h e => xonly_eq_iff.1 e
  refine (chance_mono h1).trans ((chance_or _ _).trans ?_)
  have h2 := chance_two (E := fun h => f h = Q) fun h h' e e' => hf h h' (e.trans e'.symm)
  have h3 := chance_two (E := fun h => f h = -Q) fun h h' e e' => hf h h' (e.trans e'.symm)
  linarith


/-! ## The draws that are excluded -/

/-- The list hash in an entry: the answer, or the one that is part of the string. -/
def IsListHash (e : Bytes × Arr 32) (L : Arr 32) : Prop :=
  ((∃ keys, e.1 = listString keys) ∧ e.2 = L) ∨ ∃ P, e.1 = coeffString (L, P)

/-- Different lists in the log have different hashes. -/
def Nice (log : Log) : Prop :=
  ∀ (l l' : List Point) (L : Arr 32), (listString l, L) ∈ log → (listString l', L) ∈ log → l = l'

/-- What must not be drawn. -/
structure bad (H : Hash) (log : Log) (x : Bytes) (h : Arr 32) : Prop where
  distinct : Distinct log
  fresh : log.find x = none
  nice : Nice log
  clash : (∃ e ∈ log, (∃ keys, x = listString keys) ∧ IsListHash e h) ∨
    (∃ l l' P L, x = coeffString (L, P) ∧ P ∈ l ∧ secondKey l ≠ some P ∧ l.length ≤ u32Max ∧ (listString l, L) ∈ log ∧
      (∃ e ∈ log, e.1 = listString l' ∧ l' ≠ l ∧
        xonly (keySum ((log.hash H).answering x h) l) = xonly (keySum (log.hash H) l'))) ∨
    ∃ Q r Q' r', x = Spec.taptweakQuery Q r ∧ ∃ e ∈ log, e.1 = Spec.taptweakQuery Q' r' ∧
      xonly ((toEvenY Q).1 + reduceFrom h • G) = xonly ((toEvenY Q').1 + reduceFrom e.2 • G)

theorem hash_of_mem {H : Hash} {log : Log} (hd : Distinct log) {x : Bytes} {d : Arr 32} (h : (x, d) ∈ log) : log.hash H x = d := by
  unfold Log.hash
  rw [find_of_mem hd h]
  rfl

theorem hash_add {H : Hash} {log : Log} (hd : Distinct log) {x : Bytes} (hx : log.find x = none) (h : Arr 32) :
    Log.hash H (log ++ [(x, h)]) = (log.hash H).answering x h := by
  have hd' := Asker.distinct_add hd hx h
  funext y
  unfold Hash.answering
  by_cases hy : y = x
  · subst hy
    rw [if_pos rfl]
    exact hash_of_mem hd' (by simp)
  · rw [if_neg hy]
    unfold Log.hash Log.find
    rw [List.find?_append]
    cases List.find? (fun e => decide (e.1 = y)) log with
    | some e => rfl
    | none =>
      rw [Option.none_or, List.find?_singleton, if_neg (by simpa using fun e => hy e.symm)]

theorem coeffString_ne_tap (c : Arr 32 × Point) (Q : Point) (r : Bytes) : coeffString c ≠ Spec.taptweakQuery Q r :=
  C66_domain_separation _ _ (by simp [Spec.tags]) (by simp [Spec.tags]) (by decide) _ _

theorem listString_ne_tap (keys : List Point) (Q : Point) (r : Bytes) : listString keys ≠ Spec.taptweakQuery Q r :=
  C66_domain_separation _ _ (by simp [Spec.tags]) (by simp [Spec.tags]) (by decide) _ _

theorem chance_zero {Ω : Type} {E : Ω → Prop} (h : ∀ ω, ¬ E ω) (c : ℚ) (hc : 0 ≤ c) : Spec.chance E ≤ c := by
  refine le_trans (le_of_eq ?_) hc
  unfold Spec.chance
  simp [h]

theorem chance_unique {E : Arr 32 → Prop} (hE : ∀ h h', E h → E h' → h = h') : Spec.chance E ≤ 4 / 2 ^ 256 :=
  (chance_two fun h h' e e' => by rw [hE h h' e e']).trans (div_le_div_of_nonneg_right (by norm_num) (by positivity))

theorem isListHash_unique {e : Bytes × Arr 32} {L L' : Arr 32} (h : IsListHash e L) (h' : IsListHash e L') : L = L' := by
  rcases h with ⟨⟨k, hk⟩, h⟩ | ⟨P, h⟩ <;> rcases h' with ⟨⟨k', hk'⟩, h'⟩ | ⟨P', h'⟩
  · exact h.symm.trans h'
  · exact absurd (h'.symm.trans hk) (coeffString_ne_listString _ _)
  · exact absurd (h.symm.trans hk') (coeffString_ne_listString _ _)
  · exact (coeffString_inj (h.symm.trans h')).1

theorem chance_bad (H : Hash) (log : Log) (x : Bytes) : Spec.chance (bad H log x) ≤ 4 * log.length / 2 ^ 256 := by
  haveI : Nonempty (Arr 32) := ⟨zeroSeed⟩
  have hz : (0 : ℚ) ≤ 4 * log.length / 2 ^ 256 := by positivity
  have hform : (4 * log.length / 2 ^ 256 : ℚ) = log.length * (4 / 2 ^ 256) := by ring
  by_cases hx1 : ∃ keys, x = listString keys
  · have hs : ∀ h, bad H log x h → ∃ e ∈ log, IsListHash e h := by
      rintro h ⟨-, -, -, ⟨e, he, -, hl⟩ | ⟨l, l', P, L, hx, -⟩ | ⟨Q, r, Q', r', hx, -⟩⟩
      · exact ⟨e, he, hl⟩
      · obtain ⟨k, hk⟩ := hx1
        exact absurd (hx.symm.trans hk) (coeffString_ne_listString _ _)
      · obtain ⟨k, hk⟩ := hx1
        exact absurd (hk.symm.trans hx) (listString_ne_tap _ _ _)
    refine (chance_mono hs).trans ((chance_mem log IsListHash (4 / 2 ^ 256) fun e _ => ?_).trans_eq hform.symm)
    exact chance_unique fun h h' => isListHash_unique
  by_cases hx2 : ∃ c, x = coeffString c
  · obtain ⟨⟨L, P⟩, rfl⟩ := hx2
    by_cases hex : Distinct log ∧ log.find (coeffString (L, P)) = none ∧ Nice log ∧
      ∃ l, P ∈ l ∧ secondKey l ≠ some P ∧ l.length ≤ u32Max ∧ (listString l, L) ∈ log
    · obtain ⟨hd, hf, hn, l, hP, h2, hlen, hl⟩ := hex
      have hs : ∀ h, bad H log (coeffString (L, P)) h → ∃ e ∈ log, ∃ l', e.1 = listString l' ∧
          xonly (keySum ((log.hash H).answering (coeffString (L, P)) h) l) = xonly (keySum (log.hash H) l') := by
        rintro h ⟨-, -, -, ⟨e, he, hk, -⟩ | ⟨l₁, l', P', L', hx, hP', h2', -, hl', e, he, hel, -, heq⟩ | ⟨Q, r, Q', r', hx, -⟩⟩
        · exact absurd hk hx1
        · obtain ⟨rfl, rfl⟩ := coeffString_inj hx
          obtain rfl := hn _ _ _ hl' hl
          exact ⟨e, he, l', hel, heq⟩
        · exact absurd hx (coeffString_ne_tap _ _ _)
      refine (chance_mono hs).trans ((chance_mem log (fun e h => ∃ l', e.1 = listString l' ∧
          xonly (keySum ((log.hash H).answering (coeffString (L, P)) h) l) = xonly (keySum (log.hash H) l')) (4 / 2 ^ 256)
          fun e _ => ?_).trans_eq hform.symm)
      by_cases he : ∃ l', e.1 = listString l'
      · obtain ⟨l', he⟩ := he
        refine (chance_mono (F := fun h => xonly (keySum ((log.hash H).answering (coeffString (L, P)) h) l)
          = xonly (keySum (log.hash H) l')) ?_).trans (chance_xonly (fun h h' e => ?_) _)
        · rintro h ⟨l₁, h1, h2⟩
          rwa [listString_inj (h1.symm.trans he)] at h2
        · have hq : Spec.coeffQuery (log.hash H) l P = coeffString (L, P) := by
            rw [coeffQuery_eq, hash_of_mem hd hl]
          rw [← hq] at e
          exact keySum_answering_inj _ l P hP hlen h2 h h' e
      · exact chance_zero (fun h hh => he (hh.imp fun _ => And.left)) _ (by positivity)
    · refine chance_zero (fun h hh => hex ?_) _ hz
      obtain ⟨hd, hf, hn, ⟨e, he, hk, -⟩ | ⟨l₁, l', P', L', hx, hP', h2', hlen, hl', -⟩ | ⟨Q, r, Q', r', hx, -⟩⟩ := hh
      · exact absurd hk hx1
      · obtain ⟨rfl, rfl⟩ := coeffString_inj hx
        exact ⟨hd, hf, hn, l₁, hP', h2', hlen, hl'⟩
      · exact absurd hx (coeffString_ne_tap _ _ _)
  by_cases hx3 : ∃ Q r, x = Spec.taptweakQuery Q r
  · obtain ⟨Q, r, rfl⟩ := hx3
    have heven : ∀ {Q₁ Q₂ : Point} {r₁ r₂ : Bytes}, Spec.taptweakQuery Q₁ r₁ = Spec.taptweakQuery Q₂ r₂ → toEvenY Q₁ = toEvenY Q₂ := by
      intro Q₁ Q₂ r₁ r₂ h
      refine Subtype.ext (eq_of_xonly_isOdd ?_ ((isOdd_toEvenY _).trans (isOdd_toEvenY _).symm))
      rw [xonly_toEvenY, xonly_toEvenY, (tap_inj h).1]
    have hs : ∀ h, bad H log (Spec.taptweakQuery Q r) h → ∃ e ∈ log, ∃ Q' r', e.1 = Spec.taptweakQuery Q' r' ∧
        xonly ((toEvenY Q).1 + reduceFrom h • G) = xonly ((toEvenY Q').1 + reduceFrom e.2 • G) := by
      rintro h ⟨-, -, -, ⟨e, he, hk, -⟩ | ⟨l₁, l', P', L', hx, -⟩ | ⟨Q₁, r₁, Q', r', hx, e, he, hee, hxx⟩⟩
      · exact absurd hk hx1
      · exact absurd ⟨_, hx⟩ hx2
      · rw [← heven hx] at hxx
        exact ⟨e, he, Q', r', hee, hxx⟩
    refine (chance_mono hs).trans ((chance_mem log (fun e h => ∃ Q' r', e.1 = Spec.taptweakQuery Q' r' ∧
        xonly ((toEvenY Q).1 + reduceFrom h • G) = xonly ((toEvenY Q').1 + reduceFrom e.2 • G)) (4 / 2 ^ 256)
        fun e _ => ?_).trans_eq hform.symm)
    by_cases he : ∃ Q' r', e.1 = Spec.taptweakQuery Q' r'
    · obtain ⟨Q', r', he⟩ := he
      refine (chance_mono (F := fun h => xonly ((toEvenY Q).1 + reduceFrom h • G) = xonly ((toEvenY Q').1 + reduceFrom e.2 • G)) ?_).trans
        (chance_xonly (fun h h' e => smul_G_inj.1 (add_left_cancel e)) _)
      rintro h ⟨Q₁, r₁, h1, h2⟩
      rwa [heven (h1.symm.trans he)] at h2
    · exact chance_zero (fun h hh => he (by obtain ⟨Q', r', h1, -⟩ := hh; exact ⟨Q', r', h1⟩)) _ (by positivity)
  · refine chance_zero (fun h hh => ?_) _ hz
    obtain ⟨-, -, -, ⟨e, he, hk, -⟩ | ⟨l₁, l', P', L', hx, -⟩ | ⟨Q₁, r₁, Q', r', hx, -⟩⟩ := hh
    · exact hx1 hk
    · exact hx2 ⟨_, hx⟩
    · exact hx3 ⟨_, _, hx⟩

/-! ## In the end -/

theorem distinct_take {log : Log} (h : Distinct log) (t : ℕ) : Distinct (log.take t) :=
  (((List.take_sublist t log).map _).nodup h :)

theorem mem_take {log : Log} {i t : ℕ} {e : Bytes × Arr 32} (hi : log[i]? = some e) (hit : i < t) : e ∈ log.take t := by
  refine List.mem_of_getElem? (i := i) ?_
  rw [List.getElem?_take_of_lt hit, hi]

theorem fresh_take {log : Log} (hd : Distinct log) {t : ℕ} {x : Bytes} {h : Arr 32} (ht : log[t]? = some (x, h)) :
    Log.find (log.take t) x = none := by
  rw [find_none]
  intro hm
  obtain ⟨e, he, hx⟩ := List.mem_map.1 hm
  obtain ⟨i, hi⟩ := List.mem_iff_getElem?.1 he
  have hlt : i < t := by
    by_contra hn
    rw [List.getElem?_eq_none (by rw [List.length_take]; omega)] at hi
    cases hi
  rw [List.getElem?_take_of_lt hlt] at hi
  have h1 : (log.map (·.1))[i]? = some x := by rw [List.getElem?_map, hi]; exact congrArg some hx
  have h2 : (log.map (·.1))[t]? = some x := by rw [List.getElem?_map, ht]; rfl
  obtain ⟨l1, e1⟩ := List.getElem?_eq_some_iff.1 h1
  obtain ⟨l2, e2⟩ := List.getElem?_eq_some_iff.1 h2
  exact absurd ((List.Nodup.getElem_inj_iff hd).1 (e1.trans e2.symm)) (by omega)

theorem nice_take {H : Hash} {log : Log} (hd : Distinct log) (hg : Asker.Good (bad H) log) (t : ℕ) : Nice (log.take t) := by
  induction t with
  | zero => intro l l' L h; simp at h
  | succ t ih =>
    have key : ∀ (i j : ℕ) l l' (L : Arr 32), i < j → j < t + 1 → log[i]? = some (listString l, L) → log[j]? = some (listString l', L) →
        False := by
      intro i j l l' L hij hj hi hj'
      refine hg j _ _ hj' ⟨distinct_take hd j, fresh_take hd hj', ?_, .inl ⟨_, mem_take hi hij, ⟨l', rfl⟩, .inl ⟨⟨l, rfl⟩, rfl⟩⟩⟩
      intro k k' K h h'
      have hsub : ∀ e ∈ log.take j, e ∈ log.take t := fun e he =>
        (List.take_prefix_take_left (by omega : j ≤ t)).mem he
      exact ih k k' K (hsub _ h) (hsub _ h')
    intro l l' L h h'
    obtain ⟨i, hi⟩ := List.mem_iff_getElem?.1 h
    obtain ⟨j, hj⟩ := List.mem_iff_getElem?.1 h'
    have lt_of : ∀ {i : ℕ} {e}, (log.take (t + 1))[i]? = some e → i < t + 1 ∧ log[i]? = some e := by
      intro i e hi
      have hlt : i < t + 1 := by
        by_contra hn
        rw [List.getElem?_eq_none (by rw [List.length_take]; omega)] at hi
        cases hi
      exact ⟨hlt, by rwa [List.getElem?_take_of_lt hlt] at hi⟩
    obtain ⟨hi1, hi2⟩ := lt_of hi
    obtain ⟨hj1, hj2⟩ := lt_of hj
    rcases lt_trichotomy i j with hij | rfl | hij
    · exact (key i j _ _ _ hij hj1 hi2 hj2).elim
    · rw [hi2] at hj2
      exact listString_inj (congrArg Prod.fst (Option.some.inj hj2))
    · exact (key j i _ _ _ hij hi1 hj2 hi2).elim

theorem nice_of_good {H : Hash} {log : Log} (hd : Distinct log) (hg : Asker.Good (bad H) log) : Nice log := by
  have := nice_take hd hg log.length
  rwa [List.take_length] at this

/-- A list is hashed before its coefficients. -/
theorem list_before {H : Hash} {log : Log} (hd : Distinct log) (hg : Asker.Good (bad H) log) {l : List Point} {L a : Arr 32} {P : Point}
    {t : ℕ} (hl : (listString l, L) ∈ log) (ht : log[t]? = some (coeffString (L, P), a)) : (listString l, L) ∈ log.take t := by
  obtain ⟨s, hs⟩ := List.mem_iff_getElem?.1 hl
  rcases lt_trichotomy s t with hst | rfl | hst
  · exact mem_take hs hst
  · rw [hs] at ht
    exact absurd (congrArg Prod.fst (Option.some.inj ht)).symm (coeffString_ne_listString _ _)
  · exact (hg s _ _ hs ⟨distinct_take hd s, fresh_take hd hs, nice_take hd hg s,
      .inl ⟨_, mem_take ht hst, ⟨l, rfl⟩, .inr ⟨P, rfl⟩⟩⟩).elim

/-- All that is hashed for a list is in the log. -/
def Complete (log : Log) (l : List Point) (L : Arr 32) : Prop :=
  (listString l, L) ∈ log ∧ ∀ P ∈ l, secondKey l ≠ some P → ∃ a, (coeffString (L, P), a) ∈ log

theorem keySum_of_complete {H : Hash} {log log' : Log} (hd : Distinct log) (hd' : Distinct log') (hs : ∀ e ∈ log, e ∈ log')
    {l : List Point} {L : Arr 32} (hc : Complete log l L) : keySum (log.hash H) l = keySum (log'.hash H) l := by
  have e1 := hash_of_mem (H := H) hd hc.1
  have e2 := hash_of_mem (H := H) hd' (hs _ hc.1)
  refine keySum_congr (e1.trans e2.symm) fun P hP h2 => ?_
  obtain ⟨a, ha⟩ := hc.2 P hP h2
  rw [e1, hash_of_mem hd ha, hash_of_mem hd' (hs _ ha)]

theorem agg_aux {H : Hash} {log : Log} (hd : Distinct log) (hg : Asker.Good (bad H) log) {l l' : List Point} (hne : l' ≠ l)
    (hlen : l.length ≤ u32Max) {L L' : Arr 32} (hl : (listString l, L) ∈ log) (hl' : (listString l', L') ∈ log) {t : ℕ} {P : Point} {h : Arr 32}
    (hP : P ∈ l) (h2 : secondKey l ≠ some P) (ht : log[t]? = some (coeffString (L, P), h))
    (hc : ∀ P ∈ l, secondKey l ≠ some P → ∃ s a, s ≤ t ∧ log[s]? = some (coeffString (L, P), a))
    (hc' : ∀ P ∈ l', secondKey l' ≠ some P → ∃ s a, s ≤ t ∧ log[s]? = some (coeffString (L', P), a))
    (hP' : ∃ P ∈ l', secondKey l' ≠ some P) : xonly (keySum (log.hash H) l) ≠ xonly (keySum (log.hash H) l') := by
  have hLL : L' ≠ L := by
    rintro rfl
    exact hne (nice_of_good hd hg _ _ _ hl' hl)
  have hc'' : ∀ P ∈ l', secondKey l' ≠ some P → ∃ s a, s < t ∧ log[s]? = some (coeffString (L', P), a) := by
    intro K hK hK2
    obtain ⟨s, a, hs, hsa⟩ := hc' K hK hK2
    refine ⟨s, a, lt_of_le_of_ne hs ?_, hsa⟩
    rintro rfl
    rw [ht] at hsa
    exact hLL (coeffString_inj (congrArg Prod.fst (Option.some.inj hsa))).1.symm
  have hlt := list_before hd hg hl ht
  have hlt' : (listString l', L') ∈ log.take t := by
    obtain ⟨K, hK, hK2⟩ := hP'
    obtain ⟨s, a, hs, hsa⟩ := hc'' K hK hK2
    exact (List.take_prefix_take_left hs.le).mem (list_before hd hg hl' hsa)
  have comp' : Complete (log.take t) l' L' := ⟨hlt', fun K hK hK2 => by
    obtain ⟨s, a, hs, hsa⟩ := hc'' K hK hK2
    exact ⟨a, mem_take hsa hs⟩⟩
  have htake : log.take (t + 1) = log.take t ++ [(coeffString (L, P), h)] := by
    rw [List.take_add_one, ht]
    rfl
  have comp : Complete (log.take (t + 1)) l L := ⟨(List.take_prefix_take_left (Nat.le_succ t)).mem hlt, fun K hK hK2 => by
    obtain ⟨s, a, hs, hsa⟩ := hc K hK hK2
    exact ⟨a, mem_take hsa (by omega)⟩⟩
  intro heq
  rw [← keySum_of_complete (H := H) (distinct_take hd _) hd (fun e he => List.mem_of_mem_take he) comp,
    ← keySum_of_complete (H := H) (distinct_take hd _) hd (fun e he => List.mem_of_mem_take he) comp', htake,
    hash_add (distinct_take hd t) (fresh_take hd ht)] at heq
  exact hg t _ _ ht ⟨distinct_take hd t, fresh_take hd ht, nice_take hd hg t,
    .inr (.inl ⟨l, l', P, L, rfl, hP, h2, hlen, hlt, _, hlt', rfl, hne, heq⟩)⟩

theorem head_not_second {l : List Point} (h : l ≠ []) : ∃ P ∈ l, secondKey l ≠ some P := by
  cases l with
  | nil => exact absurd rfl h
  | cons P l =>
    refine ⟨P, by simp, fun h => ?_⟩
    have := List.find?_some h
    simp at this

/-- Two complete lists have different keys. -/
theorem agg {H : Hash} {log : Log} (hd : Distinct log) (hg : Asker.Good (bad H) log) {l l' : List Point} (hne : l ≠ l') (h0 : l ≠ []) (h0' : l' ≠ [])
    (hlen : l.length ≤ u32Max) (hlen' : l'.length ≤ u32Max) {L L' : Arr 32} (hc : Complete log l L) (hc' : Complete log l' L') :
    xonly (keySum (log.hash H) l) ≠ xonly (keySum (log.hash H) l') := by
  classical
  let R : List Point → Arr 32 → ℕ → Prop := fun l L t => ∃ P ∈ l, secondKey l ≠ some P ∧ ∃ a, log[t]? = some (coeffString (L, P), a)
  have hlt : ∀ {l L t}, R l L t → t < log.length := by
    rintro l L t ⟨P, -, -, a, ha⟩
    exact (List.getElem?_eq_some_iff.1 ha).1
  have hex : ∃ t, R l L t := by
    obtain ⟨P, hP, h2⟩ := head_not_second h0
    obtain ⟨a, ha⟩ := hc.2 P hP h2
    obtain ⟨t, ht⟩ := List.mem_iff_getElem?.1 ha
    exact ⟨t, P, hP, h2, a, ht⟩
  obtain ⟨t₀, ht₀⟩ := hex
  have hmax : ∃ t, (R l L t ∨ R l' L' t) ∧ ∀ s, R l L s ∨ R l' L' s → s ≤ t :=
    ⟨Nat.findGreatest (fun t => R l L t ∨ R l' L' t) log.length,
      Nat.findGreatest_spec (P := fun t => R l L t ∨ R l' L' t) (hlt ht₀).le (.inl ht₀),
      fun s hs => Nat.le_findGreatest (hs.elim (fun h => (hlt h).le) fun h => (hlt h).le) hs⟩
  obtain ⟨t, ht, hm⟩ := hmax
  have hs : ∀ P ∈ l, secondKey l ≠ some P → ∃ s a, s ≤ t ∧ log[s]? = some (coeffString (L, P), a) := by
    intro P hP h2
    obtain ⟨a, ha⟩ := hc.2 P hP h2
    obtain ⟨s, hs⟩ := List.mem_iff_getElem?.1 ha
    exact ⟨s, a, hm s (.inl ⟨P, hP, h2, a, hs⟩), hs⟩
  have hs' : ∀ P ∈ l', secondKey l' ≠ some P → ∃ s a, s ≤ t ∧ log[s]? = some (coeffString (L', P), a) := by
    intro P hP h2
    obtain ⟨a, ha⟩ := hc'.2 P hP h2
    obtain ⟨s, hs⟩ := List.mem_iff_getElem?.1 ha
    exact ⟨s, a, hm s (.inr ⟨P, hP, h2, a, hs⟩), hs⟩
  rcases ht with ⟨P, hP, h2, a, ha⟩ | ⟨P, hP, h2, a, ha⟩
  · exact agg_aux hd hg hne.symm hlen hc.1 hc'.1 hP h2 ha hs hs' (head_not_second h0')
  · exact (agg_aux hd hg hne hlen' hc'.1 hc.1 hP h2 ha hs' hs (head_not_second h0)).symm

/-- Two taproot outputs are different. -/
theorem tap {H : Hash} {log : Log} (hd : Distinct log) (hg : Asker.Good (bad H) log) {Q Q' : Point} {r r' : Bytes}
    (hm : ∃ a, (Spec.taptweakQuery Q r, a) ∈ log) (hm' : ∃ a, (Spec.taptweakQuery Q' r', a) ∈ log)
    (hx : xonly ((toEvenY Q).1 + reduceFrom (log.hash H (Spec.taptweakQuery Q r)) • G)
      = xonly ((toEvenY Q').1 + reduceFrom (log.hash H (Spec.taptweakQuery Q' r')) • G)) :
    xonly Q.1 = xonly Q'.1 ∧ r = r' := by
  obtain ⟨a, ha⟩ := hm
  obtain ⟨a', ha'⟩ := hm'
  rw [hash_of_mem hd ha, hash_of_mem hd ha'] at hx
  obtain ⟨i, hi⟩ := List.mem_iff_getElem?.1 ha
  obtain ⟨j, hj⟩ := List.mem_iff_getElem?.1 ha'
  rcases lt_trichotomy i j with hij | rfl | hij
  · exact (hg j _ _ hj ⟨distinct_take hd j, fresh_take hd hj, nice_take hd hg j,
      .inr (.inr ⟨Q', r', Q, r, rfl, _, mem_take hi hij, rfl, hx.symm⟩)⟩).elim
  · rw [hi] at hj
    exact tap_inj (congrArg Prod.fst (Option.some.inj hj))
  · exact (hg i _ _ hi ⟨distinct_take hd i, fresh_take hd hi, nice_take hd hg i,
      .inr (.inr ⟨Q, r, Q', r', rfl, _, mem_take hj hij, rfl, hx⟩)⟩).elim

theorem zip_mem {xs : List Bytes} {hs : List (Arr 32)} {log : Log} (h : List.Forall₂ (fun x h => (x, h) ∈ log) xs hs) :
    (∀ e ∈ xs.zip hs, e ∈ log) ∧ ∀ x ∈ xs, ∃ a, (x, a) ∈ xs.zip hs := by
  induction h with
  | nil => simp
  | @cons x a xs hs hx _ ih =>
    rw [List.zip_cons_cons]
    constructor
    · intro e he
      rcases List.mem_cons.1 he with rfl | he
      · exact hx
      · exact ih.1 e he
    · intro y hy
      rcases List.mem_cons.1 hy with rfl | hy
      · exact ⟨a, by simp⟩
      · obtain ⟨b, hb⟩ := ih.2 y hy
        exact ⟨b, by simp [hb]⟩

/-- A table, perhaps with repetitions, that is part of a log. -/
theorem hash_table {H : Hash} {log table : Log} (hd : Distinct log) (hs : ∀ e ∈ table, e ∈ log) {x : Bytes} (hx : ∃ a, (x, a) ∈ table) :
    table.hash H x = log.hash H x := by
  obtain ⟨a, ha⟩ := hx
  cases hf : table.find x with
  | none => exact absurd (List.mem_map_of_mem (f := (·.1)) ha) (find_none.1 hf)
  | some b =>
    rw [hash_of_mem hd (hs _ (mem_of_find hf))]
    unfold Log.hash
    rw [hf]
    rfl

theorem keySum_table {H : Hash} {log table : Log} (hd : Distinct log) (hs : ∀ e ∈ table, e ∈ log) {l : List Point} {L : Arr 32}
    (hc : Complete table l L) : keySum (table.hash H) l = keySum (log.hash H) l := by
  have e1 := hash_table (H := H) hd hs ⟨_, hc.1⟩
  have e2 := hash_of_mem (H := H) hd (hs _ hc.1)
  refine keySum_congr e1 fun P hP h2 => ?_
  rw [e1, e2]
  exact hash_table hd hs (hc.2 P hP h2)

theorem key_congr {O O' : Hash} {g : Group} (h : keySum O g.keys = keySum O' g.keys) : g.key O = g.key O' := by
  ext Q
  rw [key_eq_some, key_eq_some, h]

/-- What is in the log in the end. -/
theorem run_check (H : Hash) (ω : ℕ → Arr 32) (g : Group × Group) {log : Log} (hd : Distinct log) :
    ∃ log', (check H g).run Drawn H ω log = (g, log') ∧ Distinct log' ∧ (∃ L, Complete log' g.1.keys L) ∧ (∃ L, Complete log' g.2.keys L) ∧
      (∃ a, (Spec.taptweakQuery ((g.1.key (log'.hash H)).getD Gpt) g.1.rootBytes, a) ∈ log') ∧
      ∃ a, (Spec.taptweakQuery ((g.2.key (log'.hash H)).getD Gpt) g.2.rootBytes, a) ∈ log' := by
  unfold check
  obtain ⟨L, log₁, h1, d1, p1, m1⟩ := Asker.run_ask (D := Drawn) H ω (drawn_list g.1.keys) _ hd
  rw [h1]
  obtain ⟨L', log₂, h2, d2, p2, m2⟩ := Asker.run_ask (D := Drawn) H ω (drawn_list g.2.keys) _ d1
  rw [h2]
  simp only
  set xs := g.1.keys.map (fun P => coeffString (L, P)) ++ g.2.keys.map (fun P => coeffString (L', P)) with hxs
  obtain ⟨hs, log₃, h3, d3, p3, m3⟩ := Asker.run_askHashes (D := Drawn) H ω xs (fun x hx => by
    rcases List.mem_append.1 hx with hx | hx <;> obtain ⟨P, -, rfl⟩ := List.mem_map.1 hx <;> exact drawn_coeff _) _ d2
  rw [h3]
  obtain ⟨z1, z2⟩ := zip_mem m3
  set table : Log := (listString g.1.keys, L) :: (listString g.2.keys, L') :: xs.zip hs with htable
  have hsub : ∀ e ∈ table, e ∈ log₃ := by
    intro e he
    rcases List.mem_cons.1 he with rfl | he
    · exact p3.mem (p2.mem m1)
    rcases List.mem_cons.1 he with rfl | he
    · exact p3.mem m2
    · exact z1 e he
  have c1 : Complete table g.1.keys L := ⟨by simp [htable], fun P hP _ => by
    obtain ⟨a, ha⟩ := z2 (coeffString (L, P)) (by rw [hxs]; exact List.mem_append_left _ (List.mem_map_of_mem hP))
    exact ⟨a, by simp [htable, ha]⟩⟩
  have c2 : Complete table g.2.keys L' := ⟨by simp [htable], fun P hP _ => by
    obtain ⟨a, ha⟩ := z2 (coeffString (L', P)) (by rw [hxs]; exact List.mem_append_right _ (List.mem_map_of_mem hP))
    exact ⟨a, by simp [htable, ha]⟩⟩
  obtain ⟨ts, log₄, h4, d4, p4, m4⟩ := Asker.run_askHashes (D := Drawn) H ω
    [Spec.taptweakQuery ((g.1.key (table.hash H)).getD Gpt) g.1.rootBytes, Spec.taptweakQuery ((g.2.key (table.hash H)).getD Gpt) g.2.rootBytes]
    (fun x hx => by
      rcases List.mem_cons.1 hx with rfl | hx
      · exact drawn_tap _ _
      · rw [List.mem_singleton.1 hx]; exact drawn_tap _ _) (fun _ => .done g) d3
  rw [h4]
  have hsub4 : ∀ e ∈ table, e ∈ log₄ := fun e he => p4.mem (hsub e he)
  have k1 := key_congr (g := g.1) (keySum_table (H := H) d4 hsub4 c1)
  have k2 := key_congr (g := g.2) (keySum_table (H := H) d4 hsub4 c2)
  have mono : ∀ {l L}, Complete table l L → Complete log₄ l L := fun h => ⟨hsub4 _ h.1, fun P hP hP2 => (h.2 P hP hP2).imp fun _ => hsub4 _⟩
  refine ⟨log₄, rfl, d4, ⟨L, mono c1⟩, ⟨L', mono c2⟩, ?_, ?_⟩
  · rw [← k1]
    cases m4 with
    | cons h _ => exact ⟨_, h⟩
  · rw [← k2]
    cases m4 with
    | cons _ h =>
      cases h with
      | cons h _ => exact ⟨_, h⟩

theorem group_ext {g g' : Group} (hk : g.keys = g'.keys) (hr : g.rootBytes = g'.rootBytes) : g = g' := by
  obtain ⟨k, r⟩ := g
  obtain ⟨k', r'⟩ := g'
  cases hk
  congr 1
  unfold Group.rootBytes at hr
  cases r with
  | none =>
    cases r' with
    | none => rfl
    | some r' =>
      have := congrArg List.length hr
      simp [r'.2] at this
  | some r =>
    cases r' with
    | none =>
      have := congrArg List.length hr
      simp [r.2] at this
    | some r' => exact congrArg some (Subtype.ext hr)

/-- No clash. -/
theorem sound {H : Hash} {log : Log} (hd : Distinct log) (hg : Asker.Good (bad H) log) {g g' : Group} (hc : ∃ L, Complete log g.keys L)
    (hc' : ∃ L, Complete log g'.keys L) (ht : ∃ a, (Spec.taptweakQuery ((g.key (log.hash H)).getD Gpt) g.rootBytes, a) ∈ log)
    (ht' : ∃ a, (Spec.taptweakQuery ((g'.key (log.hash H)).getD Gpt) g'.rootBytes, a) ∈ log) : ¬ Clash (log.hash H) g g' := by
  obtain ⟨L, hc⟩ := hc
  obtain ⟨L', hc'⟩ := hc'
  have plain : ∀ Q Q', g.key (log.hash H) = some Q → g'.key (log.hash H) = some Q' → xonly Q.1 = xonly Q'.1 → g.keys = g'.keys := by
    intro Q Q' hQ hQ' hx
    by_contra hne
    obtain ⟨a1, a2, a3⟩ := key_eq_some.1 hQ
    obtain ⟨b1, b2, b3⟩ := key_eq_some.1 hQ'
    refine agg (H := H) hd hg hne a1 b1 a2 b2 hc hc' ?_
    rw [a3, b3, hx]
  rintro (⟨hne, Q, Q', hQ, hQ', hx⟩ | ⟨hne, Q, Q', hQ, hQ', hx⟩)
  · rw [spec_xbytes, spec_xbytes] at hx
    exact hne (plain Q Q' hQ hQ' (Subtype.ext hx))
  · rw [spec_xbytes, spec_xbytes] at hx
    obtain ⟨Q₀, k, e⟩ := output_eq_some hQ
    obtain ⟨Q₀', k', e'⟩ := output_eq_some hQ'
    have hx' : xonly Q.1 = xonly Q'.1 := Subtype.ext hx
    rw [e, e'] at hx'
    rw [k, Option.getD_some] at ht
    rw [k', Option.getD_some] at ht'
    obtain ⟨h1, h2⟩ := tap hd hg ht ht' hx'
    exact hne (group_ext (plain _ _ k k' h1) h2)

theorem asks_check (H : Hash) (g : Group × Group) :
    Asker.AsksAtMost Drawn (fun _ => True) (4 + g.1.keys.length + g.2.keys.length) (check H g) := by
  unfold check
  have key : ∀ L L' : Arr 32, Asker.AsksAtMost Drawn (fun _ => True) (2 + (g.1.keys.length + g.2.keys.length))
      (let xs := g.1.keys.map (fun P => coeffString (L, P)) ++ g.2.keys.map (fun P => coeffString (L', P))
      Asker.askHashes xs fun hs =>
        let O := Log.hash H ((listString g.1.keys, L) :: (listString g.2.keys, L') :: xs.zip hs)
        Asker.askHashes [Spec.taptweakQuery ((g.1.key O).getD Gpt) g.1.rootBytes, Spec.taptweakQuery ((g.2.key O).getD Gpt) g.2.rootBytes]
          fun _ => .done g) := by
    intro L L'
    have h1 := Asker.asks_askHashes (D := Drawn) (post := fun _ : Group × Group => True) (m := 2)
      (g.1.keys.map (fun P => coeffString (L, P)) ++ g.2.keys.map (fun P => coeffString (L', P))) (fun x hx => by
        rcases List.mem_append.1 hx with hx | hx <;> obtain ⟨P, -, rfl⟩ := List.mem_map.1 hx <;> exact drawn_coeff _)
      (next := fun hs =>
        let O := Log.hash H ((listString g.1.keys, L) :: (listString g.2.keys, L') ::
          (g.1.keys.map (fun P => coeffString (L, P)) ++ g.2.keys.map (fun P => coeffString (L', P))).zip hs)
        Asker.askHashes [Spec.taptweakQuery ((g.1.key O).getD Gpt) g.1.rootBytes, Spec.taptweakQuery ((g.2.key O).getD Gpt) g.2.rootBytes]
          fun _ => .done g) (fun hs => Asker.asks_askHashes (D := Drawn) (post := fun _ => True) (m := 0)
          [Spec.taptweakQuery ((g.1.key _).getD Gpt) g.1.rootBytes, Spec.taptweakQuery ((g.2.key _).getD Gpt) g.2.rootBytes] (fun x hx => by
            rcases List.mem_cons.1 hx with rfl | hx
            · exact drawn_tap _ _
            · rw [List.mem_singleton.1 hx]; exact drawn_tap _ _) (next := fun _ => .done g) fun _ => trivial)
    rw [List.length_append, List.length_map, List.length_map] at h1
    exact h1
  unfold Asker.AsksAtMost
  rw [if_pos (drawn_list _)]
  refine ⟨3 + g.1.keys.length + g.2.keys.length, by omega, fun L => ?_⟩
  unfold Asker.AsksAtMost
  rw [if_pos (drawn_list _)]
  exact ⟨2 + (g.1.keys.length + g.2.keys.length), by omega, fun L' => key L L'⟩

/-- The chance to find two groups. -/
theorem chance_finds (H : Hash) {A : Asker (Group × Group)} {q N : ℕ}
    (hA : A.AsksAtMost Drawn (fun g => g.1.keys.length ≤ N ∧ g.2.keys.length ≤ N) q) :
    (Spec.chance fun ω : Fin (q + (2 * N + 4)) → Arr 32 => Finds H A ω) ≤ 2 * (q + 2 * N + 4) ^ 2 / 2 ^ 256 := by
  have hasks : Asker.AsksAtMost Drawn (fun _ => True) (q + (2 * N + 4)) (A.bind (check H)) :=
    hA.bind fun g h => (asks_check H g).mono (by have := h.1; have := h.2; omega)
  have h1 := Asker.chance_hits (bad H) H (fun l => 4 * l / 2 ^ 256) (fun l => by positivity) (fun log x => chance_bad H log x) hasks []
  simp only [List.length_nil, Nat.sub_zero, Nat.zero_add] at h1
  refine (chance_mono fun ω hω => ?_).trans (h1.trans ?_)
  · by_contra hh
    have hgood := Asker.good_run (bad H) H (log := []) (fun t q d ht => by simp at ht) hh
    have hrun := Asker.run_bind (D := Drawn) H (Asker.draws ω) A (check H) []
    have hd := Asker.run_distinct (D := Drawn) H (Asker.draws ω) A (log := []) (by simp [Distinct])
    obtain ⟨log', k1, k2, k3, k4, k5, k6⟩ := run_check H (Asker.draws ω) (A.run Drawn H (Asker.draws ω) []).1 hd
    unfold Finds at hω
    simp only at hω
    rw [hrun, k1] at hω hgood
    exact sound k2 hgood k3 k4 k5 k6 hω
  · rw [← Finset.sum_div]
    refine div_le_div_of_nonneg_right ?_ (by positivity)
    have hsum : ∀ n : ℕ, (∑ t ∈ Finset.range n, 4 * (t : ℚ)) ≤ 2 * (n : ℚ) ^ 2 := by
      intro n
      induction n with
      | zero => simp
      | succ n ih =>
        rw [Finset.sum_range_succ]
        push_cast
        nlinarith
    refine (hsum _).trans (le_of_eq ?_)
    push_cast
    ring

/-! ## Given lists -/

theorem listHash_answering (H : Hash) (keys l : List Point) (P : Point) (h : Arr 32) :
    (H.answering (Spec.coeffQuery H keys P) h) (listString l) = H (listString l) :=
  Hash.answering_of_ne _ _ (by rw [coeffQuery_eq]; exact (coeffString_ne_listString _ _).symm)

theorem keySum_other {H : Hash} {keys keys' : List Point} (hne : H (listString keys) ≠ H (listString keys')) (P : Point) (h : Arr 32) :
    keySum (H.answering (Spec.coeffQuery H keys P) h) keys' = keySum H keys' := by
  refine keySum_congr (listHash_answering H keys keys' P h) fun K _ _ => ?_
  rw [listHash_answering]
  refine Hash.answering_of_ne _ _ fun e => hne ?_
  rw [coeffQuery_eq] at e
  exact (coeffString_inj e).1.symm

/-! ## Examples -/

/-- The keys `G` and `2·G`, in this order and in the other one. -/
def swapped : Group × Group := (⟨stubKeys.map mulG, none⟩, ⟨(stubKeys.map mulG).reverse, none⟩)

theorem swapped_ne : swapped.1.keys ≠ swapped.2.keys := by
  intro h
  have h1 : mulG scalarOne = mulG ⟨2, two_ne_zero_scalar⟩ := by
    have := congrArg List.head? h
    simpa [swapped, stubKeys] using this
  have h2 : (1 : MaybeScalar) • G = (2 : MaybeScalar) • G := congrArg Subtype.val h1
  exact one_ne_zero (α := MaybeScalar) (by linear_combination -smul_G_inj.1 h2)

theorem sum_swapped {O : Hash} {l : List Point} (hl : l = swapped.1.keys ∨ l = swapped.2.keys) (h : ∀ P ∈ l, coeffOf O l P = 1) :
    keySum O l = (3 : MaybeScalar) • G := by
  have h1 : keySum O l = (l.map (·.1)).sum := by
    unfold keySum
    congr 1
    exact List.map_congr_left fun P hP => by rw [h P hP, one_smul]
  have h2 : (swapped.1.keys.map (·.1)).sum = (3 : MaybeScalar) • G := by
    rw [← stub_keySum]
    unfold keySum
    simp only [stub_coeff, one_smul]
    rfl
  rw [h1, ← h2]
  rcases hl with rfl | rfl
  · rfl
  · exact ((List.reverse_perm _).map _).sum_eq

theorem three_ne : (3 : MaybeScalar) • G ≠ 0 := by
  rw [Ne, smul_G_eq_zero]
  exact_mod_cast natCast_scalar_ne_zero (k := 3) (by norm_num) (by norm_num)

theorem key_swapped {O : Hash} {g : Group} (hg : g = swapped.1 ∨ g = swapped.2) (h : ∀ P ∈ g.keys, coeffOf O g.keys P = 1) :
    g.key O = some ⟨_, three_ne⟩ := by
  refine key_eq_some.2 ⟨?_, ?_, sum_swapped (by rcases hg with rfl | rfl <;> simp) h⟩
  · rcases hg with rfl | rfl <;> simp [swapped, stubKeys]
  · rcases hg with rfl | rfl <;> simp [swapped, stubKeys, u32Max]

theorem coeffOf_complete {H : Hash} {log : Log} (hd : Distinct log) (hone : ∀ e ∈ log, reduceFrom e.2 = 1) {l : List Point} {L : Arr 32}
    (hc : Complete log l L) (P : Point) (hP : P ∈ l) : coeffOf (log.hash H) l P = 1 := by
  by_cases h2 : secondKey l = some P
  · exact GroupForger.coeffOf_second h2
  · obtain ⟨a, ha⟩ := hc.2 P hP h2
    rw [GroupForger.coeffOf_of_ne h2, coeffQuery_eq, hash_of_mem hd hc.1, hash_of_mem hd ha]
    exact hone _ ha

end Verif.KeyCommit
