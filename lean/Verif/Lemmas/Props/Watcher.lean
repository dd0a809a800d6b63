import Verif.Spec.Watcher
import Verif.Lemmas.Props.KeyHiding
import Verif.Lemmas.Props.Outsider

/-!
# Lemmas for `Props/Watcher`
-/

namespace Verif.Watcher

open Function
open Forger (Log)
open AnyForger (coeffString)
open KeyCommit (Group Drawn listString drawn_list drawn_coeff drawn_tap)
open Asking (DrawnNonce)
open Asker (value Table Small avg)
open Outsider (extend)

/-! ## Hash functions that differ in what is drawn -/

theorem Drawn.length {x : Bytes} (h : Drawn x) : 64 ≤ x.length := by
  have hlen : ∀ t : String, (Spec.taggedInput t []).length = 64 := fun t => by
    unfold Spec.taggedInput
    rw [List.length_append, List.length_append, (sha256 _).2]
    rfl
  rcases h with h | h | h <;> exact (hlen _).symm.le.trans h.length_le

/-- The hash functions agree on what is not drawn. -/
def Good (H O : Hash) : Prop := ∀ y, ¬ Drawn y → O y = H y

theorem good_hash (H : Hash) {table : Log} (h : ∀ e ∈ table, Drawn e.1) : Good H (table.hash H) := by
  intro y hy
  unfold Log.hash Log.find
  rw [List.find?_eq_none.2 fun e he => by
    rw [decide_eq_true_eq]
    rintro rfl
    exact hy (h e he)]
  rfl

theorem Good.tags {H O : Hash} (h : Good H O) (hH : TagsAgree H) : TagsAgree O := by
  have key : ∀ t : Bytes, t.length < 64 → O t = H t := fun t ht => h t fun hd => by have := Drawn.length hd; omega
  constructor <;> rw [key _ (by decide +kernel)]
  exacts [hH.keyAggList, hH.keyAggCoeff, hH.musigAux, hH.musigNonce, hH.musigNoncecoef, hH.bip340Aux, hH.bip340Nonce,
    hH.bip340Challenge, hH.bip340Batch, hH.tapTweak]

theorem not_drawn_challenge (x : Bytes) : ¬ Drawn (Spec.taggedInput "BIP0340/challenge" x) := by
  have key : ∀ t ∈ Spec.tags, t ≠ "BIP0340/challenge" → ¬ Spec.taggedInput t [] <+: Spec.taggedInput "BIP0340/challenge" x := by
    rintro t ht hne ⟨r, hr⟩
    have e : Spec.taggedInput t [] ++ r = Spec.taggedInput t r := by simp [Spec.taggedInput]
    rw [e] at hr
    exact C66_domain_separation _ _ ht (by simp [Spec.tags]) hne _ _ hr
  rintro (h | h | h)
  · exact key _ (by simp [Spec.tags]) (by decide) h
  · exact key _ (by simp [Spec.tags]) (by decide) h
  · exact key _ (by simp [Spec.tags]) (by decide) h

theorem Good.challenge {H O : Hash} (h : Good H O) (x : Bytes) :
    tagHash O BIP0340_CHALLENGE_TAG_DIGEST x = tagHash H BIP0340_CHALLENGE_TAG_DIGEST x := by
  unfold tagHash
  rw [← taggedInput_eq (tag := "BIP0340/challenge") (D := BIP0340_CHALLENGE_TAG_DIGEST) (by simp [tagTable])]
  exact h _ (not_drawn_challenge _)

theorem Good.sign {H O : Hash} (h : Good H O) (hH : TagsAgree H) (o : Spec.SignerOrder) (c : Scalar) : o.sign O c = o.sign H c := by
  unfold Spec.SignerOrder.sign
  cases o.point with
  | none => exact OneSigner.signWith_congr hH (h.tags hH) h.challenge _ _ _
  | some T => exact Outsider.adaptorWith_congr hH (h.tags hH) h.challenge _ _ _ _

theorem Good.signers {H O : Hash} (h : Good H O) (hH : TagsAgree H) (A : Outsider Spec.SignerOrder) (c : ℕ → Scalar) :
    A.signers O c = A.signers H c := by
  induction A generalizing c with
  | done v => rfl
  | ask x next ih =>
    simp only [Outsider.signers]
    exact congrArg _ (funext fun a => ih a c)
  | sign s next ih =>
    simp only [Outsider.signers]
    rw [h.sign hH]
    exact ih _ _

/-! ## The hashes of a group -/

theorem bind_askHashes {α β : Type} (xs : List Bytes) (f : List (Arr 32) → Asker α) (g : α → Asker β) :
    (Asker.askHashes xs f).bind g = Asker.askHashes xs fun hs => (f hs).bind g := by
  induction xs generalizing f with
  | nil => rfl
  | cons x xs ih =>
    simp only [Asker.askHashes, Asker.bind]
    exact congrArg _ (funext fun h => ih _)

/-- What a context that is built is like. -/
def Fine (H : Hash) (keys : List Point) (r : Built) : Prop :=
  Good H r.1 ∧ ∀ ctx, r.2 = some ctx → Reachable r.1 ctx ∧ ctx.pubkeys = keys

theorem okay_eq_some {ε α : Type} {r : Res ε α} {a : α} : Spec.okay r = some a ↔ r = .ok a := by
  cases r <;> simp [Spec.okay]

theorem pubkeys_new {O : Hash} {keys : List Point} {ctx : KeyAggContext} (h : KeyAggContext.new O keys = .ok ctx) : ctx.pubkeys = keys := by
  obtain ⟨-, -, Q, -, rfl⟩ := new_eq_ok.1 h
  rfl

theorem drawn_table {keys : List Point} {L : Arr 32} {hs : List (Arr 32)} {e : Bytes × Arr 32}
    (he : e ∈ (listString keys, L) :: (keys.map fun P => coeffString (L, P)).zip hs) : Drawn e.1 := by
  rcases List.mem_cons.1 he with rfl | he
  · exact drawn_list _
  · obtain ⟨P, -, h⟩ := List.mem_map.1 (List.of_mem_zip he).1
    rw [← h]
    exact drawn_coeff _

variable {D : Bytes → Prop} [DecidablePred D] {H : Hash}

theorem asks_aggregation (hD : ∀ x, Drawn x → D x) (keys : List Point) :
    (askAggregation keys).AsksAtMost D (fun table => ∀ e ∈ table, Drawn e.1) (keys.length + 1) := by
  unfold askAggregation Asker.AsksAtMost
  rw [if_pos (hD _ (drawn_list _))]
  refine ⟨keys.length, rfl, fun L => ?_⟩
  refine (Asker.asks_askHashes (D := D) (m := 0) (keys.map fun P => coeffString (L, P)) (fun x hx => ?_) (fun hs => ?_)).mono ?_
  · obtain ⟨P, -, rfl⟩ := List.mem_map.1 hx
    exact hD _ (drawn_coeff _)
  · exact fun e he => drawn_table he
  · simp

theorem asks_plain (hD : ∀ x, Drawn x → D x) (g : Group) : (plain H g).AsksAtMost D (Fine H g.keys) (g.keys.length + 1) := by
  unfold plain
  refine ((asks_aggregation hD g.keys).bind (k := 0) fun table ht => ?_).mono (by omega)
  refine ⟨good_hash H ht, fun ctx h => ?_⟩
  have h := okay_eq_some.1 h
  exact ⟨.new h, pubkeys_new h⟩

theorem pubkeys_tweak {O : Hash} {g : Group} {ctx ctx' : KeyAggContext} (h : g.tweak O ctx = .ok ctx') :
    ctx'.pubkeys = ctx.pubkeys := by
  have hi : g.tweak O ctx = ctx.withTaprootTweakInternal O g.rootBytes := by
    unfold Group.tweak Group.rootBytes
    cases g.root <;> rfl
  rw [hi] at h
  unfold KeyAggContext.withTaprootTweakInternal at h
  simp only [Res.bind_eq_ok, Res.okOr_eq_ok] at h
  obtain ⟨k, -, h⟩ := h
  obtain ⟨Q, -, rfl⟩ := withXonlyTweak_eq_ok.1 h
  rfl

theorem reachable_tweak {O : Hash} {g : Group} {ctx ctx' : KeyAggContext} (hc : Reachable O ctx) (h : g.tweak O ctx = .ok ctx') :
    Reachable O ctx' := by
  unfold Group.tweak at h
  split at h
  · exact .unspendable hc h
  · exact .taproot hc h

theorem asks_taproot (hD : ∀ x, Drawn x → D x) (g : Group) : (taproot H g).AsksAtMost D (Fine H g.keys) (g.keys.length + 2) := by
  unfold taproot
  refine ((asks_aggregation hD g.keys).bind (k := 1) fun table ht => ?_).mono (by omega)
  split
  · exact ⟨good_hash H ht, fun ctx h => by cases h⟩
  · rename_i ctx hctx
    unfold Asker.AsksAtMost
    rw [if_pos (hD _ (drawn_tap _ _))]
    refine ⟨0, rfl, fun h => ⟨good_hash H fun e he => ?_, fun ctx' h => ?_⟩⟩
    · rcases List.mem_cons.1 he with rfl | he
      · exact drawn_tap _ _
      · exact ht e he
    · obtain ⟨c, hc, h⟩ := Option.bind_eq_some_iff.1 h
      have hc := okay_eq_some.1 hc
      have h := okay_eq_some.1 h
      exact ⟨reachable_tweak (.new hc) h, (pubkeys_tweak h).trans (pubkeys_new hc)⟩

/-! ## The game in between: a single signer who has the aggregated secret key -/

/-- The group shows its key; then somebody signs who has the aggregated secret key. -/
def lone (x : Scalar) (c : ℕ → Scalar) (p : Plan) (r : Built) : Asker Prop :=
  match r.2 with
  | none => .done False
  | some ctx =>
    match Spec.okay (ctx.aggregatedSeckey (p.keys x)) with
    | none => .done False
    | some d => ((p.watch ctx.aggregatedPubkey).map (Order.signer d)).signers r.1 c

/-- The group signs. -/
def joint (x : Scalar) (w : ℕ → Scalar × Scalar) (p : Plan) (r : Built) : Asker Prop :=
  match r.2 with
  | none => .done False
  | some ctx =>
    match Spec.okay (ctx.aggregatedSeckey (p.keys x)) with
    | none => .done False
    | some d => ((p.watch ctx.aggregatedPubkey).map (Order.session ctx (p.keys x) d)).groups r.1 w

theorem group_eq (build : Group → Asker Built) (x : Scalar) (w : ℕ → Scalar × Scalar) (p : Plan) :
    group build x w p = (build ⟨(p.keys x).map mulG, p.root⟩).bind (joint x w p) := rfl

/-- The discrete logarithm of a key. -/
noncomputable def dlog (Q : Point) : Scalar :=
  ⟨(exists_dlog Q.1).choose, fun h => Q.2 (by rw [← (exists_dlog Q.1).choose_spec, h, zero_smul])⟩

theorem mulG_dlog (Q : Point) : mulG (dlog Q) = Q := Subtype.ext (exists_dlog Q.1).choose_spec

theorem dlog_mulG (x : Scalar) : dlog (mulG x) = x := mulG_injective (mulG_dlog _)

/-- Whoever sees the key, as a judge of keys. -/
noncomputable def Plan.test (H : Hash) (c : ℕ → Scalar) (p : Plan) : KeyHiding.Test where
  before := p.before.map mulG
  after := p.after.map mulG
  root := p.root
  judge Q := ((p.watch Q).map (Order.signer (dlog Q))).signers H c

theorem test_single (c : ℕ → Scalar) (p : Plan) (x : Scalar) : KeyHiding.single (mulG x) (p.test H c) = single H x c p := by
  unfold KeyHiding.single Plan.test single
  dsimp only
  rw [dlog_mulG]

theorem test_keys (c : ℕ → Scalar) (p : Plan) (x : Scalar) : (p.test H c).keys (mulG x) = (p.keys x).map mulG := by
  unfold KeyHiding.Test.keys Plan.test Plan.keys
  rw [List.map_append, List.map_cons]

theorem lone_eq (hH : TagsAgree H) (x : Scalar) (c : ℕ → Scalar) (p : Plan) {r : Built} (hr : Fine H ((p.keys x).map mulG) r) :
    lone x c p r = (p.test H c).see (r.2.map KeyAggContext.aggregatedPubkey) := by
  obtain ⟨O, o⟩ := r
  obtain ⟨hO, hr⟩ := hr
  dsimp only at hO hr
  unfold lone
  dsimp only
  cases o with
  | none => rfl
  | some ctx =>
    obtain ⟨hc, hk⟩ := hr ctx rfl
    obtain ⟨d, hd⟩ := C07_seckey_complete O ctx hc (p.keys x) hk.symm
    have e : mulG d = ctx.aggregatedPubkey := Subtype.ext (C07_seckey_sound ctx _ d hd)
    dsimp only
    rw [hd]
    change ((p.watch ctx.aggregatedPubkey).map (Order.signer d)).signers O c = _
    rw [hO.signers hH]
    change _ = ((p.watch ctx.aggregatedPubkey).map (Order.signer (dlog ctx.aggregatedPubkey))).signers H c
    rw [← e, dlog_mulG]

theorem okay_key (O : Hash) (g : Group) : g.key O = (Spec.okay (KeyAggContext.new O g.keys)).map KeyAggContext.aggregatedPubkey := by
  unfold Group.key
  cases KeyAggContext.new O g.keys <;> rfl

theorem okay_output (O : Hash) (g : Group) : g.output O
    = ((Spec.okay (KeyAggContext.new O g.keys)).bind fun ctx => Spec.okay (g.tweak O ctx)).map KeyAggContext.aggregatedPubkey := by
  unfold Group.output
  cases KeyAggContext.new O g.keys with
  | ok ctx =>
    dsimp only [Spec.okay, Option.bind_some]
    cases g.tweak O ctx <;> rfl
  | err e => rfl
  | panic => rfl

theorem lone_plain (hH : TagsAgree H) (x : Scalar) (c : ℕ → Scalar) (p : Plan) :
    (plain H ⟨(p.keys x).map mulG, p.root⟩).bind (lone x c p) = KeyHiding.group H (mulG x) (p.test H c) := by
  unfold plain askAggregation KeyHiding.group
  rw [test_keys]
  simp only [Asker.bind, bind_askHashes]
  refine congrArg _ (funext fun L => congrArg _ (funext fun hs => ?_))
  rw [lone_eq hH x c p, okay_key]
  exact ⟨good_hash H fun e he => drawn_table he, fun ctx h => ⟨.new (okay_eq_some.1 h), pubkeys_new (okay_eq_some.1 h)⟩⟩

theorem lone_taproot (hH : TagsAgree H) (x : Scalar) (c : ℕ → Scalar) (p : Plan) :
    (taproot H ⟨(p.keys x).map mulG, p.root⟩).bind (lone x c p) = KeyHiding.output H (mulG x) (p.test H c) := by
  unfold taproot askAggregation KeyHiding.output
  rw [test_keys]
  simp only [Asker.bind, bind_askHashes]
  refine congrArg _ (funext fun L => congrArg _ (funext fun hs => ?_))
  have hroot : (p.test H c).root = p.root := rfl
  rw [okay_key, hroot]
  dsimp only
  generalize hnew : Spec.okay (KeyAggContext.new _ ((p.keys x).map mulG)) = o
  cases o with
  | none => rfl
  | some ctx =>
    dsimp only [Option.map_some, Asker.bind]
    refine congrArg _ (funext fun h => ?_)
    rw [lone_eq hH x c p, okay_output]
    refine ⟨good_hash H fun e he => ?_, fun ctx' h => ?_⟩
    · rcases List.mem_cons.1 he with rfl | he
      · exact drawn_tap _ _
      · exact drawn_table he
    · obtain ⟨c', hc, h⟩ := Option.bind_eq_some_iff.1 h
      have hc := okay_eq_some.1 hc
      have h := okay_eq_some.1 h
      exact ⟨reachable_tweak (.new hc) h, (pubkeys_tweak h).trans (pubkeys_new hc)⟩

/-! ## The games are close -/

theorem drawn_any (hD : ∀ x, DrawnAny x → D x) : ∀ x, Drawn x → D x := fun x h => hD x (.inl h)
theorem drawnNonce_any (hD : ∀ x, DrawnAny x → D x) : ∀ x, DrawnNonce x → D x := fun x h => hD x (.inr h)

section
variable [Fintype Scalar] [Fintype (Arr 32)] {N q q' k : ℕ} {p : Plan}

omit [Fintype Scalar] in
/-- Two continuations with almost the same chances, each with draws of its own. -/
theorem avg_bind_two {α Γ Γ' : Type} [Fintype Γ] [Fintype Γ'] [Nonempty Γ] [Nonempty Γ'] {post : α → Prop} {A : Asker α} {m k : ℕ}
    (hA : A.AsksAtMost D post m) (f : Γ → α → Asker Prop) (f' : Γ' → α → Asker Prop) {ε : ℚ}
    (hf : ∀ a T, post a → Small T (k + m) → |(avg fun g => value D H (f g a) T) - avg fun g => value D H (f' g a) T| ≤ ε)
    {T : Table} (hT : Small T k) :
    |(avg fun g => value D H (A.bind (f g)) T) - avg fun g => value D H (A.bind (f' g)) T| ≤ ε := by
  have key : ∀ (F : Γ → ℚ) (F' : Γ' → ℚ), (avg fun g : Γ × Γ' => F g.1) = avg F ∧ (avg fun g : Γ × Γ' => F' g.2) = avg F' := by
    intro F F'
    rw [Asker.avg_prod fun (a : Γ) (_ : Γ') => F a, Asker.avg_prod fun (_ : Γ) (b : Γ') => F' b]
    simp only [Asker.avg_const]
    exact ⟨trivial, trivial⟩
  have h := Asker.avg_bind (H := H) hA (Γ := Γ × Γ') (fun g => f g.1) (fun g => f' g.2) (ε := ε) (k := k) (fun a T ha hT => by
    rw [(key (fun g => value D H (f g a) T) fun _ => 0).1, (key (fun _ => 0) fun g => value D H (f' g a) T).2]
    exact hf a T ha hT) hT
  rw [(key (fun g => value D H (A.bind (f g)) T) fun _ => 0).1, (key (fun _ => 0) fun g => value D H (A.bind (f' g)) T).2] at h
  exact h

/-- Whether the group signs, or somebody who has the aggregated secret key. -/
theorem joint_lone (hD : ∀ x, DrawnAny x → D x) (hH : TagsAgree H) (hp : p.Within D N q' k) (x : Scalar) {r : Built} (hr : Fine H ((p.keys x).map mulG) r) {T : Table} {j : ℕ}
    (hT : Small T j) :
    |(avg fun w : Fin k → Scalar × Scalar => value D H (joint x (extend (scalarOne, scalarOne) w) p r) T)
      - avg fun c : Fin k → Scalar => value D H (lone x (extend scalarOne c) p r) T| ≤ k * (j + q' + k + 5) / (orderN - 1 : ℕ) := by
  letI := Fintype.ofFinite MaybeScalar
  have : Nonempty Scalar := ⟨scalarOne⟩
  have hn := Outsider.order_pos
  have h0 : (0 : ℚ) ≤ k * (j + q' + k + 5) / (orderN - 1 : ℕ) := by positivity
  obtain ⟨O, o⟩ := r
  obtain ⟨hO, hr⟩ := hr
  dsimp only at hO hr
  unfold joint lone
  dsimp only
  cases o with
  | none =>
    simp only [Asker.avg_const, sub_self, abs_zero]
    exact h0
  | some ctx =>
    obtain ⟨hc, hk⟩ := hr ctx rfl
    obtain ⟨d, hd⟩ := C07_seckey_complete O ctx hc (p.keys x) hk.symm
    dsimp only
    rw [hd]
    have hw : ((p.watch ctx.aggregatedPubkey).map (Order.session ctx (p.keys x) d)).Within D (Spec.GroupOrder.Fits O) q' k :=
      Outsider.within_map (fun o ho => ⟨hc, hk, hd, by
        change o.before.length + 1 + o.after.length = (p.keys x).length
        unfold Plan.keys
        rw [List.length_append, List.length_cons, ho.1, ho.2]
        omega⟩) (hp.2 _)
    have h := Outsider.game_close (H := H) (drawnNonce_any hD) (hO.tags hH) hw hT
    rw [Outsider.map_map] at h
    exact h

/-- The group, and somebody who has the aggregated secret key. -/
theorem group_lone (hD : ∀ x, DrawnAny x → D x) (hH : TagsAgree H) (hp : p.Within D N q' k) (x : Scalar) {build : Group → Asker Built} {l : ℕ}
    (hb : (build ⟨(p.keys x).map mulG, p.root⟩).AsksAtMost D (Fine H ((p.keys x).map mulG)) l) {T : Table} {j : ℕ} (hT : Small T j) :
    |(avg fun w : Fin k → Scalar × Scalar => value D H (group build x (extend (scalarOne, scalarOne) w) p) T)
      - avg fun c : Fin k → Scalar =>
        value D H ((build ⟨(p.keys x).map mulG, p.root⟩).bind (lone x (extend scalarOne c) p)) T|
      ≤ k * ((j + l : ℕ) + q' + k + 5) / (orderN - 1 : ℕ) := by
  have : Nonempty Scalar := ⟨scalarOne⟩
  exact avg_bind_two hb (fun w : Fin k → Scalar × Scalar => joint x (extend (scalarOne, scalarOne) w) p)
    (fun c : Fin k → Scalar => lone x (extend scalarOne c) p) (fun r T hr hT => joint_lone hD hH hp x hr hT) hT

omit [Fintype Scalar] [Fintype (Arr 32)] in
theorem within_test (hp : p.Within D N q' k) (c : ℕ → Scalar) : (p.test H c).Within N q' D := by
  refine ⟨?_, fun Q => ?_⟩
  · unfold Plan.test
    rw [List.length_map, List.length_map]
    exact hp.1
  · exact Outsider.asks_signers (Outsider.within_map (fits' := fun _ => True) (fun _ _ => trivial) (hp.2 Q)) c

/-- From one game to the other, over the one in between. -/
theorem over_lone {build : Group → Asker Built} {T : Table} {ε ε' : ℚ}
    (h1 : ∀ x, |(avg fun w : Fin k → Scalar × Scalar => value D H (group build x (extend (scalarOne, scalarOne) w) p) T)
      - avg fun c : Fin k → Scalar =>
        value D H ((build ⟨(p.keys x).map mulG, p.root⟩).bind (lone x (extend scalarOne c) p)) T| ≤ ε)
    (h2 : ∀ c : Fin k → Scalar, |(avg fun x : Scalar =>
        value D H ((build ⟨(p.keys x).map mulG, p.root⟩).bind (lone x (extend scalarOne c) p)) T)
      - avg fun x : Scalar => value D H (single H x (extend scalarOne c) p) T| ≤ ε') :
    |(avg fun g : Scalar × (Fin k → Scalar × Scalar) => value D H (group build g.1 (extend (scalarOne, scalarOne) g.2) p) T)
      - avg fun g : Scalar × (Fin k → Scalar) => value D H (single H g.1 (extend scalarOne g.2) p) T| ≤ ε + ε' := by
  have : Nonempty Scalar := ⟨scalarOne⟩
  rw [Asker.avg_prod fun x (w : Fin k → Scalar × Scalar) => value D H (group build x (extend (scalarOne, scalarOne) w) p) T,
    Asker.avg_prod fun x (c : Fin k → Scalar) => value D H (single H x (extend scalarOne c) p) T]
  have a1 := (Asker.abs_avg_sub _ _).trans (Asker.avg_le h1)
  have a2 := (Asker.abs_avg_sub _ _).trans (Asker.avg_le h2)
  rw [Asker.avg_comm fun (c : Fin k → Scalar) x =>
      value D H ((build ⟨(p.keys x).map mulG, p.root⟩).bind (lone x (extend scalarOne c) p)) T,
    Asker.avg_comm fun (c : Fin k → Scalar) x => value D H (single H x (extend scalarOne c) p) T] at a2
  exact (abs_sub_le _ _ _).trans (add_le_add a1 a2)

theorem plain_close (hD : ∀ x, DrawnAny x → D x) (hH : TagsAgree H) (hp : p.Within D N q' k) (hN : N + 1 ≤ u32Max) {T : Table} (hT : Small T q) :
    |(avg fun g : Scalar × (Fin k → Scalar × Scalar) => value D H (group (plain H) g.1 (extend (scalarOne, scalarOne) g.2) p) T)
      - avg fun g : Scalar × (Fin k → Scalar) => value D H (single H g.1 (extend scalarOne g.2) p) T|
      ≤ k * ((q + (N + 2) : ℕ) + q' + k + 5) / (orderN - 1 : ℕ) + (6 * (q + q') / 2 ^ 256 + 1 / 2 ^ 125) := by
  have hl : ∀ x, ((p.keys x).map mulG).length + 1 ≤ N + 2 := by
    intro x
    have := hp.1
    unfold Plan.keys
    simp only [List.length_map, List.length_append, List.length_cons]
    omega
  refine over_lone (fun x => group_lone hD hH hp x ((asks_plain (drawn_any hD) _).mono (hl x)) hT) fun c => ?_
  simp only [lone_plain hH, ← test_single]
  exact KeyHiding.group_close (drawn_any hD) (within_test hp _) hN hT

theorem taproot_close (hD : ∀ x, DrawnAny x → D x) (hH : TagsAgree H) (hp : p.Within D N q' k) (hN : N + 1 ≤ u32Max) {T : Table} (hT : Small T q) :
    |(avg fun g : Scalar × (Fin k → Scalar × Scalar) => value D H (group (taproot H) g.1 (extend (scalarOne, scalarOne) g.2) p) T)
      - avg fun g : Scalar × (Fin k → Scalar) => value D H (single H g.1 (extend scalarOne g.2) p) T|
      ≤ k * ((q + (N + 3) : ℕ) + q' + k + 5) / (orderN - 1 : ℕ) + (10 * (q + q') / 2 ^ 256 + 1 / 2 ^ 124) := by
  have hl : ∀ x, ((p.keys x).map mulG).length + 2 ≤ N + 3 := by
    intro x
    have := hp.1
    unfold Plan.keys
    simp only [List.length_map, List.length_append, List.length_cons]
    omega
  refine over_lone (fun x => group_lone hD hH hp x ((asks_taproot (drawn_any hD) _).mono (hl x)) hT) fun c => ?_
  simp only [lone_taproot hH, ← test_single]
  exact KeyHiding.output_close (drawn_any hD) (within_test hp _) hN hT

omit [Fintype Scalar] [Fintype (Arr 32)] in
theorem asks_group (hD : ∀ x, DrawnAny x → D x) (hp : p.Within D N q' k) (x : Scalar) (w : ℕ → Scalar × Scalar) {build : Group → Asker Built} {l : ℕ}
    (hb : (build ⟨(p.keys x).map mulG, p.root⟩).AsksAtMost D (Fine H ((p.keys x).map mulG)) l) :
    (group build x w p).AsksAtMost D (fun _ => True) (l + (q' + k)) := by
  rw [group_eq]
  refine hb.bind fun r hr => ?_
  obtain ⟨O, o⟩ := r
  unfold joint
  dsimp only
  cases o with
  | none => trivial
  | some ctx =>
    obtain ⟨hc, hk⟩ := hr.2 ctx rfl
    obtain ⟨d, hd⟩ := C07_seckey_complete O ctx hc (p.keys x) hk.symm
    dsimp only
    rw [hd]
    have hw : ((p.watch ctx.aggregatedPubkey).map (Order.session ctx (p.keys x) d)).Within D (Spec.GroupOrder.Fits O) q' k :=
      Outsider.within_map (fun o ho => ⟨hc, hk, hd, by
        change o.before.length + 1 + o.after.length = (p.keys x).length
        unfold Plan.keys
        rw [List.length_append, List.length_cons, ho.1, ho.2]
        omega⟩) (hp.2 _)
    exact Outsider.asks_groups (drawnNonce_any hD) hw w

omit [Fintype Scalar] [Fintype (Arr 32)] in
theorem asks_single (hp : p.Within D N q' k) (x : Scalar) (c : ℕ → Scalar) : (single H x c p).AsksAtMost D (fun _ => True) q' :=
  Outsider.asks_signers (Outsider.within_map (fits' := fun _ => True) (fun _ _ => trivial) (hp.2 _)) c

omit [Fintype Scalar] [Fintype (Arr 32)] in
theorem keys_length (hp : p.Within D N q' k) (x : Scalar) : ((p.keys x).map mulG).length ≤ N + 1 := by
  have := hp.1
  unfold Plan.keys
  simp only [List.length_map, List.length_append, List.length_cons]
  omega

/-- The chances of two games. -/
theorem chance_close {α Γ Γ' : Type} [Fintype Γ] [Fintype Γ'] [Nonempty Γ] [Nonempty Γ'] {post : α → Prop} {A : Asker α} {m l : ℕ}
    (hA : A.AsksAtMost D post q) {f : Γ → α → Asker Prop} {f' : Γ' → α → Asker Prop} (hm : q + l ≤ m)
    (h1 : ∀ g a, post a → (f g a).AsksAtMost D (fun _ => True) l) (h2 : ∀ g a, post a → (f' g a).AsksAtMost D (fun _ => True) l) {ε : ℚ}
    (hf : ∀ a T, post a → Small T q → |(avg fun g => value D H (f g a) T) - avg fun g => value D H (f' g a) T| ≤ ε) :
    |(Spec.chance fun w : Γ × (Fin m → Arr 32) => ((A.bind (f w.1)).run D H (Asker.draws w.2) []).1)
      - Spec.chance fun w : Γ' × (Fin m → Arr 32) => ((A.bind (f' w.1)).run D H (Asker.draws w.2) []).1| ≤ ε := by
  rw [Outsider.chance_game (p := fun g => A.bind (f g)) fun g => (hA.bind fun a ha => h1 g a ha).mono hm,
    Outsider.chance_game (p := fun g => A.bind (f' g)) fun g => (hA.bind fun a ha => h2 g a ha).mono hm]
  exact avg_bind_two hA f f' (k := 0) (fun a T ha hT => hf a T ha (hT.mono (by omega))) KeyHiding.small_empty

end

theorem over_order (k j q' : ℕ) : (k : ℚ) * (j + q' + k + 5) / (orderN - 1 : ℕ) ≤ k * (j + q' + k + 5) / 2 ^ 255 := by
  refine div_le_div_of_nonneg_left (by positivity) (by positivity) ?_
  have : 2 ^ 255 ≤ orderN - 1 := by decide +kernel
  exact_mod_cast this

end Verif.Watcher
