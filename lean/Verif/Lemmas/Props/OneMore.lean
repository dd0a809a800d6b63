import Verif.Spec.OneMore
import Verif.Lemmas.Props.AdaptiveExample
import Verif.Lemmas.Props.Random

/-!
# Lemmas for `Props/OneMore`
-/

namespace Verif.Adaptive

open Forger (answers)
open Concurrent
open CmaForger (chance_mono chance_or chance_snd chance_exists_fin chance_update chance_equiv chance_nonneg)

/-! ## Nonces among the unknowns -/

theorem publicNonces_mulG {k : ℕ} (x : Unknown k → Scalar) :
    (publicNonces fun j => mulG (x j)) = fun i => (secretNonces x i).publicNonce := by
  funext i
  unfold publicNonces secretNonces
  split <;> rfl

theorem secrets_secretNonces {k : ℕ} (x : Unknown k → Scalar) : secrets k (x none) (secretNonces x) = fun j => (x j).1 := by
  funext j
  match j with
  | none => rfl
  | some (i, false) =>
    change (secretNonces x i).k1.1 = _
    rw [secretNonces, dif_pos i.2]
  | some (i, true) =>
    change (secretNonces x i).k2.1 = _
    rw [secretNonces, dif_pos i.2]

theorem forges_oneMore {H : Hash} (hH : TagsAgree H) {A : Point → Adversary} {q k : ℕ} (hA : ∀ P, (A P).AsksAtMost q k) :
    (Spec.chance fun p : (Unknown k → Scalar) × (Fin q → Arr 32) => Forges k H (p.1 none) (secretNonces p.1) (A (mulG (p.1 none))) p.2)
      ≤ Spec.oneMoreDlog k q (attack k H A) + ((k + 7) * ((q : ℚ) * (q + 1)) + 2 ^ 34 * q) / 2 ^ 256 := by
  have h1 := chance_snd (Ω := Unknown k → Scalar) (Ω' := Fin q → Arr 32)
    (fun x ω => Forges k H (x none) (secretNonces x) (A (mulG (x none))) ω ∧
      ¬ ((solver k H (mulG (x none)) (fun i => (secretNonces x i).publicNonce) (A (mulG (x none)))).run (secrets k (x none) (secretNonces x))
        (answers ω) []).1 = secrets k (x none) (secretNonces x))
    (((k + 7) * ((q : ℚ) * (q + 1)) + 2 ^ 34 * q) / 2 ^ 256) (fun x => forges_unsolved hH (x none) (secretNonces x) (hA _)) (by positivity)
  refine le_trans (chance_mono fun p hp => ?_) ((chance_or _ _).trans (add_le_add_right h1 _))
  by_cases hs : ((attack k H A fun j => mulG (p.1 j)).run (fun j => (p.1 j).1) (answers p.2) []).1 = fun j => (p.1 j).1
  · exact .inl hs
  · refine .inr ⟨hp, ?_⟩
    unfold attack at hs
    rw [publicNonces_mulG, ← secrets_secretNonces] at hs
    exact hs

/-! ## Games with hash functions that agree on the strings that are drawn -/

/-- `h` on the strings that are drawn, and `O` on others. -/
def rehash (O h : Hash) : Hash := fun x => if Drawn x then h x else O x

theorem rehash_drawn {O h : Hash} {x : Bytes} (hx : Drawn x) : rehash O h x = h x := if_pos hx

theorem rehash_answering {O h : Hash} {x : Bytes} (hx : Drawn x) (a : Arr 32) :
    rehash O (h.answering x a) = (rehash O h).answering x a := by
  funext z
  unfold rehash Hash.answering
  by_cases hz : z = x
  · subst hz
    rw [if_pos hx, if_pos rfl, if_pos rfl]
  · rw [if_neg hz, if_neg hz]

theorem rehash_eq {O H : Hash} (h : ∀ x, Drawn x → O x = H x) : rehash O H = O := by
  funext z
  unfold rehash
  split_ifs with hz
  · exact (h z hz).symm
  · rfl

theorem coeffOf_rehash (O h : Hash) (keys : List Point) (K : Point) : coeffOf (rehash O h) keys K = coeffOf h keys K := by
  by_cases h2 : secondKey keys = some K
  · rw [GroupForger.coeffOf_second h2, GroupForger.coeffOf_second h2]
  · rw [GroupForger.coeffOf_of_ne h2, GroupForger.coeffOf_of_ne h2]
    change reduceFrom (rehash O h (Spec.coefString (rehash O h (Spec.listQuery keys)) K))
      = reduceFrom (h (Spec.coefString (h (Spec.listQuery keys)) K))
    rw [rehash_drawn (drawn_list keys), rehash_drawn (drawn_coef _ K)]

theorem makeContext_rehash (O h : Hash) (keys : List Point) (ts : List (Scalar × Bool)) :
    makeContext (rehash O h) keys ts = makeContext h keys ts := by
  unfold makeContext
  rw [new_congr fun K _ => coeffOf_rehash O h keys K]

theorem tagsAgree_rehash {O : Hash} (hO : TagsAgree O) (h : Hash) : TagsAgree (rehash O h) := by
  have key : ∀ t : Bytes, t.length < 64 → rehash O h t = O t := fun t ht =>
    if_neg fun hd => by have := hd.length; omega
  constructor <;> rw [key _ (by decide +kernel)]
  exacts [hO.keyAggList, hO.keyAggCoeff, hO.musigAux, hO.musigNonce, hO.musigNoncecoef, hO.bip340Aux, hO.bip340Nonce,
    hO.bip340Challenge, hO.bip340Batch, hO.tapTweak]

theorem keyCoeff_rehash {O h : Hash} (hO : TagsAgree O) (hh : TagsAgree h) (keys : List Point) (K : Point) :
    Spec.keyCoeff (rehash O h) keys K = Spec.keyCoeff h keys K := by
  rw [keyCoeff_eq (tagsAgree_rehash hO h), keyCoeff_eq hh, coeffOf_rehash]

/-- The group with its hash function changed on strings that are not drawn. -/
def Group.rehash (O : Hash) (g : Group) : Group := { g with hash := Adaptive.rehash O g.hash }

def Session.rehash (O : Hash) (s : Session) : Session :=
  ⟨s.point, s.signed.map fun r => { r with group := r.group.rehash O }⟩

def Outcome.rehash (O : Hash) (o : Outcome) : Outcome :=
  { o with group := o.group.rehash O, sessions := o.sessions.map (Session.rehash O) }

theorem rep_rehash {O : Hash} (hO : TagsAgree O) (P : Point) {g : Group} (hg : TagsAgree g.hash) : (g.rehash O).rep P = g.rep P := by
  unfold Group.rep Group.known publicOf Spec.weighted Group.rehash
  simp only [keyCoeff_rehash hO hg]

theorem askCoefs_rehash {k : ℕ} (O : Hash) (a : Arr 32) (n : Note) (keys : List Point) (h : Hash) :
    (askCoefs a n keys (rehash O h) : Play Note k Hash) = (askCoefs a n keys h).bind fun h' => .done (rehash O h') := by
  induction keys generalizing h with
  | nil => rfl
  | cons K keys ih =>
    rw [askCoefs, askCoefs, Play.bind]
    congr 1
    funext _ c
    rw [← rehash_answering (drawn_coef a K), ih]

theorem makeGroup_rehash {k : ℕ} (O H : Hash) (P : Point) (keys : List Point) (ts : List (Scalar × Bool)) (n : Note) :
    (makeGroup (rehash O H) P keys ts n : Play Note k (Option Group))
      = (makeGroup H P keys ts n).bind fun og => .done (og.map (Group.rehash O)) := by
  unfold makeGroup
  split_ifs
  · rw [Play.bind]
    congr 1
    funext n' a
    rw [← rehash_answering (drawn_list keys), askCoefs_rehash, bind_bind, bind_bind]
    congr 1
    funext H'
    simp only [Play.bind, makeContext_rehash, Option.map_map]
    rfl
  · rfl

/-- The game with another hash function goes the same way, if the hash functions agree on the strings that are drawn and on
certain others, at most as many as the forger asks for. -/
theorem game_rehash {K : ℕ} {H : Hash} (hH : TagsAgree H) (P : Point) (pn : ℕ → PubNonce)
    (y : Unknown K → MaybeScalar) (ω : ℕ → Arr 32) (σ : ℕ → Group → Spec.Reply → Arr 32 → Arr 32 → MaybeScalar)
    (hσ : ∀ O i g r hb he, Fits P g → σ i (g.rehash O) r hb he = σ i g r hb he)
    (A : Adversary) (m : ℕ) (hA : A.OthersAtMost m) (ss : List Session) {log : Log Note} (hd : Distinct log) :
    ∃ L : List Bytes, L.length ≤ m ∧ ∀ O : Hash, TagsAgree O → (∀ x, Drawn x → O x = H x) → (∀ x ∈ L, O x = H x) →
      (game O P pn (fun i g r hb he => .done (σ i g r hb he)) A (ss.map (Session.rehash O))).run y ω log
        = let res := (game H P pn (fun i g r hb he => .done (σ i g r hb he)) A ss).run y ω log
          (res.1.map (Outcome.rehash O), res.2) := by
  have hpts : ∀ (O : Hash) (ss : List Session), (ss.map (Session.rehash O)).map (·.point) = ss.map (·.point) := fun O ss => by
    rw [List.map_map]
    rfl
  induction A generalizing m ss log with
  | submit keys tweaks msg sig d =>
    refine ⟨[], Nat.zero_le _, fun O hT hO _ => ?_⟩
    rw [game, game, hpts, run_bind, run_bind, ← rehash_eq hO, makeGroup_rehash, run_bind, rehash_eq hO]
    obtain ⟨og, log', hr, he, hg⟩ := run_makeGroup y ω hH P keys tweaks ⟨d, ss.map (·.point)⟩ hd
    rw [hr]
    cases og with
    | none => rfl
    | some g =>
      obtain ⟨h1, -⟩ := hg g rfl
      obtain ⟨n', a, log2, -, -, hr2⟩ := run_ask_ext y ω he.distinct (drawn_challenge sig.rx.1 g.ctx.aggregatedPubkey msg)
        ⟨{ d with key := g.rep P }, ss.map (·.point)⟩
      change (Play.ask (Spec.challengeQuery sig.rx.1 g.ctx.aggregatedPubkey msg)
        ⟨{ d with key := (g.rehash O).rep P }, ss.map (·.point)⟩ _).run y ω log' = _
      rw [rep_rehash hT P h1.tags, hr2]
      simp only
      rw [hr2]
      rfl
  | ask x d next ih =>
    by_cases hx : Drawn x
    · obtain ⟨n', h', log', he, hm, hr⟩ := run_ask_ext y ω hd hx ⟨d, ss.map (·.point)⟩
      obtain ⟨L, hL, h⟩ := ih h' m (hA.1 hx h') ss he.distinct
      refine ⟨L, hL, fun O hT hO hOL => ?_⟩
      rw [game, game, if_pos hx, if_pos hx, hpts, hr, hr]
      exact h O hT hO hOL
    · obtain ⟨m', rfl, hA'⟩ := hA.2 hx
      obtain ⟨L, hL, h⟩ := ih (H x) m' (hA' _) ss hd
      refine ⟨x :: L, by simpa using hL, fun O hT hO hOL => ?_⟩
      rw [game, game, if_neg hx, if_neg hx, hOL x List.mem_cons_self]
      exact h O hT hO fun z hz => hOL z (List.mem_cons_of_mem _ hz)
  | start T next ih =>
    obtain ⟨L, hL, h⟩ := ih (pn ss.length) m (hA _) (ss ++ [⟨T, none⟩]) hd
    refine ⟨L, hL, fun O hT hO hOL => ?_⟩
    rw [game, game, List.length_map]
    have := h O hT hO hOL
    rw [List.map_append] at this
    exact this
  | sign i keys tweaks an msg d next ih =>
    rcases hs : ss[i]? with _ | ⟨T, _ | r⟩
    · obtain ⟨L, hL, h⟩ := ih 0 m (hA _) ss hd
      refine ⟨L, hL, fun O hT hO hOL => ?_⟩
      rw [game, game, List.getElem?_map, hs]
      exact h O hT hO hOL
    · obtain ⟨og, log', hr, he, hg⟩ := run_makeGroup y ω hH P keys tweaks ⟨d, ss.map (·.point)⟩ hd
      cases og with
      | none =>
        obtain ⟨L, hL, h⟩ := ih 0 m (hA _) ss he.distinct
        refine ⟨L, hL, fun O hT hO hOL => ?_⟩
        rw [game, game, List.getElem?_map, hs]
        simp only [Option.map_some, Session.rehash, Option.map_none]
        rw [hpts, run_bind, run_bind, ← rehash_eq hO, makeGroup_rehash, run_bind, hr, rehash_eq hO]
        exact h O hT hO hOL
      | some g =>
        obtain ⟨h1, h2, -⟩ := hg g rfl
        obtain ⟨nb, hb, log2, he2, hm2, hr2⟩ := run_ask_ext y ω he.distinct (drawn_noncecoef an g.ctx.aggregatedPubkey msg)
          ⟨{ d with combination := .zero, key := g.rep P }, ss.map (·.point)⟩
        obtain ⟨ne, hc, log3, he3, hm3, hr3⟩ := run_ask_ext y ω he2.distinct
          (drawn_challenge (Spec.xbytes ((⟨an, T, msg⟩ : Spec.Reply).nonce hb)) g.ctx.aggregatedPubkey msg)
          ⟨{ d with combination := .zero, key := g.rep P }, ss.map (·.point)⟩
        obtain ⟨L, hL, h⟩ := ih (σ i g ⟨an, T, msg⟩ hb hc) m (hA _)
          (ss.set i ⟨T, some ⟨g, an, msg, nb, hb, hc, σ i g ⟨an, T, msg⟩ hb hc⟩⟩) he3.distinct
        refine ⟨L, hL, fun O hT hO hOL => ?_⟩
        rw [game, game, List.getElem?_map, hs]
        simp only [Option.map_some, Session.rehash, Option.map_none]
        rw [hpts, run_bind, run_bind, ← rehash_eq hO, makeGroup_rehash, run_bind, hr, rehash_eq hO]
        change (Play.ask (Spec.noncecoefQuery an g.ctx.aggregatedPubkey msg)
          ⟨{ d with combination := .zero, key := (g.rehash O).rep P }, ss.map (·.point)⟩ fun nb hb =>
            Play.ask (Spec.challengeQuery (Spec.xbytes ((⟨an, T, msg⟩ : Spec.Reply).nonce hb)) g.ctx.aggregatedPubkey msg)
              ⟨{ d with combination := .zero, key := (g.rehash O).rep P }, ss.map (·.point)⟩ fun _ he =>
              (Play.done (σ i (g.rehash O) ⟨an, T, msg⟩ hb he)).bind _).run y ω log' = _
        rw [rep_rehash hT P h1.tags, hr2, hr3, Play.bind, hσ _ _ _ _ _ _ h1]
        simp only
        rw [hr2, hr3, Play.bind]
        have := h O hT hO hOL
        rw [List.map_set] at this
        exact this
    · obtain ⟨L, hL, h⟩ := ih 0 m (hA _) ss hd
      refine ⟨L, hL, fun O hT hO hOL => ?_⟩
      rw [game, game, List.getElem?_map, hs]
      exact h O hT hO hOL

theorem partialSignature_rehash {sk : Scalar} (sn : ℕ → SecNonce) (O : Hash) (i : ℕ) (g : Group) (r : Spec.Reply) (hb he : Arr 32)
    (hg : Fits (mulG sk) g) : SessionForger.partialSignature (g.rehash O).hash (g.rehash O).ctx sk (sn i) r hb he
      = SessionForger.partialSignature g.hash g.ctx sk (sn i) r hb he := by
  have hb' : BuiltFrom (rehash O g.hash) g.ctx g.keys g.tweaks := by
    obtain ⟨c, h1, h2⟩ := hg.built
    exact ⟨c, (new_congr fun K _ => coeffOf_rehash O g.hash g.keys K).trans h1, h2⟩
  have hm : mulG sk ∈ g.ctx.orderedPubkeys := by
    rw [hg.built.keys]
    exact hg.member
  rw [SessionForger.partialSignature_eq hg.built.reachable.inv hm]
  change SessionForger.partialSignature (rehash O g.hash) g.ctx sk (sn i) r hb he = _
  rw [SessionForger.partialSignature_eq hb'.reachable.inv hm, coeffOf_rehash]

theorem verifySingle_congr {H H' : Hash} (h : ∀ x, Drawn x → H x = H' x) (Q : Point) (sig : CompactSignature) (msg : Bytes) :
    verifySingle H Q sig msg = verifySingle H' Q sig msg := by
  have key : ∀ rx P msg, computeChallengeHashTweak H rx P msg = computeChallengeHashTweak H' rx P msg := by
    intro rx P msg
    rw [(C66_what_is_hashed H).2.2.2.1, (C66_what_is_hashed H').2.2.2.1]
    exact congrArg reduceFrom (h _ (drawn_challenge rx.1 P msg))
  unfold verifySingle verifySingleWith
  simp only [key]

theorem wins_rehash {H O : Hash} (hO : ∀ x, Drawn x → O x = H x) (P : Point) (pn : ℕ → PubNonce)
    (res : Option Outcome × Log Note) (h : Wins O P pn (res.1.map (Outcome.rehash O), res.2)) : Wins H P pn res := by
  obtain ⟨_ | out, log⟩ := res
  · exact h
  · obtain ⟨h1, h2, h3, h4, h5, h6⟩ := h
    have hs : ∀ s ∈ out.sessions, ∀ r, s.signed = some r →
        s.rehash O ∈ (out.rehash O).sessions ∧ (s.rehash O).signed = some { r with group := r.group.rehash O } := by
      intro s hs r hr
      refine ⟨List.mem_map.2 ⟨s, hs, rfl⟩, ?_⟩
      simp [Session.rehash, hr]
    refine ⟨fun s hs' r hr => h1 _ (hs s hs' r hr).1 { r with group := r.group.rehash O } (hs s hs' r hr).2, ?_, h3, h4, h5, fun s hs' r hr =>
      h6 _ (hs s hs' r hr).1 { r with group := r.group.rehash O } (hs s hs' r hr).2⟩
    rw [← h2]
    refine verifySingle_congr (fun x hx => ?_) _ _ _
    unfold Log.hash
    cases Log.find log x with
    | some e => rfl
    | none => exact (hO x hx).symm

/-- A forgery with another hash function is one with `H`, if the hash functions agree on certain strings. -/
theorem forges_rehash {H : Hash} (hH : TagsAgree H) (sk : Scalar) (sn : ℕ → SecNonce) (A : Adversary) (m k : ℕ)
    (hA : A.OthersAtMost m) {N : ℕ} (ω : Fin N → Arr 32) :
    ∃ L : List Bytes, L.length ≤ m ∧ ∀ O : Hash, TagsAgree O → (∀ x, Drawn x → O x = H x) → (∀ x ∈ L, O x = H x) →
      Forges k O sk sn A ω → Forges k H sk sn A ω := by
  obtain ⟨L, hL, h⟩ := game_rehash (K := k) hH (mulG sk) (fun i => (sn i).publicNonce) (secrets k sk sn) (answers ω)
    (fun i g r hb he => SessionForger.partialSignature g.hash g.ctx sk (sn i) r hb he)
    (fun O i g r hb he hg => partialSignature_rehash sn O i g r hb he hg) A m hA []
    (gameInv_nil (mulG sk) fun _ _ _ _ _ => 0).distinct
  refine ⟨L, hL, fun O hT hO hOL hF => ?_⟩
  unfold Forges signerGame at hF ⊢
  have := h O hT hO hOL
  rw [List.map_nil] at this
  rw [this] at hF
  exact wins_rehash hO _ _ _ hF

/-! ## Hash functions with many answers -/

theorem answeringAll_of_not_mem (H : Hash) {l : List (Bytes × Arr 32)} {x : Bytes} (hx : x ∉ l.map (·.1)) :
    H.answeringAll l x = H x := by
  induction l generalizing H with
  | nil => rfl
  | cons e l ih =>
    rw [List.map_cons, List.mem_cons, not_or] at hx
    exact (ih _ hx.2).trans (Hash.answering_of_ne _ _ hx.1)

theorem answeringAll_of_mem (H : Hash) {l : List (Bytes × Arr 32)} (hl : (l.map (·.1)).Nodup) {x : Bytes} {h : Arr 32}
    (hx : (x, h) ∈ l) : H.answeringAll l x = h := by
  induction l generalizing H with
  | nil => cases hx
  | cons e l ih =>
    rw [List.map_cons, List.nodup_cons] at hl
    rcases List.mem_cons.1 hx with rfl | hx
    · exact (answeringAll_of_not_mem _ hl.1).trans (Hash.answering_same _ _ _)
    · exact ih _ hl.2 hx

/-! ## Nonces from builders -/

section
variable {k : ℕ} (H : Hash) (B : ℕ → SecNonceBuilder) (d : Fin k → Spec.NonceDraw)

/-- The masked secret key, if the seed is hashed to `a`. -/
def mask (b : SecNonceBuilder) (a : Arr 32) : Arr 32 :=
  xorBytes (match b.seckey with
    | some seckey => serScalar seckey.1
    | none => ⟨List.replicate 32 0, rfl⟩) a

theorem mask_injective (b : SecNonceBuilder) : Function.Injective (mask b) := by
  intro a a' h
  unfold mask at h
  have comm : ∀ x y : Arr 32, xorBytes x y = xorBytes y x := fun x y => Subtype.ext (zipWith_xor_comm _ _)
  rw [comm, comm _ a'] at h
  exact xorBytes_left_inj h

theorem auxQuery_injective : Function.Injective Spec.auxQuery := by
  intro a b h
  unfold Spec.auxQuery Spec.taggedInput at h
  exact Subtype.ext (List.append_cancel_left h)

theorem seedHash_seed (hs : Function.Injective fun i => (d i).1.1) (i : Fin k) :
    Spec.seedHash H d (Spec.auxQuery (d i).1.1) = (d i).1.2 := by
  refine answeringAll_of_mem _ ?_ (List.mem_map.2 ⟨i, List.mem_finRange i, rfl⟩)
  rw [List.map_map]
  exact (List.nodup_finRange k).map fun i j h => hs (auxQuery_injective h)

theorem seedHash_other {x : Bytes} (hx : ∀ i, x ≠ Spec.auxQuery (d i).1.1) : Spec.seedHash H d x = H x := by
  refine answeringAll_of_not_mem _ fun h => ?_
  rw [List.map_map] at h
  obtain ⟨i, -, rfl⟩ := List.mem_map.1 h
  exact hx i rfl

/-- The strings that session `i` hashes to its nonces. -/
def nonceString (i : Fin k) (j : UInt8) : Bytes :=
  Spec.nonceQuery (Spec.seedHash H d) (Spec.seeded (B i) (d i).1.1) j

theorem nonceString_mask (hs : Function.Injective fun i => (d i).1.1) (i : Fin k) (j : UInt8) :
    ((nonceString H B d i j).drop 64).take 32 = (mask (B i) (d i).1.2).1 := by
  unfold nonceString
  rw [nonceQuery_eq, hashInput_eq_bytes, nonceInputs_bytes]
  have h1 : (MUSIG_NONCE_TAG_DIGEST ++ MUSIG_NONCE_TAG_DIGEST).length = 64 := by decide
  rw [List.drop_append_of_le_length h1.ge, List.drop_of_length_le h1.le, List.nil_append, List.append_assoc]
  have h2 : (nonceInputs (Spec.seedHash H d) (Spec.seeded (B i) (d i).1.1)).masked = (mask (B i) (d i).1.2).1 := by
    change maskedSeckey _ _ _ = _
    rw [maskedSeckey_eq]
    unfold mask
    have h3 : tagHash (Spec.seedHash H d) MUSIG_AUX_TAG_DIGEST (Spec.seeded (B i) (d i).1.1).nonceSeedBytes.1 = (d i).1.2 := by
      rw [← seedHash_seed H d hs i]
      unfold tagHash Spec.auxQuery
      rw [taggedInput_musigAux]
      rfl
    rw [h3]
    rfl
  rw [h2, List.take_append_of_le_length (mask _ _).2.ge, List.take_of_length_le (mask _ _).2.le]

theorem nonceString_last {i : Fin k} {a b : UInt8} (h : nonceString H B d i a = nonceString H B d i b) : a = b := by
  unfold nonceString at h
  rw [nonceQuery_eq, nonceQuery_eq] at h
  simpa using h

theorem nonceStrings_nodup' (h : ∀ i j a b, nonceString H B d i a = nonceString H B d j b → i = j) :
    (((List.finRange k).flatMap fun i : Fin k => [(nonceString H B d i 0, (d i).2.1), (nonceString H B d i 1, (d i).2.2)]).map
      (·.1)).Nodup := by
  rw [List.map_flatMap, List.nodup_flatMap]
  refine ⟨fun i _ => ?_, ?_⟩
  · simp only [List.map_cons, List.map_nil, List.nodup_cons, List.mem_singleton, List.not_mem_nil, not_false_eq_true,
      List.nodup_nil, and_true]
    exact fun h => absurd (nonceString_last H B d h) (by decide)
  · refine (List.nodup_finRange k).imp fun {i j} hij => ?_
    intro x hx hy
    simp only [List.map_cons, List.map_nil, List.mem_cons, List.not_mem_nil, or_false] at hx hy
    rcases hx with rfl | rfl <;> rcases hy with h' | h' <;> exact hij (h _ _ _ _ h')

theorem nonceStrings_nodup (hs : Function.Injective fun i => (d i).1.1) (hm : Function.Injective fun i : Fin k => mask (B i) (d i).1.2) :
    (((List.finRange k).flatMap fun i : Fin k => [(nonceString H B d i 0, (d i).2.1), (nonceString H B d i 1, (d i).2.2)]).map
      (·.1)).Nodup :=
  nonceStrings_nodup' H B d fun i j a b h => hm (Subtype.ext (by
    simp only
    rw [← nonceString_mask H B d hs i a, h, nonceString_mask H B d hs j b]))

theorem nonceHash_other' {x : Bytes} (h1 : ∀ i, x ≠ Spec.auxQuery (d i).1.1)
    (h2 : ∀ i, x ≠ nonceString H B d i 0 ∧ x ≠ nonceString H B d i 1) : Spec.nonceHash H B d x = H x := by
  refine (answeringAll_of_not_mem _ fun h => ?_).trans (seedHash_other H d h1)
  obtain ⟨e, he, rfl⟩ := List.mem_map.1 h
  obtain ⟨i, -, he⟩ := List.mem_flatMap.1 he
  simp only [List.mem_cons, List.not_mem_nil, or_false] at he
  rcases he with rfl | rfl
  · exact (h2 i).1 rfl
  · exact (h2 i).2 rfl

theorem nonceHash_other {x : Bytes} (h1 : ∀ i, x ≠ Spec.auxQuery (d i).1.1) (h2 : ∀ i j, x ≠ nonceString H B d i j) :
    Spec.nonceHash H B d x = H x := nonceHash_other' H B d h1 fun i => ⟨h2 i 0, h2 i 1⟩

theorem nonceHash_aux (seed : Arr 32) : Spec.nonceHash H B d (Spec.auxQuery seed) = Spec.seedHash H d (Spec.auxQuery seed) := by
  refine answeringAll_of_not_mem _ fun h => ?_
  obtain ⟨e, he, h⟩ := List.mem_map.1 h
  obtain ⟨j, -, he⟩ := List.mem_flatMap.1 he
  simp only [List.mem_cons, List.not_mem_nil, or_false] at he
  rcases he with rfl | rfl <;>
    exact C66_domain_separation "MuSig/nonce" "MuSig/aux" (by decide) (by decide) (by decide) _ _ h

theorem hashInput_nonceHash (b : SecNonceBuilder) : b.hashInput (Spec.nonceHash H B d) = b.hashInput (Spec.seedHash H d) := by
  have := nonceHash_aux H B d b.nonceSeedBytes
  unfold Spec.auxQuery at this
  rw [taggedInput_musigAux] at this
  unfold SecNonceBuilder.hashInput tagHash
  rw [this]

theorem nonceQuery_nonceHash (i : Fin k) (j : UInt8) :
    Spec.nonceQuery (Spec.nonceHash H B d) (Spec.seeded (B i) (d i).1.1) j = nonceString H B d i j := by
  unfold nonceString
  rw [nonceQuery_eq, nonceQuery_eq, hashInput_nonceHash]

theorem not_drawn_of_tag {t : String} (ht : t = "MuSig/aux" ∨ t = "MuSig/nonce") (x : Bytes) : ¬ Drawn (Spec.taggedInput t x) := by
  rintro ⟨t', ht', h⟩
  simp only [List.mem_cons, List.not_mem_nil, or_false] at ht'
  rcases ht with rfl | rfl <;> rcases ht' with rfl | rfl | rfl | rfl <;>
    exact not_prefix_of_tag (by decide +kernel) (by decide +kernel) (by decide) _ h

theorem nonceHash_drawn {x : Bytes} (hx : Drawn x) : Spec.nonceHash H B d x = H x :=
  nonceHash_other H B d (fun _ h => not_drawn_of_tag (.inl rfl) _ (h ▸ hx)) fun _ _ h => not_drawn_of_tag (.inr rfl) _ (h ▸ hx)

theorem tagsAgree_nonceHash {H : Hash} (hH : TagsAgree H) : TagsAgree (Spec.nonceHash H B d) := by
  have hlen : ∀ (t : String) (x : Bytes), 64 ≤ (Spec.taggedInput t x).length := fun t x => by
    unfold Spec.taggedInput
    rw [List.length_append, List.length_append, (sha256 _).2]
    omega
  have key : ∀ t : Bytes, t.length < 64 → Spec.nonceHash H B d t = H t := fun t ht =>
    nonceHash_other H B d (fun i h => by have := hlen "MuSig/aux" (d i).1.1.1; rw [h] at ht; unfold Spec.auxQuery at ht; omega)
      fun i j h => by
        have := hlen "MuSig/nonce" ((nonceInputs (Spec.seedHash H d) (Spec.seeded (B i) (d i).1.1)).bytes ++ [j])
        rw [h] at ht
        unfold nonceString Spec.nonceQuery at ht
        omega
  constructor <;> rw [key _ (by decide +kernel)]
  exacts [hH.keyAggList, hH.keyAggCoeff, hH.musigAux, hH.musigNonce, hH.musigNoncecoef, hH.bip340Aux, hH.bip340Nonce,
    hH.bip340Challenge, hH.bip340Batch, hH.tapTweak]

/-- The nonces, if all seeds and masks are different. -/
theorem builtNonce_eq (hs : Function.Injective fun i => (d i).1.1) (hm : Function.Injective fun i : Fin k => mask (B i) (d i).1.2)
    (i : ℕ) (hi : i < k) : Spec.builtNonce H B d i
      = ⟨SecNonceBuilder.reduceOrOne (d ⟨i, hi⟩).2.1, SecNonceBuilder.reduceOrOne (d ⟨i, hi⟩).2.2⟩ := by
  have hval : ∀ (j : UInt8) (h : Arr 32), (nonceString H B d ⟨i, hi⟩ j, h) ∈
      ((List.finRange k).flatMap fun i : Fin k => [(nonceString H B d i 0, (d i).2.1), (nonceString H B d i 1, (d i).2.2)]) →
      tagHash (Spec.nonceHash H B d) MUSIG_NONCE_TAG_DIGEST
        ((Spec.seeded (B i) (d ⟨i, hi⟩).1.1).hashInput (Spec.nonceHash H B d) ++ [j]) = h := by
    intro j h hmem
    rw [← answeringAll_of_mem (Spec.seedHash H d) (nonceStrings_nodup H B d hs hm) hmem, hashInput_nonceHash]
    unfold tagHash nonceString
    rw [nonceQuery_eq]
    rfl
  rw [Spec.builtNonce, dif_pos hi]
  unfold SecNonceBuilder.build
  rw [hval 0 (d ⟨i, hi⟩).2.1 (List.mem_flatMap.2 ⟨⟨i, hi⟩, List.mem_finRange _, by simp⟩),
    hval 1 (d ⟨i, hi⟩).2.2 (List.mem_flatMap.2 ⟨⟨i, hi⟩, List.mem_finRange _, by simp⟩)]

end

/-- Strings that are drawn are not hashed by builders. -/
theorem build_log {H : Hash} {log : Log Note} (hl : ∀ e ∈ log, Drawn e.1) (b : SecNonceBuilder) :
    b.build (log.hash H) = b.build H := by
  have key : ∀ x, ¬ Drawn x → log.hash H x = H x := by
    intro x hx
    unfold Log.hash
    rw [find_none.2]
    intro h
    obtain ⟨e, he, rfl⟩ := List.mem_map.1 h
    exact hx (hl e he)
  have h1 : b.hashInput (log.hash H) = b.hashInput H := by
    unfold SecNonceBuilder.hashInput tagHash
    rw [← taggedInput_musigAux, key _ (not_drawn_of_tag (.inl rfl) _)]
  unfold SecNonceBuilder.build tagHash
  rw [h1, ← taggedInput_musigNonce, ← taggedInput_musigNonce, key _ (not_drawn_of_tag (.inr rfl) _),
    key _ (not_drawn_of_tag (.inr rfl) _)]

/-! ## Probabilities -/

theorem chance_session {k : ℕ} (π : Arr 32 × Arr 32 → Arr 32) (hπ : ∀ S : Set (Arr 32), {t | π t ∈ S}.ncard = S.ncard * 256 ^ 32)
    (E : Fin k → (Fin k → Arr 32 × Arr 32) → Prop) (c : ℕ)
    (h : ∀ j τ, ∃ S : Set (Arr 32), S.ncard ≤ c ∧ ∀ t, E j (Function.update τ j t) → π t ∈ S) :
    (Spec.chance fun τ => ∃ j, E j τ) ≤ k * (c / 2 ^ 256) := by
  refine chance_exists_fin k _ _ fun j => ?_
  have hcard : Nat.card (Arr 32 × Arr 32) = 256 ^ 32 * 256 ^ 32 := by rw [Nat.card_prod, arr_card]
  have hN : (256 : ℚ) ^ 32 = 2 ^ 256 := by norm_num
  refine (chance_update j (E j) (c * 256 ^ 32) (by rw [hcard]; positivity) fun τ => ?_).trans (le_of_eq ?_)
  · obtain ⟨S, hS, hE⟩ := h j τ
    exact (Set.ncard_le_ncard (fun t ht => hE t ht) (Set.toFinite _)).trans ((hπ S).le.trans (Nat.mul_le_mul_right _ hS))
  · rw [hcard, Nat.cast_mul, Nat.cast_mul, Nat.cast_pow, Nat.cast_ofNat, hN, mul_div_mul_right _ _ (by positivity)]

theorem ncard_fst (S : Set (Arr 32)) : {t : Arr 32 × Arr 32 | t.1 ∈ S}.ncard = S.ncard * 256 ^ 32 := by
  have : {t : Arr 32 × Arr 32 | t.1 ∈ S} = S ×ˢ Set.univ := by
    ext t
    simp
  rw [this, Set.ncard_prod, Set.ncard_univ, arr_card]

theorem ncard_snd (S : Set (Arr 32)) : {t : Arr 32 × Arr 32 | t.2 ∈ S}.ncard = S.ncard * 256 ^ 32 := by
  have : {t : Arr 32 × Arr 32 | t.2 ∈ S} = Set.univ ×ˢ S := by
    ext t
    simp
  rw [this, Set.ncard_prod, Set.ncard_univ, arr_card, mul_comm]

/-- At most `L.length` values are mapped into a list by an injective function. -/
theorem ncard_preimage_list {β : Type} {f : Arr 32 → β} (hf : Function.Injective f) (L : List β) :
    {t | f t ∈ L}.ncard ≤ L.length := by
  classical
  have h1 := Set.ncard_le_ncard_of_injOn (s := {t | f t ∈ L}) (t := (L.toFinset : Set β)) f
    (fun t ht => by simpa using ht) hf.injOn (Finset.finite_toSet _)
  rw [Set.ncard_coe_finset] at h1
  exact h1.trans (List.toFinset_card_le L)

theorem chance_collision {k : ℕ} (π : Arr 32 × Arr 32 → Arr 32) (hπ : ∀ S : Set (Arr 32), {t | π t ∈ S}.ncard = S.ncard * 256 ^ 32)
    {β : Type} (f : Fin k → Arr 32 → β) (hf : ∀ i, Function.Injective (f i)) :
    (Spec.chance fun τ : Fin k → Arr 32 × Arr 32 => ¬ Function.Injective fun i => f i (π (τ i))) ≤ k * (k / 2 ^ 256) := by
  refine le_trans (chance_mono fun τ hτ => ?_) (chance_session π hπ (fun j τ => ∃ i, i ≠ j ∧ f i (π (τ i)) = f j (π (τ j))) k
    fun j τ => ⟨{a | f j a ∈ (List.finRange k).map fun i => f i (π (τ i))}, ?_, ?_⟩)
  · unfold Function.Injective at hτ
    push Not at hτ
    obtain ⟨i, j, h, hij⟩ := hτ
    exact ⟨j, i, hij, h⟩
  · exact (ncard_preimage_list (hf j) _).trans (by simp)
  · rintro t ⟨i, hi, h⟩
    rw [Function.update_of_ne hi, Function.update_self] at h
    exact List.mem_map.2 ⟨i, List.mem_finRange i, h⟩

theorem chance_asked {k : ℕ} (π : Arr 32 × Arr 32 → Arr 32) (hπ : ∀ S : Set (Arr 32), {t | π t ∈ S}.ncard = S.ncard * 256 ^ 32)
    {β : Type} (f : Fin k → Arr 32 → β) (hf : ∀ i, Function.Injective (f i)) (L : List β) (m : ℕ) (hL : L.length ≤ m) :
    (Spec.chance fun τ : Fin k → Arr 32 × Arr 32 => ∃ j, f j (π (τ j)) ∈ L) ≤ k * (m / 2 ^ 256) := by
  refine chance_session π hπ (fun j τ => f j (π (τ j)) ∈ L) m
    fun j τ => ⟨{a | f j a ∈ L}, (ncard_preimage_list (hf j) _).trans hL, fun t ht => ?_⟩
  simpa using ht

/-- The unknowns that come from the answers. -/
def fromAnswers {k : ℕ} (sk : Scalar) (κ : Fin k → Arr 32 × Arr 32) : Unknown k → Scalar
  | none => sk
  | some (i, false) => SecNonceBuilder.reduceOrOne (κ i).1
  | some (i, true) => SecNonceBuilder.reduceOrOne (κ i).2

/-- Answers that are numbers between one and the order give all unknowns equally often. -/
theorem chance_good {k : ℕ} {Ω : Type} [Finite Ω] (E : (Unknown k → Scalar) → Ω → Prop) :
    (Spec.chance fun p : (Scalar × (Fin k → Arr 32 × Arr 32)) × Ω =>
      (∀ i, (p.1.2 i).1 ∈ goodArr ∧ (p.1.2 i).2 ∈ goodArr) ∧ E (fromAnswers p.1.1 p.1.2) p.2)
      ≤ Spec.chance fun p : (Unknown k → Scalar) × Ω => E p.1 p.2 := by
  have hinj : {p : (Scalar × (Fin k → Arr 32 × Arr 32)) × Ω |
      (∀ i, (p.1.2 i).1 ∈ goodArr ∧ (p.1.2 i).2 ∈ goodArr) ∧ E (fromAnswers p.1.1 p.1.2) p.2}.ncard
      ≤ {p : (Unknown k → Scalar) × Ω | E p.1 p.2}.ncard := by
    refine Set.ncard_le_ncard_of_injOn (fun p => (fromAnswers p.1.1 p.1.2, p.2)) (fun p hp => hp.2) ?_ (Set.toFinite _)
    rintro ⟨⟨sk, κ⟩, ω⟩ ⟨hg, -⟩ ⟨⟨sk', κ'⟩, ω'⟩ ⟨hg', -⟩ h
    simp only [Prod.mk.injEq] at h
    obtain ⟨h1, rfl⟩ := h
    have h2 : sk = sk' := congrFun h1 none
    subst h2
    simp only [Prod.mk.injEq, and_true, true_and]
    funext i
    exact Prod.ext (CmaForger.reduceOrOne_injOn (hg i).1 (hg' i).1 (congrFun h1 (some (i, false))))
      (CmaForger.reduceOrOne_injOn (hg i).2 (hg' i).2 (congrFun h1 (some (i, true))))
  have hn : 0 < orderN - 1 := by have := one_lt_orderN; omega
  have hcard : Nat.card (Unknown k → Scalar) ≤ Nat.card (Scalar × (Fin k → Arr 32 × Arr 32)) := by
    rw [Nat.card_fun, Nat.card_prod, Nat.card_fun, Nat.card_prod, arr_card, card_scalar, Nat.card_eq_fintype_card (α := Unknown k),
      Nat.card_eq_fintype_card (α := Fin k), Fintype.card_option, Fintype.card_prod, Fintype.card_fin, Fintype.card_bool, pow_succ,
      mul_comm, mul_comm k 2, pow_mul, pow_two]
    have hle : orderN - 1 ≤ 256 ^ 32 := by have := orderN_lt; omega
    exact Nat.mul_le_mul_left _ (Nat.pow_le_pow_left (Nat.mul_le_mul hle hle) k)
  unfold Spec.chance
  refine (div_le_div_of_nonneg_right (Nat.cast_le.2 hinj) (by positivity)).trans ?_
  rw [Nat.card_prod (Unknown k → Scalar), Nat.card_prod (Scalar × (Fin k → Arr 32 × Arr 32))]
  have hpos : 0 < Nat.card (Unknown k → Scalar) := by
    have : Nonempty (Unknown k → Scalar) := ⟨fun _ => scalarOne⟩
    exact Nat.card_pos
  rcases Nat.eq_zero_or_pos (Nat.card Ω) with h0 | h0
  · simp [h0]
  · refine div_le_div_of_nonneg_left (by positivity) ?_ (by exact_mod_cast Nat.mul_le_mul_right _ hcard)
    exact_mod_cast Nat.mul_pos hpos h0

theorem chance_bad (k : ℕ) :
    (Spec.chance fun κ : Fin k → Arr 32 × Arr 32 => ∃ i, (κ i).1 ∉ goodArr ∨ (κ i).2 ∉ goodArr) ≤ k / 2 ^ 126 := by
  have hb : (goodArrᶜ).ncard ≤ 2 ^ 129 := by
    have h1 := ncard_compl_good
    have h2 := orderN_close
    have := one_lt_orderN
    omega
  have key : ∀ π : Arr 32 × Arr 32 → Arr 32, (∀ S : Set (Arr 32), {t | π t ∈ S}.ncard = S.ncard * 256 ^ 32) →
      (Spec.chance fun κ : Fin k → Arr 32 × Arr 32 => ∃ i, π (κ i) ∉ goodArr) ≤ k * ((2 ^ 129 : ℕ) / 2 ^ 256) := fun π hπ =>
    chance_session π hπ (fun j κ => π (κ j) ∉ goodArr) _ fun j τ => ⟨goodArrᶜ, hb, fun t ht => by simpa using ht⟩
  have h1 := key _ ncard_fst
  have h2 := key _ ncard_snd
  refine le_trans (chance_mono fun κ hκ => ?_) ((chance_or _ _).trans ((add_le_add h1 h2).trans (le_of_eq ?_)))
  · obtain ⟨i, h | h⟩ := hκ
    · exact .inl ⟨i, h⟩
    · exact .inr ⟨i, h⟩
  · push_cast
    ring

/-- The nonces of the builders in terms of the answers. -/
theorem builtNonce_fromAnswers {k : ℕ} (H : Hash) (B : ℕ → SecNonceBuilder) (d : Fin k → Spec.NonceDraw) (sk : Scalar)
    (hs : Function.Injective fun i => (d i).1.1) (hm : Function.Injective fun i : Fin k => mask (B i) (d i).1.2) :
    Spec.builtNonce H B d = secretNonces (fromAnswers sk fun i => (d i).2) := by
  funext i
  by_cases hi : i < k
  · rw [builtNonce_eq H B d hs hm i hi, secretNonces, dif_pos hi]
    rfl
  · rw [Spec.builtNonce, dif_neg hi, secretNonces, dif_neg hi]

/-- What is drawn, with the seeds and their hashes last. -/
def drawEquiv (k q : ℕ) : ((Scalar × (Fin k → Arr 32 × Arr 32)) × (Fin q → Arr 32)) × (Fin k → Arr 32 × Arr 32)
    ≃ Scalar × (Fin k → Spec.NonceDraw) × (Fin q → Arr 32) where
  toFun p := (p.1.1.1, fun i => (p.2 i, p.1.1.2 i), p.1.2)
  invFun p := (((p.1, fun i => (p.2.1 i).2), p.2.2), fun i => (p.2.1 i).1)
  left_inv _ := rfl
  right_inv _ := rfl

theorem forges_built {H : Hash} (hH : TagsAgree H) {A : Point → Adversary} {q k m : ℕ}
    (B : Scalar → (Fin k → Arr 32 × Arr 32) → (Fin q → Arr 32) → ℕ → SecNonceBuilder) (hA : ∀ P, (A P).AsksAtMost q k)
    (hm : ∀ P, (A P).OthersAtMost m) :
    (Spec.chance fun p : Scalar × (Fin k → Spec.NonceDraw) × (Fin q → Arr 32) =>
      Forges k (Spec.nonceHash H (B p.1 (fun i => (p.2.1 i).2) p.2.2) p.2.1) p.1
        (Spec.builtNonce H (B p.1 (fun i => (p.2.1 i).2) p.2.2) p.2.1) (A (mulG p.1)) p.2.2)
      ≤ Spec.oneMoreDlog k q (attack k H A) + ((k + 7) * ((q : ℚ) * (q + 1)) + 2 ^ 34 * q) / 2 ^ 256
        + (2 * k * (k + m) / 2 ^ 256 + k / 2 ^ 126) := by
  rw [← chance_equiv (drawEquiv k q)]
  choose L hL hF using fun (p : (Scalar × (Fin k → Arr 32 × Arr 32)) × (Fin q → Arr 32)) =>
    forges_rehash hH p.1.1 (secretNonces (fromAnswers p.1.1 p.1.2)) (A (mulG p.1.1)) m k (hm _) p.2
  -- what may go wrong with the seeds
  have e1 := chance_snd (Ω := (Scalar × (Fin k → Arr 32 × Arr 32)) × (Fin q → Arr 32)) (Ω' := Fin k → Arr 32 × Arr 32)
    (fun p τ => ((¬ Function.Injective fun i => (τ i).1) ∨ ¬ Function.Injective fun i : Fin k => mask (B p.1.1 p.1.2 p.2 i) (τ i).2) ∨
      (∃ i, Spec.auxQuery (τ i).1 ∈ L p) ∨ ∃ i : Fin k, (mask (B p.1.1 p.1.2 p.2 i) (τ i).2).1 ∈ (L p).map fun x => (x.drop 64).take 32)
    (2 * k * (k + m) / 2 ^ 256) (fun p => by
      have h1 := chance_collision (k := k) _ ncard_fst (fun _ a => a) fun _ => Function.injective_id
      have h2 := chance_collision (k := k) _ ncard_snd (fun i a => mask (B p.1.1 p.1.2 p.2 i) a) fun i => mask_injective _
      have h3 := chance_asked (k := k) _ ncard_fst (fun _ => Spec.auxQuery) (fun _ => auxQuery_injective) (L p) m (hL p)
      have h4 := chance_asked (k := k) _ ncard_snd (fun i a => (mask (B p.1.1 p.1.2 p.2 i) a).1)
        (fun i => Subtype.val_injective.comp (mask_injective _)) ((L p).map fun x => (x.drop 64).take 32) m (by simpa using hL p)
      refine (chance_or _ _).trans ((add_le_add ((chance_or _ _).trans (add_le_add h1 h2))
        ((chance_or _ _).trans (add_le_add h3 h4))).trans (le_of_eq ?_))
      ring) (by positivity)
  -- answers that are not numbers between one and the order
  have e2 : (Spec.chance fun p : ((Scalar × (Fin k → Arr 32 × Arr 32)) × (Fin q → Arr 32)) × (Fin k → Arr 32 × Arr 32) =>
      ∃ i, (p.1.1.2 i).1 ∉ goodArr ∨ (p.1.1.2 i).2 ∉ goodArr) ≤ k / 2 ^ 126 := by
    have : Nonempty (Fin k → Arr 32 × Arr 32) := ⟨fun _ => (zeroSeed, zeroSeed)⟩
    have : Nonempty (Fin q → Arr 32) := ⟨fun _ => zeroSeed⟩
    rw [CmaForger.chance_fst (Ω' := Fin k → Arr 32 × Arr 32)
      fun p : (Scalar × (Fin k → Arr 32 × Arr 32)) × (Fin q → Arr 32) => ∃ i, (p.1.2 i).1 ∉ goodArr ∨ (p.1.2 i).2 ∉ goodArr,
      CmaForger.chance_fst (Ω' := Fin q → Arr 32)
      fun p : Scalar × (Fin k → Arr 32 × Arr 32) => ∃ i, (p.2 i).1 ∉ goodArr ∨ (p.2 i).2 ∉ goodArr]
    exact chance_snd (Ω := Scalar) (fun _ (κ : Fin k → Arr 32 × Arr 32) => ∃ i, (κ i).1 ∉ goodArr ∨ (κ i).2 ∉ goodArr) _
      (fun _ => chance_bad k) (by positivity)
  -- the game with uniform nonces
  have e3 : (Spec.chance fun p : ((Scalar × (Fin k → Arr 32 × Arr 32)) × (Fin q → Arr 32)) × (Fin k → Arr 32 × Arr 32) =>
      (∀ i, (p.1.1.2 i).1 ∈ goodArr ∧ (p.1.1.2 i).2 ∈ goodArr) ∧
        Forges k H p.1.1.1 (secretNonces (fromAnswers p.1.1.1 p.1.1.2)) (A (mulG p.1.1.1)) p.1.2)
      ≤ Spec.oneMoreDlog k q (attack k H A) + ((k + 7) * ((q : ℚ) * (q + 1)) + 2 ^ 34 * q) / 2 ^ 256 := by
    have : Nonempty (Fin k → Arr 32 × Arr 32) := ⟨fun _ => (zeroSeed, zeroSeed)⟩
    rw [CmaForger.chance_fst (Ω' := Fin k → Arr 32 × Arr 32)
      fun p : (Scalar × (Fin k → Arr 32 × Arr 32)) × (Fin q → Arr 32) => (∀ i, (p.1.2 i).1 ∈ goodArr ∧ (p.1.2 i).2 ∈ goodArr) ∧
        Forges k H p.1.1 (secretNonces (fromAnswers p.1.1 p.1.2)) (A (mulG p.1.1)) p.2]
    exact (chance_good fun (x : Unknown k → Scalar) (ω : Fin q → Arr 32) => Forges k H (x none) (secretNonces x) (A (mulG (x none))) ω).trans
      (forges_oneMore hH hA)
  refine le_trans (chance_mono fun p hp => ?_) ((chance_or _ _).trans (add_le_add e3 ((chance_or _ _).trans (add_le_add e1 e2))))
  obtain ⟨⟨⟨sk, κ⟩, ω⟩, τ⟩ := p
  change Forges k (Spec.nonceHash H (B sk κ ω) fun i => (τ i, κ i)) sk (Spec.builtNonce H (B sk κ ω) fun i => (τ i, κ i)) (A (mulG sk)) ω at hp
  by_contra hcon
  simp only [not_or, not_not, not_exists] at hcon
  obtain ⟨h3, ⟨⟨h1, h2⟩, h4, h5⟩, h6⟩ := hcon
  refine h3 ⟨h6, ?_⟩
  rw [builtNonce_fromAnswers H (B sk κ ω) (fun i => (τ i, κ i)) sk h1 h2] at hp
  refine hF ((sk, κ), ω) _ (tagsAgree_nonceHash (B sk κ ω) _ hH) (fun x hx => nonceHash_drawn H _ _ hx)
    (fun x hx => nonceHash_other H (B sk κ ω) (fun i => (τ i, κ i)) (fun i h => h4 i (h ▸ hx)) fun i j h => h5 i (List.mem_map.2 ⟨x, hx, ?_⟩)) hp
  rw [h]
  exact nonceString_mask H (B sk κ ω) (fun i => (τ i, κ i)) h1 i j

/-! ## The example -/

theorem exAdversary_others (sk : Scalar) (an : AggNonce) (m : Bytes) : (exAdversary sk an m).OthersAtMost 0 := by
  refine ⟨fun _ h => ⟨fun _ c => ?_, fun hx => absurd (drawn_coef h _) hx⟩, fun hx => absurd (drawn_list _) hx⟩
  beta_reduce
  split
  · trivial
  · exact ⟨fun _ e _ _ => trivial, fun hx => absurd (drawn_challenge _ _ _) hx⟩

end Verif.Adaptive
