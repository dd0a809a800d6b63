import Verif.Spec.Opener
import Verif.Lemmas.Props.OneMore
import Verif.Props.NonceUser

/-!
# Lemmas for `Props/Opener`
-/

namespace Verif.Opener

open Concurrent (Play Log Unknown)
open Adaptive (Note Session Outcome Signed makeGroup askCoefs Wins)

/-! ## The names of strings -/

theorem taggedInput_append (t : String) (x y : Bytes) : Spec.taggedInput t x ++ y = Spec.taggedInput t (x ++ y) := by
  unfold Spec.taggedInput
  rw [List.append_assoc]

theorem renamed_list (x : Bytes) : Spec.taggedInput "KeyAgg list" [0] <+: Spec.taggedInput "KeyAgg list" (0 :: x) :=
  ⟨x, taggedInput_append _ _ _⟩

theorem rename_injective : Function.Injective rename := by
  have key : ∀ {x y : Bytes}, Renamed x → ¬ Renamed y → rename x ≠ rename y := by
    intro x y hx hy h
    unfold rename at h
    rw [if_pos hx, if_neg hy] at h
    exact hy (.inr (h ▸ renamed_list x))
  intro x y h
  by_cases hx : Renamed x <;> by_cases hy : Renamed y
  · unfold rename at h
    rw [if_pos hx, if_pos hy] at h
    unfold Spec.taggedInput at h
    exact List.cons_injective (List.append_cancel_left h)
  · exact absurd h (key hx hy)
  · exact absurd h.symm (key hy hx)
  · unfold rename at h
    rwa [if_neg hx, if_neg hy] at h

theorem drawn_rename {x : Bytes} (hx : Drawn x) : Adaptive.Drawn (rename x) := by
  unfold rename
  split_ifs with h
  · exact Adaptive.drawn_of_prefix (by simp) _
  · exact hx.resolve_right fun h' => h (.inl h')

theorem rename_other {x : Bytes} (hx : ¬ Drawn x) : rename x = x := by
  refine if_neg fun h => hx ?_
  rcases h with h | h
  · exact .inr h
  · exact .inl ⟨"KeyAgg list", by simp, (Verif.tag_prefix _ _).trans h⟩

theorem rename_of_tag {t : String} (ht : t ∈ ["BIP0340/challenge", "MuSig/noncecoef", "KeyAgg coefficient"]) (x : Bytes) :
    rename (Spec.taggedInput t x) = Spec.taggedInput t x := by
  refine if_neg fun h => ?_
  simp only [List.mem_cons, List.not_mem_nil, or_false] at ht
  rcases h with (h | h) | h
  · rcases ht with rfl | rfl | rfl <;> exact not_prefix_of_tag (by decide +kernel) (by decide +kernel) (by decide) _ h
  · rcases ht with rfl | rfl | rfl <;> exact not_prefix_of_tag (by decide +kernel) (by decide +kernel) (by decide) _ h
  · have h := (tag_prefix _ _).trans h
    rcases ht with rfl | rfl | rfl <;> exact not_prefix_of_tag (by decide +kernel) (by decide +kernel) (by decide) _ h

theorem rename_list {keys : List Point} (hk : keys ≠ []) : rename (Spec.listQuery keys) = Spec.listQuery keys := by
  refine if_neg fun h => ?_
  rcases h with (h | h) | ⟨u, h⟩
  · exact not_prefix_of_tag (by decide +kernel) (by decide +kernel) (by decide) _ h
  · exact not_prefix_of_tag (by decide +kernel) (by decide +kernel) (by decide) _ h
  · obtain ⟨K, keys, rfl⟩ := List.exists_cons_of_ne_nil hk
    rw [taggedInput_append] at h
    unfold Spec.listQuery Spec.taggedInput at h
    have h := List.append_cancel_left h
    rw [List.map_cons, List.flatten_cons, Spec.cbytes, List.cons_append, List.cons_append] at h
    have := (List.cons.inj h).1
    split_ifs at this <;> exact absurd this (by decide)

/-! ## Logs -/

/-- The log without what was recorded. -/
def forget (log : Log Note) : Forger.Log := log.map fun e => (e.1, e.2.2)

/-- The log with the names of the strings. -/
def renamed (log : Log Note) : Log Note := log.map fun e => (rename e.1, e.2)

theorem find_forget (log : Log Note) (x : Bytes) : (forget log).find x = (log.find x).map (·.2) := by
  unfold Forger.Log.find forget Log.find
  rw [List.find?_map, Option.map_map, Option.map_map]
  rfl

theorem find_renamed (log : Log Note) (x : Bytes) : (renamed log).find (rename x) = log.find x := by
  unfold renamed Log.find
  rw [List.find?_map, Option.map_map]
  have : ((fun e : Bytes × Note × Arr 32 => decide (e.1 = rename x)) ∘ fun e : Bytes × Note × Arr 32 => (rename e.1, e.2))
      = fun e => decide (e.1 = x) := by
    funext e
    simp [rename_injective.eq_iff]
  rw [this]
  rfl

theorem forget_append (log : Log Note) (x : Bytes) (n : Note) (h : Arr 32) : forget (log ++ [(x, n, h)]) = forget log ++ [(x, h)] := by
  simp [forget]

theorem renamed_append (log : Log Note) (x : Bytes) (n : Note) (h : Arr 32) :
    renamed (log ++ [(x, n, h)]) = renamed log ++ [(rename x, n, h)] := by simp [renamed]

theorem length_forget (log : Log Note) : (forget log).length = log.length := List.length_map _
theorem length_renamed (log : Log Note) : (renamed log).length = log.length := List.length_map _

/-- What was recorded is about sessions before session `N`. -/
def Bounded (N : ℕ) (log : Log Note) : Prop := ∀ e ∈ log, e.2.1.points.length ≤ N

theorem Bounded.mono {N N' : ℕ} (h : N ≤ N') {log : Log Note} (hl : Bounded N log) : Bounded N' log := fun e he => (hl e he).trans h

theorem Bounded.append {N : ℕ} {log : Log Note} (hl : Bounded N log) {n : Note} (hn : n.points.length ≤ N) (x : Bytes) (h : Arr 32) :
    Bounded N (log ++ [(x, n, h)]) := by
  intro e he
  rcases List.mem_append.1 he with he | he
  · exact hl e he
  · rw [List.mem_singleton.1 he]
    exact hn

theorem Bounded.find {N : ℕ} {log : Log Note} (hl : Bounded N log) {x : Bytes} {e : Note × Arr 32} (h : log.find x = some e) :
    e.1.points.length ≤ N := by
  unfold Log.find at h
  obtain ⟨a, ha, rfl⟩ := Option.map_eq_some_iff.1 h
  exact hl a (List.mem_of_find?_eq_some ha)

/-! ## Hashes of the signer and the verifier -/

section
variable {k : ℕ} {α β : Type}

/-- The strings that are asked for are drawn, and keep their names. -/
def Fixed (N : ℕ) (post : α → Prop) : Play Note k α → Prop
  | .done a => post a
  | .ask x n next => Drawn x ∧ rename x = x ∧ n.points.length ≤ N ∧ ∀ n : Note, n.points.length ≤ N → ∀ h, Fixed N post (next n h)
  | .dlog _ _ => False

theorem Fixed.bind {N : ℕ} {post : α → Prop} {post' : β → Prop} {p : Play Note k α} (hp : Fixed N post p) {f : α → Play Note k β}
    (hf : ∀ a, post a → Fixed N post' (f a)) : Fixed N post' (p.bind f) := by
  induction p with
  | done a => exact hf a hp
  | ask x n next ih => exact ⟨hp.1, hp.2.1, hp.2.2.1, fun n hn h => ih n h (hp.2.2.2 n hn h)⟩
  | dlog c next => exact hp.elim

variable (y : Unknown k → MaybeScalar) (ω : ℕ → Arr 32)

theorem Fixed.run {N : ℕ} {post : α → Prop} {p : Play Note k α} (hp : Fixed N post p) {log : Log Note} (hl : Bounded N log) :
    post (p.run y ω log).1 ∧ Bounded N (p.run y ω log).2 ∧ p.run y ω (renamed log) = ((p.run y ω log).1, renamed (p.run y ω log).2) := by
  induction p generalizing log with
  | done a => exact ⟨hp, hl, rfl⟩
  | ask x n next ih =>
    obtain ⟨h1, h2, h3, h4⟩ := hp
    have hf := find_renamed log x
    rw [h2] at hf
    unfold Play.run
    rw [hf]
    rcases hx : log.find x with _ | e
    · dsimp only
      rw [length_renamed]
      have := ih n (ω log.length) (h4 n h3 _) (hl.append h3 x (ω log.length))
      rw [renamed_append, h2] at this
      exact this
    · exact ih _ _ (h4 _ (hl.find hx) _) hl
  | dlog c next => exact hp.elim

theorem Fixed.hashes (H : Hash) (w : ℕ → Scalar × Scalar) {N : ℕ} {post : α → Prop} {p : Play Note k α} (hp : Fixed N post p)
    (f : α → Log Note → NonceUser) {log : Log Note} (hl : Bounded N log) :
    ((Opener.hashes p log f).random w).run Drawn H ω (forget log)
      = ((f (p.run y ω log).1 (p.run y ω log).2).random w).run Drawn H ω (forget (p.run y ω log).2) := by
  induction p generalizing log with
  | done a => rfl
  | ask x n next ih =>
    obtain ⟨h1, h2, h3, h4⟩ := hp
    rw [Opener.hashes, NonceUser.random, Asker.run, if_pos h1, find_forget, Play.run]
    rcases hx : log.find x with _ | e
    · dsimp only [Option.map_none]
      rw [length_forget, ← forget_append log x n]
      exact ih n _ (h4 n h3 _) (hl.append h3 _ _)
    · exact ih _ _ (h4 _ (hl.find hx) _) hl
  | dlog c next => exact hp.elim

end

/-! ## The game with random nonces -/

theorem fixed_askCoefs {k N : ℕ} {post : Hash → Prop} (h : Arr 32) {n : Note} (hn : n.points.length ≤ N) (keys : List Point) (H : Hash)
    (hp : ∀ O, post O) : Fixed N post (askCoefs h n keys H : Play Note k Hash) := by
  induction keys generalizing H with
  | nil => exact hp _
  | cons K keys ih => exact ⟨.inl (Adaptive.drawn_coef h K), rename_of_tag (by simp) _, hn, fun _ _ c => ih _⟩

theorem fixed_makeGroup {k N : ℕ} (H : Hash) (P : Point) (keys : List Point) (ts : List (Scalar × Bool)) {n : Note}
    (hn : n.points.length ≤ N) : Fixed N (fun _ => True) (makeGroup H P keys ts n : Play Note k (Option Adaptive.Group)) := by
  unfold makeGroup
  split_ifs with hP
  · refine ⟨.inl (Adaptive.drawn_list keys), rename_list (List.ne_nil_of_mem hP), hn, fun n' _ h => ?_⟩
    exact (fixed_askCoefs (post := fun _ => True) h hn keys _ fun _ => trivial).bind fun _ _ => trivial
  · trivial

/-- The nonce that is drawn for session `i`. -/
def drawnNonce (w : ℕ → Scalar × Scalar) (i : ℕ) : SecNonce := ⟨(w i).1, (w i).2⟩

theorem wins_renamed {H : Hash} {P : Point} {pn pn' : ℕ → PubNonce} {N : ℕ} (h : ∀ i < N, pn i = pn' i) (out : Option Outcome)
    (ho : ∀ o, out = some o → o.note.points.length ≤ N) (log : Log Note) :
    Wins H P pn (out, log) ↔ Wins H P pn' (out, renamed log) := by
  rcases out with _ | o
  · exact Iff.rfl
  · have hv : o.note.nonce.value P pn = o.note.nonce.value P pn' := by
      unfold Concurrent.Note.value
      congr 1
      refine Finset.sum_congr rfl fun i hi => ?_
      rw [h i ((Finset.mem_range.1 hi).trans_le (by simpa [Adaptive.Note.nonce] using ho o rfl))]
    have hs : verifySingle (log.hash H) o.group.ctx.aggregatedPubkey o.sig o.msg
        = verifySingle ((renamed log).hash H) o.group.ctx.aggregatedPubkey o.sig o.msg := by
      refine SoloForger.verifySingle_congr (fun rx Q m => ?_) _ _ _
      have := find_renamed log (Spec.challengeQuery rx Q m)
      rw [show rename (Spec.challengeQuery rx Q m) = Spec.challengeQuery rx Q m from rename_of_tag (by simp) _] at this
      unfold Log.hash
      rw [this]
    change (_ ∧ _ ∧ _ ∧ _) ↔ (_ ∧ _ ∧ _ ∧ _)
    rw [hv, hs]

theorem fixed_submission {k : ℕ} (H : Hash) (P : Point) (keys : List Point) (ts : List (Scalar × Bool)) (msg : Bytes) (sig : CompactSignature)
    (d : Adaptive.Data) (ss : List Session) :
    Fixed ss.length (fun out : Option Outcome => ∀ o, out = some o → o.note.points.length ≤ ss.length)
      (submission H P keys ts msg sig d ss : Play Note k _) := by
  refine (fixed_makeGroup H _ keys ts (by simp)).bind fun g _ => ?_
  rcases g with _ | g
  · intro o ho
    cases ho
  · refine ⟨.inl (Adaptive.drawn_challenge _ _ _), rename_of_tag (by simp) _, by simp, fun n hn h o ho => ?_⟩
    cases ho
    exact hn

theorem fixed_signature {k : ℕ} (H : Hash) (sk : Scalar) (sn : SecNonce) (keys : List Point) (ts : List (Scalar × Bool)) (r : Spec.Reply)
    (d : Adaptive.Data) (ss : List Session) :
    Fixed ss.length (fun _ => True) (signature H sk sn keys ts r d ss : Play Note k _) := by
  refine (fixed_makeGroup H _ keys ts (by simp)).bind fun g _ => ?_
  rcases g with _ | g
  · trivial
  · refine ⟨.inl (Adaptive.drawn_noncecoef _ _ _), rename_of_tag (by simp) _, by simp, fun n hn h => ?_⟩
    exact ⟨.inl (Adaptive.drawn_challenge _ _ _), rename_of_tag (by simp) _, by simp, fun n hn h => trivial⟩

/-- The game of `Spec/Adaptive` with the nonces `sn i`. -/
def signerGame (k : ℕ) (H : Hash) (sk : Scalar) (sn : ℕ → SecNonce) (A : Adaptive.Adversary) (ss : List Session) :
    Play Note k (Option Outcome) :=
  Adaptive.game H (mulG sk) (fun i => (sn i).publicNonce)
    (fun i g r hb he => .done (SessionForger.partialSignature g.hash g.ctx sk (sn i) r hb he)) A ss

theorem signerGame_submit (k : ℕ) (H : Hash) (sk : Scalar) (sn : ℕ → SecNonce) (keys : List Point) (ts : List (Scalar × Bool)) (msg : Bytes)
    (sig : CompactSignature) (d : Adaptive.Data) (ss : List Session) :
    signerGame k H sk sn (.submit keys ts msg sig d) ss = submission H (mulG sk) keys ts msg sig d ss := by
  unfold signerGame submission Adaptive.game
  congr 1

theorem signerGame_sign (k : ℕ) (H : Hash) (sk : Scalar) (sn : ℕ → SecNonce) (i : ℕ) (keys : List Point) (ts : List (Scalar × Bool))
    (an : AggNonce) (msg : Bytes) (d : Adaptive.Data) (next : MaybeScalar → Adaptive.Adversary) (ss : List Session) (T : MaybePoint)
    (hi : ss[i]? = some ⟨T, none⟩) :
    signerGame k H sk sn (.sign i keys ts an msg d next) ss = (signature H sk (sn i) keys ts ⟨an, T, msg⟩ d ss).bind fun
      | none => signerGame k H sk sn (next 0) ss
      | some r => signerGame k H sk sn (next r.sig) (ss.set i ⟨T, some r⟩) := by
  unfold signerGame signature
  rw [Adaptive.game, hi, Concurrent.bind_bind]
  dsimp only
  congr 1
  funext o
  rcases o with _ | o <;> rfl

theorem game_random (k : ℕ) (H : Hash) (sk : Scalar) (y : Unknown k → MaybeScalar) (w : ℕ → Scalar × Scalar) (ω : ℕ → Arr 32) (A : Opener)
    (ss : List Session) (sns : List SecNonce) (log : Log Note) (hl : sns.length = ss.length) (hw : ∀ i < sns.length, nonceOf sns i = drawnNonce w i)
    (hb : Bounded ss.length log) :
    (((game k H sk A ss sns log).random fun i => w (i + sns.length)).run Drawn H ω (forget log)).1
      ↔ Wins H (mulG sk) (fun i => (drawnNonce w i).publicNonce) ((signerGame k H sk (drawnNonce w) A.plain ss).run y ω (renamed log)) := by
  induction A generalizing ss sns log with
  | submit keys tweaks msg sig d =>
    have hf := fixed_submission (k := k) H (mulG sk) keys tweaks msg sig d ss
    rw [game, play, plain, signerGame_submit, hf.hashes y ω H _ _ hb]
    obtain ⟨h1, h2, h3⟩ := hf.run y ω hb
    rw [h3]
    exact wins_renamed (fun i hi => by rw [hw i (hl ▸ hi)]) _ h1 _
  | ask x d next ih =>
    rw [game, play, plain, signerGame, Adaptive.game, NonceUser.random, Asker.run]
    by_cases hx : Drawn x
    · rw [if_pos hx, if_pos (drawn_rename hx), Play.run, find_renamed, find_forget]
      simp only [if_pos hx, record]
      rcases hr : log.find x with _ | e
      · dsimp only [Option.map_none]
        rw [length_forget, length_renamed, ← forget_append log x ⟨d, ss.map (·.point)⟩, ← renamed_append]
        exact ih _ ss sns _ hl hw (hb.append (by simp) _ _)
      · exact ih _ ss sns _ hl hw hb
    · rw [if_neg hx, rename_other hx, if_neg fun h => hx (.inl h)]
      simp only [if_neg hx]
      exact ih _ ss sns _ hl hw hb
  | start T b next ih =>
    rw [game, play, plain, signerGame, Adaptive.game, NonceUser.random]
    have := ih (drawnNonce w sns.length).publicNonce (ss ++ [⟨T, none⟩]) (sns ++ [drawnNonce w sns.length]) log (by simp [hl]) (fun i hi => by
      rw [List.length_append, List.length_singleton] at hi
      unfold nonceOf
      rcases Nat.lt_succ_iff_lt_or_eq.1 hi with hi | rfl
      · rw [List.getD_eq_getElem?_getD, List.getElem?_append_left hi, ← List.getD_eq_getElem?_getD]
        exact hw i hi
      · simp) (hb.mono (by simp))
    have e : (fun i => w (i + 1 + sns.length)) = fun i => w (i + (sns ++ [drawnNonce w sns.length]).length) := by
      funext i
      rw [List.length_append, List.length_singleton, add_assoc, add_comm 1]
    rw [e, zero_add, ← hl]
    exact this
  | sign i keys tweaks an msg d next ih =>
    rw [game, play, plain]
    split
    · rename_i T hi
      have hlt : i < sns.length := by
        rw [hl]
        exact (List.getElem?_eq_some_iff.1 hi).1
      have hf := fixed_signature (k := k) H sk (drawnNonce w i) keys tweaks ⟨an, T, msg⟩ d ss
      rw [signerGame_sign _ _ _ _ _ _ _ _ _ _ _ _ _ hi, Concurrent.run_bind, hw i hlt, hf.hashes y ω H _ _ hb]
      obtain ⟨-, h2, h3⟩ := hf.run y ω hb
      rw [h3]
      dsimp only
      revert h2
      rcases (signature H sk (drawnNonce w i) keys tweaks ⟨an, T, msg⟩ d ss : Play Note k _).run y ω log with ⟨_ | r, log'⟩
      · intro h2
        exact ih _ ss sns _ hl hw h2
      · intro h2
        exact ih _ _ sns _ (by rw [hl, List.length_set]) hw (by rw [List.length_set]; exact h2)
    · rename_i hi
      have : signerGame k H sk (drawnNonce w) (.sign i keys tweaks an msg d fun s => (next s).plain) ss
          = signerGame k H sk (drawnNonce w) (next 0).plain ss := by
        rw [signerGame, Adaptive.game]
        split
        · rename_i T hi'
          exact absurd hi' (hi T)
        · rfl
      rw [this]
      exact ih _ ss sns _ hl hw hb

/-! ## The number of questions -/

theorem within_mono {D : Bytes → Prop} [DecidablePred D] {A : NonceUser} {q q' k : ℕ} (h : A.Within D q k) (hq : q ≤ q') : A.Within D q' k := by
  induction A generalizing q q' k with
  | done v => trivial
  | ask x next ih =>
    unfold NonceUser.Within at h ⊢
    split_ifs with hx
    · rw [if_pos hx] at h
      obtain ⟨q1, rfl, h⟩ := h
      exact ⟨q' - 1, by omega, fun a => ih a (h a) (by omega)⟩
    · rw [if_neg hx] at h
      exact fun a => ih a (h a) hq
  | nonce b next ih =>
    obtain ⟨k', rfl, h⟩ := h
    exact ⟨k', rfl, fun sn => ih sn (h sn) hq⟩

theorem within_hashes {K : ℕ} {α : Type} {p : Play Note K α} {m q k : ℕ} (hp : Concurrent.HashesAtMost m p) {f : α → Log Note → NonceUser}
    (hf : ∀ a log, (f a log).Within Drawn q k) (log : Log Note) : (hashes p log f).Within Drawn (q + m) k := by
  induction p generalizing m log with
  | done a => exact within_mono (hf a log) (Nat.le_add_right _ _)
  | ask x n next ih =>
    obtain ⟨m', rfl, hp⟩ := hp
    have key : ∀ h, (match log.find x with
        | some e => hashes (next e.1 h) log f
        | none => hashes (next n h) (log ++ [(x, n, h)]) f).Within Drawn (q + m') k := by
      intro h
      split
      · exact ih _ _ (hp _ _) _
      · exact ih _ _ (hp _ _) _
    unfold hashes NonceUser.Within
    split_ifs
    · exact ⟨q + m', rfl, key⟩
    · exact fun h => within_mono (key h) (by omega)
  | dlog c next ih => exact ih 0 (hp 0) log

theorem hashes_submission {K : ℕ} (H : Hash) (P : Point) (keys : List Point) (ts : List (Scalar × Bool)) (msg : Bytes) (sig : CompactSignature)
    (d : Adaptive.Data) (ss : List Session) :
    Concurrent.HashesAtMost (keys.length + 2) (submission H P keys ts msg sig d ss : Play Note K _) := by
  refine (Adaptive.hashes_makeGroup H P keys ts _).bind (m' := 1) fun g => ?_
  rcases g with _ | g
  · trivial
  · exact ⟨0, rfl, fun _ _ => trivial⟩

theorem hashes_signature {K : ℕ} (H : Hash) (sk : Scalar) (sn : SecNonce) (keys : List Point) (ts : List (Scalar × Bool)) (r : Spec.Reply)
    (d : Adaptive.Data) (ss : List Session) :
    Concurrent.HashesAtMost (keys.length + 3) (signature H sk sn keys ts r d ss : Play Note K _) := by
  refine (Adaptive.hashes_makeGroup H _ keys ts _).bind (m' := 2) fun g => ?_
  rcases g with _ | g
  · trivial
  · exact ⟨1, rfl, fun _ _ => ⟨0, rfl, fun _ _ => trivial⟩⟩

theorem within_game {A : Opener} {q k : ℕ} (hA : A.AsksAtMost q k) (K : ℕ) (H : Hash) (sk : Scalar) (ss : List Session) (sns : List SecNonce)
    (log : Log Note) : (game K H sk A ss sns log).Within Drawn q k := by
  induction hA generalizing ss sns log with
  | submit q k keys ts msg sig d =>
    rw [game, play, add_assoc]
    exact within_hashes (q := q) (k := k) (hashes_submission _ _ _ _ _ _ _ _) (fun _ _ => by trivial) _
  | ask q k x d next h ih =>
    unfold game play NonceUser.Within
    split_ifs
    · exact ⟨q, rfl, fun a => ih a _ _ _⟩
    · exact fun a => within_mono (ih a _ _ _) (by omega)
  | other q k x d next hx h ih =>
    unfold game play NonceUser.Within
    rw [if_neg hx]
    exact fun a => ih a _ _ _
  | start q k T b next h ih => exact ⟨k, rfl, fun sn => ih _ _ _ _⟩
  | sign q k i keys ts an msg d next h ih =>
    rw [game, play]
    split
    · rw [add_assoc]
      refine within_hashes (hashes_signature _ _ _ _ _ _ _ _) (fun o log => ?_) _
      rcases o with _ | r
      · exact ih _ _ _ _
      · exact ih _ _ _ _
    · exact within_mono (ih _ _ _ _) (by omega)

theorem asks_plain {A : Opener} {q k : ℕ} (hA : A.AsksAtMost q k) : A.plain.AsksAtMost q k := by
  induction hA with
  | submit q k keys ts msg sig d => exact .submit _ _ _ _ _ _ _
  | ask q k x d next h ih => exact .ask _ _ _ _ _ ih
  | other q k x d next hx h ih =>
    rw [plain, rename_other hx]
    exact .other _ _ _ _ _ (fun h => hx (.inl h)) ih
  | start q k T b next h ih => exact .start _ _ _ _ ih
  | sign q k i keys ts an msg d next h ih => exact .sign _ _ _ _ _ _ _ _ _ ih

/-! ## The chance to forge -/

/-- The unknowns, as they are drawn one after the other. -/
def unknownEquiv (k : ℕ) (Ω : Type) : (Unknown k → Scalar) × Ω ≃ Scalar × (Fin k → Scalar × Scalar) × Ω where
  toFun p := (p.1 none, fun i => (p.1 (some (i, false)), p.1 (some (i, true))), p.2)
  invFun p := (fun
    | none => p.1
    | some (i, false) => (p.2.1 i).1
    | some (i, true) => (p.2.1 i).2, p.2.2)
  left_inv p := by
    refine Prod.ext (funext fun j => ?_) rfl
    match j with
    | none => rfl
    | some (i, false) => rfl
    | some (i, true) => rfl
  right_inv _ := rfl

theorem onRandom_iff {k q : ℕ} (H : Hash) (A : Opener) (p : (Unknown k → Scalar) × (Fin q → Arr 32)) :
    (game k H (unknownEquiv k _ p).1 A [] [] []).OnRandom Drawn H (unknownEquiv k _ p).2
      ↔ Adaptive.Forges k H (p.1 none) (Adaptive.secretNonces p.1) A.plain p.2 := by
  have hs : Adaptive.secretNonces p.1 = drawnNonce (Outsider.extend (scalarOne, scalarOne) (unknownEquiv k _ p).2.1) := by
    funext i
    unfold Adaptive.secretNonces drawnNonce Outsider.extend unknownEquiv
    split_ifs <;> rfl
  unfold Adaptive.Forges
  rw [hs]
  exact game_random k H (p.1 none) _ _ _ A [] [] [] rfl (by simp) (fun e he => absurd he List.not_mem_nil)

theorem forges_random {k q : ℕ} {H : Hash} (hH : TagsAgree H) {A : Point → Opener} (hA : ∀ P, (A P).AsksAtMost q k) :
    (Spec.chance fun p : Scalar × (Fin k → Scalar × Scalar) × (Fin q → Arr 32) => (game k H p.1 (A (mulG p.1)) [] [] []).OnRandom Drawn H p.2)
      ≤ Spec.oneMoreDlog k q (Adaptive.attack k H fun P => (A P).plain) + ((k + 7) * ((q : ℚ) * (q + 1)) + 2 ^ 34 * q) / 2 ^ 256 := by
  rw [← CmaForger.chance_equiv (unknownEquiv k (Fin q → Arr 32))]
  refine le_trans (CmaForger.chance_mono fun p hp => ?_) (Adaptive.forges_oneMore hH fun P => asks_plain (hA P))
  exact (onRandom_iff H (A (mulG (p.1 none))) p).1 hp

theorem forges_library {k q m : ℕ} {H : Hash} {A : Point → Opener} (hA : ∀ P, (A P).AsksAtMost q k) (hm : q + 3 * k ≤ m) :
    (Spec.chance fun p : Scalar × (Fin k → Arr 32) × (Fin m → Arr 32) => Forges H A p)
      ≤ (Spec.chance fun p : Scalar × (Fin k → Scalar × Scalar) × (Fin q → Arr 32) => (game k H p.1 (A (mulG p.1)) [] [] []).OnRandom Drawn H p.2)
        + k * (2 * (q + 3 * k) / 2 ^ 256 + 1 / 2 ^ 126) := by
  let _ := Fintype.ofFinite Scalar
  let _ := Fintype.ofFinite (Arr 32)
  have hne : Nonempty Scalar := ⟨scalarOne⟩
  have key : ∀ sk, (Spec.chance fun w : (Fin k → Arr 32) × (Fin m → Arr 32) => Forges H A (sk, w))
      ≤ (Spec.chance fun w : (Fin k → Scalar × Scalar) × (Fin q → Arr 32) => (game k H sk (A (mulG sk)) [] [] []).OnRandom Drawn H w)
        + k * (2 * (q + 3 * k) / 2 ^ 256 + 1 / 2 ^ 126) := by
    intro sk
    have hW := within_game (hA (mulG sk)) k H sk [] [] []
    have h1 := C134_nonces_like_random Drawn (fun x hx => .inr hx) H _ q k m hW hm
    have h2 : (Spec.chance fun w : (Fin k → Scalar × Scalar) × (Fin m → Arr 32) => (game k H sk (A (mulG sk)) [] [] []).OnRandom Drawn H w)
        = Spec.chance fun w : (Fin k → Scalar × Scalar) × (Fin q → Arr 32) => (game k H sk (A (mulG sk)) [] [] []).OnRandom Drawn H w := by
      unfold NonceUser.OnRandom
      rw [Outsider.chance_game (p := fun w : Fin k → Scalar × Scalar => (game k H sk (A (mulG sk)) [] [] []).random (Outsider.extend (scalarOne, scalarOne) w))
          fun w => (NonceUser.asks_random hW _).mono (by omega),
        Outsider.chance_game (p := fun w : Fin k → Scalar × Scalar => (game k H sk (A (mulG sk)) [] [] []).random (Outsider.extend (scalarOne, scalarOne) w))
          fun w => NonceUser.asks_random hW _]
    rw [h2] at h1
    linarith [(abs_le.1 h1).2, show (Spec.chance fun w : (Fin k → Arr 32) × (Fin m → Arr 32) => Forges H A (sk, w))
      = Spec.chance fun w : (Fin k → Arr 32) × (Fin m → Arr 32) => (game k H sk (A (mulG sk)) [] [] []).OnLibrary Drawn H w from rfl]
  have e1 := Decision.chance_prod (Ω := Scalar) (Ω' := (Fin k → Arr 32) × (Fin m → Arr 32)) fun sk w => Forges H A (sk, w)
  have e2 := Decision.chance_prod (Ω := Scalar) (Ω' := (Fin k → Scalar × Scalar) × (Fin q → Arr 32)) fun sk w =>
    (game k H sk (A (mulG sk)) [] [] []).OnRandom Drawn H w
  have hc : (0 : ℚ) < Fintype.card Scalar := by exact_mod_cast Fintype.card_pos
  refine e1.le.trans ?_
  refine (div_le_div_of_nonneg_right (Finset.sum_le_sum fun sk _ => key sk) hc.le).trans ?_
  rw [Finset.sum_add_distrib, add_div, ← e2, Finset.sum_const, Finset.card_univ, nsmul_eq_mul, mul_div_cancel_left₀ _ hc.ne']

end Verif.Opener
