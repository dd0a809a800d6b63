import Verif.Lemmas.Props.OwnKey
import Verif.Lemmas.Props.RoundForger
import Verif.Spec.OwnRounds

/-!
# Lemmas for `Props/OwnRounds`

As in `Lemmas/Props/Opener`, `Lemmas/Props/OpenerCode` and `Lemmas/Props/RoundForger`, for the other end of the game.
-/

namespace Verif.OwnRounds

open Concurrent (Play Log Unknown)
open Adaptive (Note Session Signed makeGroup makeContext Group)
open Opener hiding play game plain AcceptedByCode Accepted drawnHash Forges signerGame game_random wins_renamed within_game asks_plain
  onRandom_iff forges_random forges_library eval_game same_play play_code
open OwnForger (finish Outcome Wins)
open RoundForger (running running_eq running_known AllGood set_self Known setup opener builder_seed map_restart_known map_modify_same nonceOf_map)

/-! ## Random nonces -/

theorem wins_renamed {H : Hash} {P : Point} {pn pn' : ℕ → PubNonce} {N : ℕ} (h : ∀ i < N, pn i = pn' i) (out : Option Outcome)
    (ho : ∀ o, out = some o → o.note.points.length ≤ N) (log : Log Note) :
    Wins H P pn (out, log) ↔ Wins H P pn' (out, renamed log) := by
  rcases out with _ | o
  · exact Iff.rfl
  · have hv : o.note.nonce.value P pn = o.note.nonce.value P pn' := by
      unfold Concurrent.Note.value
      congr 1
      refine Finset.sum_congr rfl fun i hi => ?_
      rw [h i ((Finset.mem_range.1 hi).trans_le (by simpa [Adaptive.Note.nonce] using ho o rfl))]
    have hs : verifySingle (log.hash H) o.key o.sig o.msg
        = verifySingle ((renamed log).hash H) o.key o.sig o.msg := by
      refine SoloForger.verifySingle_congr (fun rx Q m => ?_) _ _ _
      have := find_renamed log (Spec.challengeQuery rx Q m)
      rw [show rename (Spec.challengeQuery rx Q m) = Spec.challengeQuery rx Q m from rename_of_tag (by simp) _] at this
      unfold Log.hash
      rw [this]
    change (_ ∧ _ ∧ _ ∧ _) ↔ (_ ∧ _ ∧ _ ∧ _)
    rw [hv, hs]

theorem fixed_finish {k : ℕ} (P : Point) (t : MaybeScalar) (msg : Bytes) (sig : CompactSignature) (d : Adaptive.Data) (ss : List Session) :
    Fixed ss.length (fun out : Option Outcome => ∀ o, out = some o → o.note.points.length ≤ ss.length)
      (finish P t msg sig d ss : Play Note k _) := by
  unfold finish
  rcases Spec.offsetKey P t with _ | Y
  · intro o ho
    cases ho
  · refine ⟨.inl (Adaptive.drawn_challenge _ _ _), rename_of_tag (by simp) _, by simp, fun n hn h o ho => ?_⟩
    cases ho
    exact hn

/-- The game of `Spec/OwnKey` with the nonces `sn i`. -/
def signerGame (k : ℕ) (H : Hash) (sk : Scalar) (sn : ℕ → SecNonce) (A : OwnForger) (ss : List Session) : Play Note k (Option Outcome) :=
  OwnForger.game H (mulG sk) (fun i => (sn i).publicNonce)
    (fun i g r hb he => .done (SessionForger.partialSignature g.hash g.ctx sk (sn i) r hb he)) A ss

theorem signerGame_sign (k : ℕ) (H : Hash) (sk : Scalar) (sn : ℕ → SecNonce) (i : ℕ) (keys : List Point) (ts : List (Scalar × Bool))
    (an : AggNonce) (msg : Bytes) (d : Adaptive.Data) (next : MaybeScalar → OwnForger) (ss : List Session) (T : MaybePoint)
    (hi : ss[i]? = some ⟨T, none⟩) :
    signerGame k H sk sn (.sign i keys ts an msg d next) ss = (signature H sk (sn i) keys ts ⟨an, T, msg⟩ d ss).bind fun
      | none => signerGame k H sk sn (next 0) ss
      | some r => signerGame k H sk sn (next r.sig) (ss.set i ⟨T, some r⟩) := by
  unfold signerGame signature
  rw [OwnForger.game, hi, Concurrent.bind_bind]
  dsimp only
  congr 1
  funext o
  rcases o with _ | o <;> rfl

theorem game_random (k : ℕ) (H : Hash) (sk : Scalar) (y : Unknown k → MaybeScalar) (w : ℕ → Scalar × Scalar) (ω : ℕ → Arr 32) (A : Opener)
    (ss : List Session) (sns : List SecNonce) (log : Log Note) (hl : sns.length = ss.length) (hw : ∀ i < sns.length, nonceOf sns i = drawnNonce w i)
    (hb : Bounded ss.length log) :
    (((game k H sk A ss sns log).random fun i => w (i + sns.length)).run Drawn H ω (forget log)).1
      ↔ Wins H (mulG sk) (fun i => (drawnNonce w i).publicNonce) ((signerGame k H sk (drawnNonce w) (plain A) ss).run y ω (renamed log)) := by
  induction A generalizing ss sns log with
  | submit keys tweaks msg sig d =>
    have hf := fixed_finish (k := k) (mulG sk) (Spec.offset tweaks) msg sig d ss
    rw [game, play, plain, signerGame, OwnForger.game, hf.hashes y ω H _ _ hb]
    obtain ⟨h1, h2, h3⟩ := hf.run y ω hb
    rw [h3]
    exact wins_renamed (fun i hi => by rw [hw i (hl ▸ hi)]) _ h1 _
  | ask x d next ih =>
    rw [game, play, plain, signerGame, OwnForger.game, NonceUser.random, Asker.run]
    by_cases hx : Drawn x
    · rw [if_pos hx, if_pos (drawn_rename hx), Play.run, find_renamed, find_forget]
      simp only [if_pos hx, record]
      rcases hr : log.find x with _ | e
      · dsimp only [Option.map_none]
        rw [length_forget, length_renamed, ← forget_append log x ⟨d, ss.map (·.point)⟩, ← renamed_append]
        exact ih _ ss sns _ hl hw (hb.append (by simp) _ _)
      · exact ih _ ss sns _ hl hw hb
    · rw [if_neg hx, rename_other hx, if_neg fun h => hx (.inl h)]
      simp only [if_neg hx]
      exact ih _ ss sns _ hl hw hb
  | start T b next ih =>
    rw [game, play, plain, signerGame, OwnForger.game, NonceUser.random]
    have := ih (drawnNonce w sns.length).publicNonce (ss ++ [⟨T, none⟩]) (sns ++ [drawnNonce w sns.length]) log (by simp [hl]) (fun i hi => by
      rw [List.length_append, List.length_singleton] at hi
      unfold nonceOf
      rcases Nat.lt_succ_iff_lt_or_eq.1 hi with hi | rfl
      · rw [List.getD_eq_getElem?_getD, List.getElem?_append_left hi, ← List.getD_eq_getElem?_getD]
        exact hw i hi
      · simp) (hb.mono (by simp))
    have e : (fun i => w (i + 1 + sns.length)) = fun i => w (i + (sns ++ [drawnNonce w sns.length]).length) := by
      funext i
      rw [List.length_append, List.length_singleton, add_assoc, add_comm 1]
    rw [e, zero_add, ← hl]
    exact this
  | sign i keys tweaks an msg d next ih =>
    rw [game, play, plain]
    split
    · rename_i T hi
      have hlt : i < sns.length := by
        rw [hl]
        exact (List.getElem?_eq_some_iff.1 hi).1
      have hf := fixed_signature (k := k) H sk (drawnNonce w i) keys tweaks ⟨an, T, msg⟩ d ss
      rw [signerGame_sign _ _ _ _ _ _ _ _ _ _ _ _ _ hi, Concurrent.run_bind, hw i hlt, hf.hashes y ω H _ _ hb]
      obtain ⟨-, h2, h3⟩ := hf.run y ω hb
      rw [h3]
      dsimp only
      revert h2
      rcases (signature H sk (drawnNonce w i) keys tweaks ⟨an, T, msg⟩ d ss : Play Note k _).run y ω log with ⟨_ | r, log'⟩
      · intro h2
        exact ih _ ss sns _ hl hw h2
      · intro h2
        exact ih _ _ sns _ (by rw [hl, List.length_set]) hw (by rw [List.length_set]; exact h2)
    · rename_i hi
      have : signerGame k H sk (drawnNonce w) (.sign i keys tweaks an msg d fun s => plain (next s)) ss
          = signerGame k H sk (drawnNonce w) (plain (next 0)) ss := by
        rw [signerGame, OwnForger.game]
        split
        · rename_i T hi'
          exact absurd hi' (hi T)
        · rfl
      rw [this]
      exact ih _ ss sns _ hl hw hb

/-! ## The number of questions -/

theorem within_game {A : Opener} {q k : ℕ} (hA : A.AsksAtMost q k) (K : ℕ) (H : Hash) (sk : Scalar) (ss : List Session) (sns : List SecNonce)
    (log : Log Note) : (game K H sk A ss sns log).Within Drawn q k := by
  induction hA generalizing ss sns log with
  | submit q k keys ts msg sig d =>
    rw [game, play]
    refine within_mono (within_hashes (q := 0) (k := k) (m := 1) ?_ (fun _ _ => by trivial) _) (by omega)
    unfold finish
    split
    · trivial
    · exact ⟨0, rfl, fun _ _ => trivial⟩
  | ask q k x d next h ih =>
    unfold game play NonceUser.Within
    split_ifs
    · exact ⟨q, rfl, fun a => ih a _ _ _⟩
    · exact fun a => within_mono (ih a _ _ _) (by omega)
  | other q k x d next hx h ih =>
    unfold game play NonceUser.Within
    rw [if_neg hx]
    exact fun a => ih a _ _ _
  | start q k T b next h ih => exact ⟨k, rfl, fun sn => ih _ _ _ _⟩
  | sign q k i keys ts an msg d next h ih =>
    rw [game, play]
    split
    · rw [add_assoc]
      refine within_hashes (hashes_signature _ _ _ _ _ _ _ _) (fun o log => ?_) _
      rcases o with _ | r
      · exact ih _ _ _ _
      · exact ih _ _ _ _
    · exact within_mono (ih _ _ _ _) (by omega)

theorem asks_plain {A : Opener} {q k : ℕ} (hA : A.AsksAtMost q k) : (plain A).AsksAtMost q k := by
  induction hA with
  | submit q k keys ts msg sig d => exact .submit (q + keys.length + 1) _ _ _ _ _
  | ask q k x d next h ih => exact .ask _ _ _ _ _ ih
  | other q k x d next hx h ih =>
    rw [plain, rename_other hx]
    exact .other _ _ _ _ _ (fun h => hx (.inl h)) ih
  | start q k T b next h ih => exact .start _ _ _ _ ih
  | sign q k i keys ts an msg d next h ih => exact .sign _ _ _ _ _ _ _ _ _ ih

/-! ## The chance to forge -/

theorem onRandom_iff {k q : ℕ} (H : Hash) (A : Opener) (p : (Unknown k → Scalar) × (Fin q → Arr 32)) :
    (game k H (unknownEquiv k _ p).1 A [] [] []).OnRandom Drawn H (unknownEquiv k _ p).2
      ↔ OwnForger.Forges k H (p.1 none) (Adaptive.secretNonces p.1) (plain A) p.2 := by
  have hs : Adaptive.secretNonces p.1 = drawnNonce (Outsider.extend (scalarOne, scalarOne) (unknownEquiv k _ p).2.1) := by
    funext i
    unfold Adaptive.secretNonces drawnNonce Outsider.extend unknownEquiv
    split_ifs <;> rfl
  unfold OwnForger.Forges
  rw [hs]
  exact game_random k H (p.1 none) _ _ _ A [] [] [] rfl (by simp) (fun e he => absurd he List.not_mem_nil)

theorem forges_library {k q m : ℕ} {H : Hash} {A : Point → Opener} (hA : ∀ P, (A P).AsksAtMost q k) (hm : q + 3 * k ≤ m) :
    (Spec.chance fun p : Scalar × (Fin k → Arr 32) × (Fin m → Arr 32) => (game k H p.1 (A (mulG p.1)) [] [] []).OnLibrary Drawn H p.2)
      ≤ (Spec.chance fun p : Scalar × (Fin k → Scalar × Scalar) × (Fin q → Arr 32) => (game k H p.1 (A (mulG p.1)) [] [] []).OnRandom Drawn H p.2)
        + k * (2 * (q + 3 * k) / 2 ^ 256 + 1 / 2 ^ 126) := by
  let _ := Fintype.ofFinite Scalar
  let _ := Fintype.ofFinite (Arr 32)
  have hne : Nonempty Scalar := ⟨scalarOne⟩
  have key : ∀ sk, (Spec.chance fun w : (Fin k → Arr 32) × (Fin m → Arr 32) => (game k H sk (A (mulG sk)) [] [] []).OnLibrary Drawn H w)
      ≤ (Spec.chance fun w : (Fin k → Scalar × Scalar) × (Fin q → Arr 32) => (game k H sk (A (mulG sk)) [] [] []).OnRandom Drawn H w)
        + k * (2 * (q + 3 * k) / 2 ^ 256 + 1 / 2 ^ 126) := by
    intro sk
    have hW := within_game (hA (mulG sk)) k H sk [] [] []
    have h1 := C134_nonces_like_random Drawn (fun x hx => .inr hx) H _ q k m hW hm
    have h2 : (Spec.chance fun w : (Fin k → Scalar × Scalar) × (Fin m → Arr 32) => (game k H sk (A (mulG sk)) [] [] []).OnRandom Drawn H w)
        = Spec.chance fun w : (Fin k → Scalar × Scalar) × (Fin q → Arr 32) => (game k H sk (A (mulG sk)) [] [] []).OnRandom Drawn H w := by
      unfold NonceUser.OnRandom
      rw [Outsider.chance_game (p := fun w : Fin k → Scalar × Scalar => (game k H sk (A (mulG sk)) [] [] []).random (Outsider.extend (scalarOne, scalarOne) w))
          fun w => (NonceUser.asks_random hW _).mono (by omega),
        Outsider.chance_game (p := fun w : Fin k → Scalar × Scalar => (game k H sk (A (mulG sk)) [] [] []).random (Outsider.extend (scalarOne, scalarOne) w))
          fun w => NonceUser.asks_random hW _]
    rw [h2] at h1
    linarith [(abs_le.1 h1).2]
  have e1 := Decision.chance_prod (Ω := Scalar) (Ω' := (Fin k → Arr 32) × (Fin m → Arr 32)) fun sk w =>
    (game k H sk (A (mulG sk)) [] [] []).OnLibrary Drawn H w
  have e2 := Decision.chance_prod (Ω := Scalar) (Ω' := (Fin k → Scalar × Scalar) × (Fin q → Arr 32)) fun sk w =>
    (game k H sk (A (mulG sk)) [] [] []).OnRandom Drawn H w
  have hc : (0 : ℚ) < Fintype.card Scalar := by exact_mod_cast Fintype.card_pos
  refine e1.le.trans ?_
  refine (div_le_div_of_nonneg_right (Finset.sum_le_sum fun sk _ => key sk) hc.le).trans ?_
  rw [Finset.sum_add_distrib, add_div, ← e2, Finset.sum_const, Finset.card_univ, nsmul_eq_mul, mul_div_cancel_left₀ _ hc.ne']

/-! ## The code -/

/-- The part of `Wins` that is about sessions and the signature. -/
def AcceptedIn (H : Hash) (r : Option Outcome × Log Note) : Prop := ∃ o, r.1 = some o ∧
  (∀ s ∈ o.sessions, ∀ r, s.signed = some r → ¬ (r.message = o.msg ∧
    Spec.xbytes r.group.ctx.aggregatedPubkey.1 = Spec.xbytes o.key.1 ∧
    Spec.xbytes ((⟨r.aggnonce, s.point, r.message⟩ : Spec.Reply).nonce r.hb) = o.sig.rx.1)) ∧
  verifySingle (r.2.hash H) o.key o.sig o.msg = .ok ()

theorem eval_finish {k : ℕ} (O H : Hash) (sk : Scalar) (keys : List Point) (ts : List (Scalar × Bool)) (msg : Bytes) (sig : CompactSignature)
    (d : Adaptive.Data) (ss : List Session) {log : Log Note} (hl : Right O log) (s : ℕ → Arr 32) (sns : List SecNonce) :
    let r := eval O (finish (mulG sk) (Spec.offset ts) msg sig d ss : Play Note k _) log
    AcceptedIn H r ↔ AcceptedByCode O sk (.submit keys ts msg sig d) s (ss.map toCode) sns := by
  intro r
  have hr : r = eval O (finish (mulG sk) (Spec.offset ts) msg sig d ss : Play Note k _) log := rfl
  clear_value r
  rw [finish] at hr
  rw [AcceptedByCode]
  rcases hY : Spec.offsetKey (mulG sk) (Spec.offset ts) with _ | Y
  · rw [hY] at hr
    rw [hr]
    constructor
    · rintro ⟨o, ho, -⟩
      cases ho
    · rintro ⟨Y, h, -⟩
      cases h
  · rw [hY] at hr
    dsimp only at hr
    obtain ⟨n1, log1, h1, h2, h3⟩ := eval_ask O (Spec.challengeQuery sig.rx.1 Y msg)
      ⟨{ d with key := (Spec.offset ts, 1) }, ss.map (·.point)⟩
      (fun n _ => (.done (some ⟨Y, msg, sig, n, ss⟩) : Play Note k (Option Outcome))) log
    rw [h1] at hr
    rw [hr]
    have hv := verifySingle_iff (H := log1.hash H) (H' := O) (Q := Y) (sig := sig) (msg := msg) ((h3 hl).hash h2)
    constructor
    · rintro ⟨o, ho, h4, h5⟩
      cases ho
      refine ⟨Y, rfl, fun e he c m R hm => ?_, hv.1 h5⟩
      obtain ⟨x, hx, rfl⟩ := List.mem_map.1 he
      obtain ⟨y, hy, hym⟩ := Option.map_eq_some_iff.1 hm
      cases hym
      exact h4 x hx y hy
    · rintro ⟨Y', hcc, h4, h5⟩
      cases hcc
      refine ⟨_, rfl, fun x hx y hy => ?_, hv.2 h5⟩
      exact h4 (toCode x) (List.mem_map_of_mem hx) y.group.ctx y.message _ (by rw [toCode, hy]; rfl)

theorem eval_game (k : ℕ) (O H : Hash) (sk : Scalar) (A : Opener) (ss : List Session) (sns : List SecNonce) (log : Log Note) (hl : Right O log)
    (s : ℕ → Arr 32) :
    ∃ pn r, (∀ V, ((play V k H sk A ss sns log).library H s).eval O = V pn r) ∧
      (AcceptedIn H r ↔ AcceptedByCode O sk A s (ss.map toCode) sns) := by
  induction A generalizing ss sns log s with
  | submit keys tweaks msg sig d =>
    refine ⟨fun i => (nonceOf sns i).publicNonce, _, fun V => ?_, eval_finish (k := k) O H sk keys tweaks msg sig d ss hl s sns⟩
    rw [play, eval_hashes]
    rfl
  | ask x d next ih =>
    rw [AcceptedByCode]
    obtain ⟨pn, r, h1, h2⟩ := ih (O x) ss sns (if Drawn x then record log x ⟨d, ss.map (·.point)⟩ (O x) else log) (by
      split_ifs
      · exact record_right hl x _
      · exact hl) s
    exact ⟨pn, r, fun V => by rw [play, NonceUser.library, Asker.eval, h1], h2⟩
  | start T b next ih =>
    obtain ⟨pn, r, h1, h2⟩ := ih ((Spec.seeded (b sk) (s 0)).build O).publicNonce (ss ++ [⟨T, none⟩])
      (sns ++ [(Spec.seeded (b sk) (s 0)).build O]) log hl (fun i => s (i + 1))
    rw [List.map_append] at h2
    exact ⟨pn, r, fun V => by rw [play, NonceUser.library, eval_build, h1], h2⟩
  | sign i keys tweaks an msg d next ih =>
    rw [AcceptedByCode, List.getElem?_map]
    rcases hi : ss[i]? with _ | ⟨T, _ | x⟩
    · obtain ⟨pn, r, h1, h2⟩ := ih 0 ss sns log hl s
      exact ⟨pn, r, fun V => by rw [play, hi]; exact h1 V, h2⟩
    · dsimp only [Option.map_some, toCode, Option.map_none]
      have hl' := hl.ofEval (p := (signature (k := k) H sk (nonceOf sns i) keys tweaks ⟨an, T, msg⟩ d ss))
      rcases eval_signature (k := k) O H sk (nonceOf sns i) keys tweaks an T msg d ss log with ⟨h1, h2⟩ | ⟨x, ctx, h1, h2, h3, h4, h4', h5⟩
      · obtain ⟨pn, r, h3, h4⟩ := ih 0 ss sns _ hl' s
        refine ⟨pn, r, fun V => ?_, ?_⟩
        · rw [play, hi]
          dsimp only
          rw [eval_hashes, h1]
          exact h3 V
        · rcases hc : makeContext O keys tweaks with _ | ctx
          · exact h4
          · dsimp only
            have h5 := h2 ctx hc
            revert h5
            rcases signPartialAdaptor O ctx sk (nonceOf sns i) an T msg with sig | e | _
            · exact fun h5 => absurd rfl (h5 sig)
            · exact fun _ => h4
            · exact fun _ => h4
      · obtain ⟨pn, r, h6, h7⟩ := ih x.sig (ss.set i ⟨T, some x⟩) sns _ hl' s
        refine ⟨pn, r, fun V => ?_, ?_⟩
        · rw [play, hi]
          dsimp only
          rw [eval_hashes, h1]
          exact h6 V
        · rw [h2]
          dsimp only
          rw [h5, h7, List.map_set, show toCode ⟨T, some x⟩ = (T, some (ctx, msg, Spec.sessionNonce O ctx.aggregatedPubkey ⟨an, T, msg⟩)) by
            rw [← h4', ← h3, ← h4]; rfl]
    · obtain ⟨pn, r, h1, h2⟩ := ih 0 ss sns log hl s
      exact ⟨pn, r, fun V => by rw [play, hi]; exact h1 V, h2⟩

theorem same_play (V V' : (ℕ → PubNonce) → Option Outcome × Log Note → Prop) (k : ℕ) (H : Hash) (sk : Scalar) (A : Opener) (ss : List Session)
    (sns : List SecNonce) (log : Log Note) (s : ℕ → Arr 32) :
    Same ((play V k H sk A ss sns log).library H s) ((play V' k H sk A ss sns log).library H s) := by
  induction A generalizing ss sns log s with
  | submit keys tweaks msg sig d =>
    rw [play, play]
    refine same_hashes H s _ (fun a log => ?_) _
    exact .done _ _
  | ask x d next ih =>
    rw [play, play, NonceUser.library, NonceUser.library]
    exact .ask _ _ _ fun a => ih _ _ _ _ _
  | start T b next ih =>
    rw [play, play, NonceUser.library, NonceUser.library]
    exact .ask _ _ _ fun a => .ask _ _ _ fun h => .ask _ _ _ fun h' => ih _ _ _ _ _
  | sign i keys tweaks an msg d next ih =>
    rw [play, play]
    split
    · refine same_hashes H s _ (fun a log => ?_) _
      rcases a with _ | r
      · exact ih _ _ _ _ _
      · exact ih _ _ _ _ _
    · exact ih _ _ _ _ _

/-- The game is one against the code. -/
theorem play_code {k m : ℕ} (H : Hash) (A : Opener) (p : Scalar × (Fin k → Arr 32) × (Fin m → Arr 32)) :
    ∃ pn r, (∀ V, (play V k H p.1 A [] [] []).OnLibrary Drawn H p.2 ↔ V pn r) ∧
      (AcceptedIn H r ↔ AcceptedByCode (drawnHash H A p) p.1 A (Outsider.extend zeroSeed p.2.1) [] []) := by
  obtain ⟨pn, r, h1, h2⟩ := eval_game k (drawnHash H A p) H p.1 A [] [] [] (fun e he => by cases he) (Outsider.extend zeroSeed p.2.1)
  refine ⟨pn, r, fun V => ?_, h2⟩
  rw [← h1 V]
  unfold NonceUser.OnLibrary drawnHash
  rw [Asker.run_eval H _ _ (by simp [Asker.Distinct]) (by simp), (same_play V (Wins H (mulG p.1)) k H p.1 A [] [] [] _).run H _ []]

/-! ## The rounds -/

/-- A partial signature in a session that goes on. -/
theorem code_sign {O : Hash} {sk : Scalar} {rs : List RoundSession} {i : ℕ} {r : RoundSession} (hr : running rs i = some r) (hg : r.Good O)
    (hP : mulG sk ∈ r.keys) (an : AggNonce) (msg : Bytes) (d : Adaptive.Data) (next : MaybeScalar → Opener) (s : ℕ → Arr 32)
    (sns : List SecNonce) (hsn : nonceOf sns i = r.round.secnonce) :
    AcceptedByCode O sk (.sign i r.keys r.tweaks an msg d next) s (rs.map RoundSession.code) sns ↔
      AcceptedByCode O sk (next (partialSigValue O r.round.keyAggCtx sk r.round.secnonce an r.point msg)) s
        ((rs.map RoundSession.code).set i (r.point, some (r.round.keyAggCtx, msg,
          Spec.sessionNonce O r.round.keyAggCtx.aggregatedPubkey ⟨an, r.point, msg⟩))) sns := by
  have h1 : (rs.map RoundSession.code)[i]? = some (r.point, none) := by
    rw [List.getElem?_map, (running_eq hr).1, Option.map_some, RoundSession.code, hg.about (running_eq hr).2]
  rw [AcceptedByCode]
  simp only [h1, hg.ctx, hsn]
  rw [signPartialAdaptor_eq hg.inv.ctx.inv, hg.keys, if_pos hP]

/-- No partial signature in a session that goes on. -/
theorem skip_step {O : Hash} {sk : Scalar} {rs : List RoundSession} {i : ℕ} {r : RoundSession} (hr : running rs i = some r) (hg : r.Good O)
    (msg : Bytes) (next : Option MaybeScalar → RoundForger) (s : ℕ → Arr 32)
    (h : AcceptedByCode O sk ((next none).opener (mulG sk) ((rs.map RoundSession.known).set i (r.after O msg none).known)) s
      ((rs.map RoundSession.code).set i (r.after O msg none).code) (rs.map (·.round.secnonce))) :
    AcceptedByCode O sk ((next none).opener (mulG sk) ((rs.map RoundSession.known).set i { r.known with live := false })) s
      (rs.map RoundSession.code) (rs.map (·.round.secnonce)) := by
  have h1 : (r.after O msg none).code = r.code := by
    unfold RoundSession.code
    rw [hg.about (running_eq hr).2]
    rfl
  have h2 : (r.after O msg none).known = { r.known with live := false } := by
    unfold RoundSession.known
    rw [hg.about (running_eq hr).2]
    rfl
  rw [h1, set_self (l := rs.map RoundSession.code) (by rw [List.getElem?_map, (running_eq hr).1]; rfl), h2] at h
  exact h

/-- A request for a partial signature in a session that goes on. -/
theorem sign_step {O : Hash} {sk : Scalar} {rs : List RoundSession} {i : ℕ} {r : RoundSession} (hr : running rs i = some r) (hg : r.Good O)
    (an : AggNonce) (msg : Bytes) (d : Adaptive.Data) (next : Option MaybeScalar → RoundForger) (s : ℕ → Arr 32)
    (h : let x := if mulG sk ∈ r.keys then some (an, partialSigValue O r.round.keyAggCtx sk r.round.secnonce an r.point msg) else none
      AcceptedByCode O sk ((next (x.map (·.2))).opener (mulG sk) ((rs.map RoundSession.known).set i (r.after O msg x).known)) s
      ((rs.map RoundSession.code).set i (r.after O msg x).code) (rs.map (·.round.secnonce))) :
    AcceptedByCode O sk (if mulG sk ∈ r.keys then .sign i r.keys r.tweaks an msg d fun s =>
        (next (some s)).opener (mulG sk) ((rs.map RoundSession.known).set i { r.known with live := false, signed := true })
      else (next none).opener (mulG sk) ((rs.map RoundSession.known).set i { r.known with live := false })) s
      (rs.map RoundSession.code) (rs.map (·.round.secnonce)) := by
  by_cases hP : mulG sk ∈ r.keys
  · simp only [if_pos hP] at h ⊢
    rw [code_sign hr hg hP an msg d _ s _ (nonceOf_map (running_eq hr).1)]
    exact h
  · simp only [if_neg hP] at h ⊢
    exact skip_step hr hg msg next s h

theorem accepted_opener (O : Hash) (sk : Scalar) : ∀ (A : RoundForger) (s : ℕ → Arr 32) (rs : List RoundSession), AllGood O rs →
    Accepted O sk A s rs →
    AcceptedByCode O sk (A.opener (mulG sk) (rs.map RoundSession.known)) s (rs.map RoundSession.code) (rs.map (·.round.secnonce))
  | .submit keys tweaks msg sig d, s, rs, hg, h => by
    obtain ⟨Y, h2, h3, h4⟩ := h
    refine ⟨Y, h2, fun e he c m R hR => ?_, h4⟩
    obtain ⟨r, hr, rfl⟩ := List.mem_map.1 he
    exact h3 r hr c m R hR
  | .ask x d next, s, rs, hg, h => accepted_opener O sk (next (O x)) s rs hg h
  | .start keys tweaks Q T index spices next, s, rs, hg, h => by
    obtain ⟨ctx, r, h1, rfl, h2, h3⟩ := h
    have hb := Adaptive.makeContext_some h1
    have hkeys : ctx.pubkeys = keys := hb.keys
    subst hkeys
    have hi := FirstRound.inv_new hb.reachable h2
    obtain ⟨P, b, h4, h5, rfl⟩ := FirstRound.new_eq_ok.1 h2
    obtain ⟨b', h6, h7⟩ := builder_seed (seed' := zeroSeed) h5
    have hs : setup ctx.pubkeys ctx.aggregatedPubkey index (spices sk) = b' := by
      unfold setup
      rw [h4]
      simp only [h6]
    have hg' := hg.append (r := ⟨T, ctx.pubkeys, tweaks, _, _, true, none⟩) ⟨h1, hi, hi, rfl, rfl, fun _ => rfl⟩
    have := accepted_opener O sk _ _ _ hg' h3
    rw [opener, AcceptedByCode]
    rw [hs, h7]
    rw [List.map_append, List.map_append, List.map_append] at this
    exact this
  | .deliver i index pn next, s, rs, hg, h => by
    rw [Accepted] at h
    rw [opener, running_known]
    rcases hr : running rs i with _ | r
    · rw [hr] at h
      exact accepted_opener O sk _ _ _ hg h
    · rw [hr] at h
      have hgr := hg.running hr
      have := accepted_opener O sk _ _ _ (hg.set i (r := { r with round := (r.round.receiveNonce index pn).1 })
        ⟨hgr.ctx, hgr.inv.receive index pn, hgr.first, hgr.sameCtx, hgr.sameNonce, hgr.about⟩) h
      rw [List.map_set, List.map_set, List.map_set] at this
      rw [set_self (l := rs.map RoundSession.code) (by rw [List.getElem?_map, (running_eq hr).1]; rfl),
        set_self (l := rs.map (·.round.secnonce)) (by rw [List.getElem?_map, (running_eq hr).1]; rfl)] at this
      exact this
  | .finalize i msg d next, s, rs, hg, h => by
    rw [Accepted] at h
    rw [opener, running_known]
    rcases hr : running rs i with _ | r
    · rw [hr] at h
      exact accepted_opener O sk _ _ _ hg h
    · rw [hr] at h
      have hgr := hg.running hr
      have := accepted_opener O sk _ _ _ (hg.set i (hgr.after msg _)) h
      rw [List.map_set, List.map_set, List.map_set,
        set_self (l := rs.map (·.round.secnonce)) (by rw [List.getElem?_map, (running_eq hr).1]; rfl), hgr.finalized] at this
      rw [Option.map_some]
      change AcceptedByCode O sk (match r.round.pubnonceSlots.finalize with
        | .ok pns => if mulG sk ∈ r.keys then _ else _
        | _ => _) _ _ _
      rcases hf : r.round.pubnonceSlots.finalize with pns | e | _
      · simp only [hf] at this ⊢
        exact sign_step hr hgr _ msg d next s this
      all_goals
        simp only [hf] at this ⊢
        exact skip_step hr hgr msg next s this
  | .aggregator i an msg d next, s, rs, hg, h => by
    rw [Accepted] at h
    rw [opener, running_known]
    rcases hr : running rs i with _ | r
    · rw [hr] at h
      exact accepted_opener O sk _ _ _ hg h
    · rw [hr] at h
      have hgr := hg.running hr
      have := accepted_opener O sk _ _ _ (hg.set i (hgr.after msg _)) h
      rw [List.map_set, List.map_set, List.map_set,
        set_self (l := rs.map (·.round.secnonce)) (by rw [List.getElem?_map, (running_eq hr).1]; rfl), hgr.aggregated] at this
      exact sign_step hr hgr an msg d next s this
  | .restart i next, s, rs, hg, h => by
    have h1 : AllGood O (rs.modify i RoundSession.restarted) := hg.restart i
    have := accepted_opener O sk next s _ h1 h
    rw [map_restart_known, map_modify_same _ _ fun r _ => RoundSession.restarted_code r,
      map_modify_same (·.round.secnonce) _ fun r hr => (hg r hr).restarted_nonce] at this
    exact this

/-- Who succeeds against the rounds wins the game. -/
theorem forges_opener {k m : ℕ} (H : Hash) (A : Point → RoundForger) (p : Scalar × (Fin k → Arr 32) × (Fin m → Arr 32)) (h : Forges H A p) :
    (game k H p.1 ((A (mulG p.1)).opener (mulG p.1) []) [] [] []).OnLibrary Drawn H p.2 := by
  obtain ⟨h1, h2⟩ := h
  obtain ⟨pn, ⟨out, log⟩, h3, h4⟩ := play_code H ((A (mulG p.1)).opener (mulG p.1) []) p
  have h5 := (h3 _).1 h2
  refine (h3 _).2 ?_
  have h6 := h4.2 (accepted_opener _ _ _ _ [] (fun _ h => by cases h) h1)
  rcases out with _ | o
  · exact h5.elim
  · obtain ⟨o', ho', h7, h8⟩ := h6
    cases ho'
    exact ⟨h7, h8, h5⟩

end Verif.OwnRounds
