import Verif.Parser.Lemmas
import Verif.Parser.Spec

/-! # Lemmas: the parser and the grammar -/
namespace Verif.Parser
open Verif.Lexer (TokenRep)

variable {F : Type}

theorem ambient_iff (t : Tok F) : Spec.Ambient t ↔ t.isAmbient = true := by
  rcases t with rep | _
  · cases rep <;> simp [Spec.Ambient, Tok.isAmbient]
  · simp [Spec.Ambient, Tok.isAmbient]

theorem strip_iff (ts us : List (Tok F)) : Spec.Strip ts us ↔ us = ts.filter (fun t => !t.isAmbient) := by
  constructor
  · intro h
    induction h with
    | nil => rfl
    | skip t ts us h _ ih => simp [(ambient_iff t).1 h, ih]
    | keep t ts us h _ ih => rw [ambient_iff] at h; simp [h, ih]
  · rintro rfl
    induction ts with
    | nil => exact .nil
    | cons t ts ih =>
      by_cases h : t.isAmbient = true
      · simp only [List.filter_cons, h]; exact .skip _ _ _ ((ambient_iff t).2 h) ih
      · have h' : t.isAmbient = false := by simpa using h
        simp only [List.filter_cons, h']; exact .keep _ _ _ (fun h2 => h ((ambient_iff t).1 h2)) ih

theorem foldr_cons_list (i l : List (Sexp F)) : i.foldr Spec.cons (.list l) = .list (i ++ l) := by
  induction i with
  | nil => rfl
  | cons a i ih => simp [ih, Spec.cons]

theorem foldr_cons_listLike (a : Sexp F) (i : List (Sexp F)) (h : Sexp F) (j : List (Sexp F)) (l : Sexp F) :
    (a :: i).foldr Spec.cons (.listLike h j l) = .listLike a (i ++ h :: j) l := by
  induction i generalizing a with
  | nil => rfl
  | cons b i ih => rw [List.foldr_cons, ih b]; rfl

theorem foldr_cons_other (a : Sexp F) (i : List (Sexp F)) (x : Sexp F) (h1 : ∀ l, x ≠ .list l) (h2 : ∀ h i l, x ≠ .listLike h i l) :
    (a :: i).foldr Spec.cons x = .listLike a i x := by
  induction i generalizing a with
  | nil => cases x <;> first | rfl | exact absurd rfl (h1 _) | exact absurd rfl (h2 _ _ _)
  | cons b i ih => rw [List.foldr_cons, ih b]; rfl

theorem mkListLike_eq (a : Sexp F) (i : List (Sexp F)) (x : Sexp F) : Sexp.mkListLike a i x = (a :: i).foldr Spec.cons x := by
  cases x with
  | list l => rw [foldr_cons_list]; rfl
  | listLike h j l => rw [foldr_cons_listLike]; rfl
  | _ => rw [foldr_cons_other _ _ _ (by simp) (by simp)]; rfl

theorem ofSigned_atom (i : Int) : Spec.Atom (.lexed (.signed i)) (Sexp.ofSigned i : Sexp F) := by
  refine .signed i _ ?_ ⟨i / 2 ^ 64, ?_⟩
  · have := Int.emod_lt_of_pos i (b := 2 ^ 64) (by decide)
    have h0 := Int.emod_nonneg i (b := 2 ^ 64) (by decide)
    omega
  · have h0 := Int.emod_nonneg i (b := 2 ^ 64) (by decide)
    rw [Int.toNat_of_nonneg h0, Int.mul_comm]
    have := Int.emod_add_mul_ediv i (2 ^ 64)
    omega

theorem signed_atom {i : Int} {x : Sexp F} (h : Spec.Atom (.lexed (.signed i)) x) : x = Sexp.ofSigned i := by
  cases h with
  | signed _ n hn hk =>
    obtain ⟨k, rfl⟩ := hk
    simp only [Sexp.ofSigned]
    congr 1
    rw [Int.add_mul_emod_self_right, Int.emod_eq_of_lt (by omega) (by omega)]
    rfl

/-- The tokens that carry on an S-expression. -/
def isPost : Tok F → Bool
  | .lexed .question | .lexed .exclamation | .lexed .lBrace => true
  | _ => false

/-- The next token, if any, does not carry on an S-expression. -/
def NoPost (ts : List (Tok F)) : Prop := ∀ t, ts.head? = some t → isPost t = false

/-! ## What the parser accepts is in the grammar -/

/-- Whatever `p` does, it only adds errors; and when it gives a result and adds none, the tokens it read are related to the result by `R`. -/
def Sound {α} (p : P F α) (R : List (Tok F) → α → List (Tok F) → Prop) : Prop :=
  ∀ s r s', p s = some (r, s') → ∃ more, s'.errs = s.errs ++ more ∧
    ∀ x, r = .ok x → more = [] → ∃ u, view s = u ++ view s' ∧ R u x (view s')

theorem Sound.bind {α β} {p : P F α} {q : α → P F β} {R1 : List (Tok F) → α → List (Tok F) → Prop}
    {R2 : α → List (Tok F) → β → List (Tok F) → Prop} (hp : Sound p R1) (hq : ∀ a, Sound (q a) (R2 a)) :
    Sound (p >>= q) (fun u y rest => ∃ a v w, u = v ++ w ∧ R1 v a (w ++ rest) ∧ R2 a w y rest) := by
  intro s r s' h
  rw [bind_eq] at h
  rcases hps : p s with _ | ⟨e | a, s1⟩
  · simp [hps] at h
  · rw [hps] at h
    simp only [Option.some.injEq, Prod.mk.injEq] at h
    obtain ⟨rfl, rfl⟩ := h
    obtain ⟨more, hm, -⟩ := hp s _ _ hps
    exact ⟨more, hm, by intro x hx; cases hx⟩
  · rw [hps] at h
    obtain ⟨m1, hm1, h1⟩ := hp s _ _ hps
    obtain ⟨m2, hm2, h2⟩ := hq a s1 _ _ h
    refine ⟨m1 ++ m2, by rw [hm2, hm1, List.append_assoc], ?_⟩
    intro x hx hm
    obtain ⟨hm1, hm2⟩ := List.append_eq_nil_iff.1 hm
    obtain ⟨v, hv, hr1⟩ := h1 a rfl hm1
    obtain ⟨w, hw, hr2⟩ := h2 x hx hm2
    exact ⟨v ++ w, by rw [hv, hw, List.append_assoc], a, v, w, rfl, by rw [← hw]; exact hr1, hr2⟩

theorem Sound.mono {α} {p : P F α} {R R' : List (Tok F) → α → List (Tok F) → Prop} (hp : Sound p R) (h : ∀ u x rest, R u x rest → R' u x rest) : Sound p R' := by
  intro s r s' hs
  obtain ⟨m, hm, h1⟩ := hp s r s' hs
  exact ⟨m, hm, fun x hx hn => by obtain ⟨u, hu, hr⟩ := h1 x hx hn; exact ⟨u, hu, h _ _ _ hr⟩⟩

theorem sound_pure {α} (a : α) : Sound (pure a : P F α) (fun u x _ => u = [] ∧ x = a) := by
  intro s r s' h
  simp only [pure_eq, Option.some.injEq, Prod.mk.injEq] at h
  obtain ⟨rfl, rfl⟩ := h
  exact ⟨[], by simp, fun x hx _ => ⟨[], rfl, rfl, by cases hx; rfl⟩⟩

theorem sound_clean {α} {p : P F α} {R : List (Tok F) → α → List (Tok F) → Prop} (h : ∀ s r s', p s = some (r, s') → ∃ more, s'.errs = (clean s).errs ++ more ∧
    ∀ x, r = .ok x → more = [] → ∃ u, view (clean s) = u ++ view s' ∧ R u x (view s')) : Sound p R := by
  intro s r s' hs
  obtain ⟨m, hm, h1⟩ := h s r s' hs
  exact ⟨m, hm, fun x hx hn => by rw [← view_clean]; exact h1 x hx hn⟩

theorem sound_token {α} (g : Tok F → Option α) (msg) : Sound (token g msg) (fun u a _ => ∃ t, u = [t] ∧ g t = some a) := by
  refine sound_clean fun s r s' h => ?_
  rw [token_eq] at h
  rcases clean_cases s with ⟨e, hs, -⟩ | ⟨t, ts, e, hs, ht, -⟩
  · rw [hs, token_nil] at h
    simp only [Option.some.injEq, Prod.mk.injEq] at h
    obtain ⟨rfl, rfl⟩ := h
    exact ⟨[], by rw [hs]; simp, by intro x hx; cases hx⟩
  · rw [hs] at h ⊢
    cases hg : g t with
    | none =>
      rw [token_no msg ht hg] at h
      simp only [Option.some.injEq, Prod.mk.injEq] at h
      obtain ⟨rfl, rfl⟩ := h
      exact ⟨[], by simp, by intro x hx; cases hx⟩
    | some a =>
      rw [token_yes msg ht hg] at h
      simp only [Option.some.injEq, Prod.mk.injEq] at h
      obtain ⟨rfl, rfl⟩ := h
      refine ⟨[], by simp, fun x hx _ => ⟨[t], by simp [view, ht], t, rfl, by cases hx; exact hg⟩⟩

/-- A token is read and then `p` goes on. -/
theorem sound_after {α} {p : P F α} {R : List (Tok F) → α → List (Tok F) → Prop} (hp : Sound p R) {t : Tok F} (ht : t.isAmbient = false) {ts e r s'} (h : p ⟨ts, e⟩ = some (r, s')) :
    ∃ more, s'.errs = e ++ more ∧ ∀ x, r = .ok x → more = [] → ∃ u, view ⟨t :: ts, e⟩ = (t :: u) ++ view s' ∧ R u x (view s') := by
  obtain ⟨m, hm, h1⟩ := hp _ _ _ h
  refine ⟨m, hm, fun x hx hn => ?_⟩
  obtain ⟨u, hu, hr⟩ := h1 x hx hn
  refine ⟨u, ?_, hr⟩
  rw [List.cons_append, ← hu]
  simp [view, ht]

theorem noPost_of_clean {s : St F} (h : ∀ t ts, (clean s).toks = t :: ts → isPost t = false) : NoPost (view s) := by
  rcases clean_cases s with ⟨e, hs, hv⟩ | ⟨t, ts, e, hs, ht, hv⟩
  · rw [hv]; intro t ht; simp at ht
  · rw [hv]; intro t' ht'
    simp only [List.head?_cons, Option.some.injEq] at ht'
    rw [← ht']; exact h t ts (by rw [hs])

theorem getRParen_eq (t : Tok F) (h : getRParen t = some ()) : t = .lexed .rParen := by
  unfold getRParen at h; split at h <;> first | rfl | cases h
theorem getRBrack_eq (t : Tok F) (h : getRBrack t = some ()) : t = .lexed .rBrack := by
  unfold getRBrack at h; split at h <;> first | rfl | cases h
theorem getRBrace_eq (t : Tok F) (h : getRBrace t = some ()) : t = .lexed .rBrace := by
  unfold getRBrace at h; split at h <;> first | rfl | cases h

theorem sound (fuel : Nat) :
    Sound (sexp fuel : P F (Sexp F)) (fun u x rest => Spec.S u x ∧ NoPost rest) ∧
    (∀ y : Sexp F, Sound (post fuel y) (fun u x rest => (∀ v, Spec.T v y → Spec.T (v ++ u) x) ∧ (NoPost (u ++ rest) → u = [] ∧ x = y) ∧ NoPost rest)) ∧
    Sound (seq fuel : P F (List (Sexp F))) (fun u x _ => Spec.Ss u x) ∧
    Sound (body fuel : P F (Sexp F)) (fun u x _ => Spec.B u x) := by
  induction fuel with
  | zero =>
    refine ⟨?_, fun x => ?_, ?_, ?_⟩ <;> intro s r s' h <;> simp [sexp, post, seq, body] at h
  | succ fuel ih =>
    obtain ⟨i1, i2, i3, i4⟩ := ih
    refine ⟨sound_clean fun s r s' h => ?_, fun y => sound_clean fun s r s' h => ?_, sound_clean fun s r s' h => ?_, ?_⟩
    · rw [sexp_succ] at h
      have hd : ∀ s r s', (dispatch fuel : P F (Sexp F)) (clean s) = some (r, s') → ∃ more, s'.errs = (clean s).errs ++ more ∧
          ∀ x, r = .ok x → more = [] → ∃ u, view (clean s) = u ++ view s' ∧ (Spec.T u x ∨ Spec.S u x ∧ NoPost (view s')) := by
        intro s r s' h
        rcases clean_cases s with ⟨e, hs, -⟩ | ⟨t, ts, e, hs, ht, -⟩
        · rw [hs] at h ⊢
          simp only [dispatch, Option.some.injEq, Prod.mk.injEq] at h
          obtain ⟨rfl, rfl⟩ := h
          exact ⟨[], by simp, by intro x hx; cases hx⟩
        · rw [hs] at h ⊢
          have hatom : ∀ x : Sexp F, Spec.Atom t x → some (Except.ok x, (⟨ts, e⟩ : St F)) = some (r, s') →
              ∃ more, s'.errs = e ++ more ∧ ∀ x, r = .ok x → more = [] → ∃ u, view ⟨t :: ts, e⟩ = u ++ view s' ∧
                (Spec.T u x ∨ Spec.S u x ∧ NoPost (view s')) := by
            intro x hx h
            simp only [Option.some.injEq, Prod.mk.injEq] at h
            obtain ⟨rfl, rfl⟩ := h
            refine ⟨[], by simp, fun x' hx' _ => ⟨[t], by simp [view, ht], .inl (.atom _ _ ?_)⟩⟩
            cases hx'; exact hx
          have hbr : ∀ (c : Tok F) (g : Tok F → Option Unit) msg, Spec.Brackets t c → (∀ t, g t = some () → t = c) →
              (body fuel >>= fun r => token g msg >>= fun _ => pure r : P F (Sexp F)) ⟨ts, e⟩ = some (r, s') →
              ∃ more, s'.errs = e ++ more ∧ ∀ x, r = .ok x → more = [] → ∃ u, view ⟨t :: ts, e⟩ = u ++ view s' ∧
                (Spec.T u x ∨ Spec.S u x ∧ NoPost (view s')) := by
            intro c g msg hb hg h
            obtain ⟨m, hm, h1⟩ := sound_after (Sound.bind i4 (fun a => Sound.bind (sound_token g msg) (fun _ => sound_pure a))) ht h
            refine ⟨m, hm, fun x hx hn => ?_⟩
            obtain ⟨u, hu, a, v, w, rfl, hB, un, v', w', rfl, ⟨t', rfl, ht'⟩, rfl, rfl⟩ := h1 x hx hn
            rw [hg t' ht'] at hu
            exact ⟨_, hu, .inl (by simpa using Spec.T.list t c v x hb hB)⟩
          have hmk : ∀ (name : String), Spec.Mark t name →
              (sexp fuel >>= fun x => pure (.list [.symbol name.toList, x]) : P F (Sexp F)) ⟨ts, e⟩ = some (r, s') →
              ∃ more, s'.errs = e ++ more ∧ ∀ x, r = .ok x → more = [] → ∃ u, view ⟨t :: ts, e⟩ = u ++ view s' ∧
                (Spec.T u x ∨ Spec.S u x ∧ NoPost (view s')) := by
            intro name hk h
            obtain ⟨m, hm, h1⟩ := sound_after (Sound.bind i1 (fun a => sound_pure _)) ht h
            refine ⟨m, hm, fun x hx hn => ?_⟩
            obtain ⟨u, hu, a, v, w, rfl, ⟨hS, hp⟩, rfl, rfl⟩ := h1 x hx hn
            rw [List.nil_append] at hp
            exact ⟨_, hu, .inr ⟨by simpa [Spec.form] using Spec.S.marked t v a name hk hS, hp⟩⟩
          have herr : ∀ er (s1 : St F), s1.errs = e → some (Except.error er, s1) = some (r, s') →
              ∃ more, s'.errs = e ++ more ∧ ∀ x, r = .ok x → more = [] → ∃ u, view ⟨t :: ts, e⟩ = u ++ view s' ∧
                (Spec.T u x ∨ Spec.S u x ∧ NoPost (view s')) := by
            intro er s1 h1 h
            simp only [Option.some.injEq, Prod.mk.injEq] at h
            obtain ⟨rfl, rfl⟩ := h
            exact ⟨[], by simp [h1], by intro x hx; cases hx⟩
          rcases t with rep | _
          · cases rep <;> first
              | (simp [Tok.isAmbient] at ht; done)
              | exact hatom _ (ofSigned_atom _) h
              | exact hatom _ (by constructor) h
              | exact hbr _ _ _ .paren getRParen_eq h
              | exact hbr _ _ _ .brack getRBrack_eq h
              | exact hmk "quote" (by constructor) h
              | exact hmk "quasiquote" (by constructor) h
              | exact hmk "unquote" (by constructor) h
              | exact hmk "unquote-splicing" (by constructor) h
              | exact hmk "capture" (by constructor) h
              | exact hmk "load" (by constructor) h
              | exact herr _ _ rfl h
          · exact herr _ _ rfl h
      rw [bind_eq] at h
      rcases hds : (dispatch fuel : P F (Sexp F)) (clean s) with _ | ⟨e | a, s1⟩
      · simp [hds] at h
      · rw [hds] at h
        simp only [Option.some.injEq, Prod.mk.injEq] at h
        obtain ⟨rfl, rfl⟩ := h
        obtain ⟨m, hm, -⟩ := hd s _ _ hds
        exact ⟨m, hm, by intro x hx; cases hx⟩
      · rw [hds] at h
        obtain ⟨m1, hm1, h1⟩ := hd s _ _ hds
        obtain ⟨m2, hm2, h2⟩ := i2 a _ _ _ h
        refine ⟨m1 ++ m2, by rw [hm2, hm1, List.append_assoc], fun x hx hn => ?_⟩
        obtain ⟨hn1, hn2⟩ := List.append_eq_nil_iff.1 hn
        obtain ⟨u, hu, hT⟩ := h1 a rfl hn1
        obtain ⟨v, hv, hc, hnp, hp⟩ := h2 x hx hn2
        refine ⟨u ++ v, by rw [hu, hv, List.append_assoc], ?_, hp⟩
        rcases hT with hT | ⟨hS, hp1⟩
        · exact .term _ _ (hc u hT)
        · rw [hv] at hp1
          obtain ⟨rfl, rfl⟩ := hnp hp1
          rwa [List.append_nil]
    · rw [post_succ] at h
      rcases clean_cases s with ⟨e, hs, -⟩ | ⟨t, ts, e, hs, ht, -⟩
      · have he : s.errs = e := by rw [← errs_clean, hs]
        rw [hs] at h ⊢
        simp only [Option.some.injEq, Prod.mk.injEq] at h
        obtain ⟨rfl, rfl⟩ := h
        exact ⟨[], by simp, fun x hx _ => ⟨[], rfl, fun v hv => by cases hx; simpa using hv, fun _ => ⟨rfl, by cases hx; rfl⟩,
          by intro t ht; simp [view] at ht⟩⟩
      · have he : s.errs = e := by rw [← errs_clean, hs]
        rw [hs, he] at h
        rw [hs]
        have hend : isPost t = false → some (Except.ok y, (⟨t :: ts, e⟩ : St F)) = some (r, s') → ∃ more, s'.errs = (⟨t :: ts, e⟩ : St F).errs ++ more ∧
            ∀ x, r = .ok x → more = [] → ∃ u, view ⟨t :: ts, e⟩ = u ++ view s' ∧ (∀ v, Spec.T v y → Spec.T (v ++ u) x) ∧ (NoPost (u ++ view s') → u = [] ∧ x = y) ∧ NoPost (view s') := by
          intro hp h
          simp only [Option.some.injEq, Prod.mk.injEq] at h
          obtain ⟨rfl, rfl⟩ := h
          refine ⟨[], by simp, fun x hx _ => ⟨[], rfl, fun v hv => by cases hx; simpa using hv, fun _ => ⟨rfl, by cases hx; rfl⟩, ?_⟩⟩
          intro t' ht'
          simp only [view, List.filter_cons, ht, Bool.not_false, if_true, List.head?_cons, Option.some.injEq] at ht'
          rw [← ht']; exact hp
        have hpost : ∀ z, isPost t = true → (∀ v, Spec.T v y → Spec.T (v ++ [t]) z) → post fuel z ⟨ts, e⟩ = some (r, s') → ∃ more, s'.errs = (⟨t :: ts, e⟩ : St F).errs ++ more ∧
            ∀ x, r = .ok x → more = [] → ∃ u, view ⟨t :: ts, e⟩ = u ++ view s' ∧ (∀ v, Spec.T v y → Spec.T (v ++ u) x) ∧ (NoPost (u ++ view s') → u = [] ∧ x = y) ∧ NoPost (view s') := by
          intro z hp hT h
          obtain ⟨m, hm, h1⟩ := sound_after (i2 z) ht h
          refine ⟨m, hm, fun x hx hn => ?_⟩
          obtain ⟨u, hu, hc, -, hp2⟩ := h1 x hx hn
          refine ⟨_, hu, fun v hv => ?_, fun hno => ?_, hp2⟩
          · have := hc _ (hT v hv)
            simpa using this
          · have := hno t (by simp)
            rw [hp] at this; cases this
        rcases t with rep | _
        · cases rep <;> first
            | (simp [Tok.isAmbient] at ht; done)
            | exact hend rfl h
            | exact hpost _ rfl (fun v hv => Spec.T.question v y hv) h
            | exact hpost _ rfl (fun v hv => Spec.T.exclamation v y hv) h
            | skip
          simp only at h
          obtain ⟨m, hm, h1⟩ := sound_after (Sound.bind i3 (fun a => Sound.bind (sound_token getRBrace "}") (fun _ => i2 _))) ht h
          refine ⟨m, hm, fun x hx hn => ?_⟩
          obtain ⟨u, hu, a, v, w, rfl, hSs, un, v', w', rfl, ⟨t', rfl, ht'⟩, hc, -, hp2⟩ := h1 x hx hn
          have htc := getRBrace_eq t' ht'
          subst htc
          refine ⟨_, hu, fun z hz => ?_, fun hno => ?_, hp2⟩
          · have := hc _ (Spec.T.annotate z y v a hz hSs)
            simpa using this
          · have := hno (.lexed .lBrace) (by simp)
            cases this
        · exact hend rfl h
    · rw [seq_succ] at h
      split at h
      · rename_i t hh
        split at h
        · have hsw : Sound (swallow (sexp fuel) : P F (Option (Sexp F))) (fun u x rest => ∃ a, x = some a ∧ Spec.S u a) := by
            intro s r s' h
            simp only [swallow] at h
            rcases hp : sexp fuel s with _ | ⟨e | a, s1⟩
            · simp [hp] at h
            · rw [hp] at h
              simp only [Option.some.injEq, Prod.mk.injEq] at h
              obtain ⟨rfl, rfl⟩ := h
              obtain ⟨m, hm, -⟩ := i1 _ _ _ hp
              exact ⟨m ++ [e], by simp [hm], by intro x hx hn; simp at hn⟩
            · rw [hp] at h
              simp only [Option.some.injEq, Prod.mk.injEq] at h
              obtain ⟨rfl, rfl⟩ := h
              obtain ⟨m, hm, h1⟩ := i1 _ _ _ hp
              refine ⟨m, hm, fun x hx hn => ?_⟩
              obtain ⟨u, hu, hS, -⟩ := h1 a rfl hn
              cases hx
              exact ⟨u, hu, a, rfl, hS⟩
          obtain ⟨m, hm, h1⟩ := Sound.bind hsw (fun a => Sound.bind i3 (fun more => sound_pure (a.toList ++ more))) _ _ _ h
          refine ⟨m, hm, fun x hx hn => ?_⟩
          obtain ⟨u, hu, -, v, w, rfl, ⟨a, rfl, hS⟩, more, v', w', rfl, hSs, rfl, rfl⟩ := h1 x hx hn
          exact ⟨_, hu, by simpa using Spec.Ss.cons _ _ _ _ hS hSs⟩
        · simp only [Option.some.injEq, Prod.mk.injEq] at h
          obtain ⟨rfl, rfl⟩ := h
          exact ⟨[], by simp, fun x hx _ => ⟨[], rfl, by cases hx; exact .nil⟩⟩
      · simp only [Option.some.injEq, Prod.mk.injEq] at h
        obtain ⟨rfl, rfl⟩ := h
        exact ⟨[], by simp, fun x hx _ => ⟨[], rfl, by cases hx; exact .nil⟩⟩
    · have ht : ∀ items, Sound (bodyTail fuel items : P F (Sexp F)) (fun u x _ => ∀ v, Spec.Ss v items → Spec.B (v ++ u) x) := by
        intro items
        refine sound_clean fun s r s' h => ?_
        rw [bodyTail] at h
        have he : s.errs = (clean s).errs := rfl
        rw [he] at h
        rcases clean_cases s with ⟨e, hs, -⟩ | ⟨t, ts, e, hs, ht, -⟩
        · rw [hs] at h ⊢
          simp only [Option.some.injEq, Prod.mk.injEq] at h
          obtain ⟨rfl, rfl⟩ := h
          exact ⟨[], by simp, fun x hx _ => ⟨[], rfl, fun v hv => by cases hx; simpa using Spec.B.list v items hv⟩⟩
        · rw [hs] at h ⊢
          have hend : some (Except.ok (Sexp.list items), (⟨t :: ts, e⟩ : St F)) = some (r, s') → ∃ more, s'.errs = (⟨t :: ts, e⟩ : St F).errs ++ more ∧
              ∀ x, r = .ok x → more = [] → ∃ u, view ⟨t :: ts, e⟩ = u ++ view s' ∧ ∀ v, Spec.Ss v items → Spec.B (v ++ u) x := by
            intro h
            simp only [Option.some.injEq, Prod.mk.injEq] at h
            obtain ⟨rfl, rfl⟩ := h
            exact ⟨[], by simp, fun x hx _ => ⟨[], rfl, fun v hv => by cases hx; simpa using Spec.B.list v items hv⟩⟩
          rcases t with rep | _
          · cases rep <;> first
              | (simp [Tok.isAmbient] at ht; done)
              | exact hend h
              | skip
            · simp only at h
              obtain ⟨m, hm, h1⟩ := sound_after (Sound.bind i1 (fun a => sound_pure _)) ht h
              refine ⟨m, hm, fun x hx hn => ?_⟩
              obtain ⟨u, hu, a, v, w, rfl, ⟨hS, -⟩, rfl, rfl⟩ := h1 x hx hn
              refine ⟨_, hu, fun z hz => ?_⟩
              have := Spec.B.dotted z items v a hz hS
              rw [List.append_nil]
              cases items with
              | nil => exact this
              | cons b bs =>
                show Spec.B _ (Sexp.mkListLike b bs a)
                rw [mkListLike_eq]; exact this
            · simp only at h
              obtain ⟨m, hm, h1⟩ := Sound.bind i4 (fun a => sound_pure _) _ _ _ h
              refine ⟨m, hm, fun x hx hn => ?_⟩
              obtain ⟨u, hu, a, v, w, rfl, hB, rfl, rfl⟩ := h1 x hx hn
              rw [view_clean] at hu
              refine ⟨.lexed .at :: v, ?_, fun z hz => ?_⟩
              · rw [List.append_nil] at hu
                simp only [view, List.filter_cons, ht, Bool.not_false, if_true, List.cons_append] at hu ⊢
                rw [hu]
              · exact Spec.B.nested z items v a hz hB
          · exact hend h
      intro s r s' h
      rw [body_succ] at h
      obtain ⟨m, hm, h1⟩ := Sound.bind i3 ht _ _ _ h
      refine ⟨m, hm, fun x hx hn => ?_⟩
      obtain ⟨u, hu, a, v, w, rfl, hSs, hB⟩ := h1 x hx hn
      exact ⟨_, hu, hB v hSs⟩

end Verif.Parser
