import Verif.Parser.Grammar

/-! # Lemmas: the parser accepts whatever is in the grammar -/
namespace Verif.Parser
open Verif.Lexer (TokenRep)

variable {F : Type}

/-- With enough fuel, `p` from `s` gives `a` and adds no error; the tokens then left are `rest`. -/
def Reads {α} (p : Nat → P F α) (s : St F) (a : α) (s' : St F) : Prop := ∃ f, ∀ f', f ≤ f' → p f' s = some (.ok a, s')

/-- The parser at the tokens `ts`, apart from whitespace and comments, with the errors `e`. -/
def At (s : St F) (ts : List (Tok F)) (e : List (Err F)) : Prop := view s = ts ∧ s.errs = e

theorem At.clean_nil {s : St F} {e} (h : At s [] e) : clean s = ⟨[], e⟩ := by
  rcases clean_cases s with ⟨e', hs, hv⟩ | ⟨t, ts, e', hs, ht, hv⟩
  · rw [hs]; have := h.2; rw [← errs_clean, hs] at this; rw [← this]
  · rw [h.1] at hv; simp at hv

theorem At.clean_cons {s : St F} {t ts e} (h : At s (t :: ts) e) :
    ∃ ts', clean s = ⟨t :: ts', e⟩ ∧ t.isAmbient = false ∧ At ⟨ts', e⟩ ts e := by
  rcases clean_cases s with ⟨e', hs, hv⟩ | ⟨t', ts', e', hs, ht, hv⟩
  · rw [h.1] at hv; simp at hv
  · have he := h.2; rw [← errs_clean, hs] at he
    simp only at he
    rw [h.1] at hv
    simp only [List.cons.injEq] at hv
    obtain ⟨rfl, hv⟩ := hv
    subst he
    exact ⟨ts', hs, ht, hv.symm, rfl⟩

theorem At.clean {s : St F} {ts e} (h : At s ts e) : At (clean s) ts e := ⟨by rw [view_clean]; exact h.1, h.2⟩

theorem NoPost.of_cons {t : Tok F} {ts} (h : isPost t = false) : NoPost (t :: ts) := by
  intro t' ht'; simp only [List.head?_cons, Option.some.injEq] at ht'; rw [← ht']; exact h

/-- The next token is one that ends a sequence. -/
def Stop (ts : List (Tok F)) : Prop := ∀ t, ts.head? = some t → leadsSexp t = false ∧ isPost t = false

theorem Stop.noPost {ts : List (Tok F)} (h : Stop ts) : NoPost ts := fun t ht => (h t ht).2

/-- A token that starts an S-expression. -/
def Starts (t : Tok F) : Prop := leadsSexp t = true ∧ isPost t = false

theorem atom_starts {t : Tok F} {s} (h : Spec.Atom t s) : Starts t := by cases h <;> exact ⟨rfl, rfl⟩
theorem mark_starts {t : Tok F} {n} (h : Spec.Mark t n) : Starts t := by cases h <;> exact ⟨rfl, rfl⟩
theorem bracket_starts {t r : Tok F} (h : Spec.Brackets t r) : Starts t := by cases h <;> exact ⟨rfl, rfl⟩

mutual
theorem S_starts : ∀ {u : List (Tok F)} {s}, Spec.S u s → ∃ t v, u = t :: v ∧ Starts t
  | _, _, .marked t u s name h _ => ⟨t, u, rfl, mark_starts h⟩
  | _, _, .term u s h => T_starts h
theorem T_starts : ∀ {u : List (Tok F)} {s}, Spec.T u s → ∃ t v, u = t :: v ∧ Starts t
  | _, _, .atom t s h => ⟨t, [], rfl, atom_starts h⟩
  | _, _, .list l r u s h _ => ⟨l, _, rfl, bracket_starts h⟩
  | _, _, .question u s h => by obtain ⟨t, v, rfl, hs⟩ := T_starts h; exact ⟨t, _, rfl, hs⟩
  | _, _, .exclamation u s h => by obtain ⟨t, v, rfl, hs⟩ := T_starts h; exact ⟨t, _, rfl, hs⟩
  | _, _, .annotate u s v ss h _ => by obtain ⟨t, v, rfl, hs⟩ := T_starts h; exact ⟨t, _, rfl, hs⟩
end

theorem Ss_noPost {u : List (Tok F)} {ss} (h : Spec.Ss u ss) {rest} (hr : Stop rest) : NoPost (u ++ rest) := by
  cases h with
  | nil => exact hr.noPost
  | cons u s v ss h _ =>
    obtain ⟨t, w, rfl, hs⟩ := S_starts h
    exact NoPost.of_cons hs.2

theorem post_stop {s : St F} {rest e} (h : At s rest e) (hp : NoPost rest) (x : Sexp F) : Reads (fun f => post f x) s x (clean s) := by
  refine ⟨1, fun f hf => ?_⟩
  obtain ⟨f, rfl⟩ : ∃ g, f = g + 1 := ⟨f - 1, by omega⟩
  show post (f + 1) x s = _
  rw [post_succ]
  cases rest with
  | nil => rw [h.clean_nil]
  | cons t ts =>
    obtain ⟨ts', hs, ht, -⟩ := h.clean_cons
    rw [hs]
    have := hp t rfl
    split <;> first | rfl | (rename_i heq; simp only [List.cons.injEq] at heq; rw [heq.1] at this; cases this)

theorem token_reads {α} {g : Tok F → Option α} {msg} {s : St F} {t ts e a} (h : At s (t :: ts) e) (hg : g t = some a) :
    ∃ s', token g msg s = some (.ok a, s') ∧ At s' ts e := by
  obtain ⟨ts', hs, ht, h'⟩ := h.clean_cons
  exact ⟨⟨ts', e⟩, by rw [token_eq, hs, token_yes msg ht hg], h'⟩

/-- What `sexp` makes of an atom, of a bracketed body, and of a mark. -/
theorem sexp_atom {s : St F} {t ts e x} (h : At s (t :: ts) e) (ha : Spec.Atom t x) :
    ∃ s', At s' ts e ∧ ∀ f, sexp (f + 1) s = post f x s' := by
  obtain ⟨ts', hs, ht, h'⟩ := h.clean_cons
  refine ⟨_, h', fun f => ?_⟩
  rw [sexp_succ, hs]
  cases ha with
  | signed i n hn hk => rw [signed_atom (.signed i n hn hk)]; rfl
  | _ => rfl

theorem sexp_bracket {s : St F} {l r ts e} (h : At s (l :: ts) e) (hb : Spec.Brackets l r) :
    ∃ s' g msg, At s' ts e ∧ g r = some () ∧
      ∀ f, sexp (f + 1) s = ((body f >>= fun x => token g msg >>= fun _ => pure x : P F (Sexp F)) >>= post f) s' := by
  obtain ⟨ts', hs, ht, h'⟩ := h.clean_cons
  cases hb with
  | paren => exact ⟨_, getRParen, ")", h', rfl, fun f => by rw [sexp_succ, hs]; rfl⟩
  | brack => exact ⟨_, getRBrack, "]", h', rfl, fun f => by rw [sexp_succ, hs]; rfl⟩

theorem sexp_mark {s : St F} {t ts e} {name : String} (h : At s (t :: ts) e) (hm : Spec.Mark t name) :
    ∃ s', At s' ts e ∧ ∀ f, sexp (f + 1) s = ((sexp f >>= fun x => pure (Spec.form name [x])) >>= post f) s' := by
  obtain ⟨ts', hs, ht, h'⟩ := h.clean_cons
  refine ⟨_, h', fun f => ?_⟩
  rw [sexp_succ, hs]
  cases hm <;> rfl

mutual

theorem complete_S : ∀ {u : List (Tok F)} {x : Sexp F}, Spec.S u x → ∀ {s rest e}, At s (u ++ rest) e → NoPost rest →
    ∃ s', At s' rest e ∧ Reads sexp s x s'
  | _, _, .marked t u x name hm hS, s, rest, e, h, hp => by
    obtain ⟨s1, h1, heq⟩ := sexp_mark h hm
    obtain ⟨s2, h2, f2, hr2⟩ := complete_S hS h1 hp
    obtain ⟨f3, hr3⟩ := post_stop h2 hp (Spec.form name [x])
    refine ⟨clean s2, h2.clean, f2 + f3 + 1, fun f hf => ?_⟩
    obtain ⟨f, rfl⟩ : ∃ g, f = g + 1 := ⟨f - 1, by omega⟩
    rw [heq, bind_of (s' := s2) (a := Spec.form name [x])]
    · exact hr3 f (by omega)
    · rw [bind_of (hr2 f (by omega))]; rfl
  | _, _, .term u x hT, s, rest, e, h, hp => by
    obtain ⟨s1, h1, f1, hr1⟩ := complete_T hT h
    obtain ⟨f2, hr2⟩ := post_stop h1 hp x
    refine ⟨clean s1, h1.clean, ?_⟩
    obtain ⟨f3, h3⟩ := hr1 (clean s1) x ⟨f2, hr2⟩
    exact ⟨f3, h3⟩

theorem complete_T : ∀ {u : List (Tok F)} {x : Sexp F}, Spec.T u x → ∀ {s rest e}, At s (u ++ rest) e →
    ∃ s', At s' rest e ∧ ∃ _ : Nat, ∀ s2 y, Reads (fun f => post f x) s' y s2 → Reads sexp s y s2
  | _, _, .atom t x ha, s, rest, e, h => by
    obtain ⟨s1, h1, heq⟩ := sexp_atom h ha
    refine ⟨s1, h1, 0, fun s2 y ⟨f, hf⟩ => ⟨f + 1, fun f' hf' => ?_⟩⟩
    obtain ⟨f', rfl⟩ : ∃ g, f' = g + 1 := ⟨f' - 1, by omega⟩
    rw [heq]; exact hf f' (by omega)
  | _, _, .list l r u x hb hB, s, rest, e, h => by
    have h' : At s (l :: (u ++ r :: rest)) e := by simpa using h
    obtain ⟨s1, g, msg, h1, hg, heq⟩ := sexp_bracket h' hb
    have hstop : ∃ c, r :: rest = c :: rest ∧ (c = .lexed .rParen ∨ c = .lexed .rBrack) := by
      cases hb <;> exact ⟨_, rfl, by simp⟩
    obtain ⟨s2, h2, f2, hr2⟩ := complete_B hB h1 hstop
    obtain ⟨s3, hr3, h3⟩ := token_reads (msg := msg) h2 hg
    refine ⟨s3, h3, 0, fun s4 y ⟨f, hf⟩ => ⟨f + f2 + 1, fun f' hf' => ?_⟩⟩
    obtain ⟨f', rfl⟩ : ∃ g, f' = g + 1 := ⟨f' - 1, by omega⟩
    rw [heq, bind_of (s' := s3) (a := x)]
    · exact hf f' (by omega)
    · rw [bind_of (hr2 f' (by omega)), bind_of hr3]; rfl
  | _, _, .question u x hT, s, rest, e, h => by
    have h' : At s (u ++ .lexed .question :: rest) e := by simpa using h
    obtain ⟨s1, h1, -, hr1⟩ := complete_T hT h'
    obtain ⟨ts', hs, ht, h2⟩ := h1.clean_cons
    refine ⟨_, h2, 0, fun s4 y ⟨f, hf⟩ => hr1 _ _ ⟨f + 1, fun f' hf' => ?_⟩⟩
    obtain ⟨f', rfl⟩ : ∃ g, f' = g + 1 := ⟨f' - 1, by omega⟩
    show post (f' + 1) x s1 = _
    rw [post_succ, hs, h1.2]; exact hf f' (by omega)
  | _, _, .exclamation u x hT, s, rest, e, h => by
    have h' : At s (u ++ .lexed .exclamation :: rest) e := by simpa using h
    obtain ⟨s1, h1, -, hr1⟩ := complete_T hT h'
    obtain ⟨ts', hs, ht, h2⟩ := h1.clean_cons
    refine ⟨_, h2, 0, fun s4 y ⟨f, hf⟩ => hr1 _ _ ⟨f + 1, fun f' hf' => ?_⟩⟩
    obtain ⟨f', rfl⟩ : ∃ g, f' = g + 1 := ⟨f' - 1, by omega⟩
    show post (f' + 1) x s1 = _
    rw [post_succ, hs, h1.2]; exact hf f' (by omega)
  | _, _, .annotate u x v ss hT hSs, s, rest, e, h => by
    have h' : At s (u ++ .lexed .lBrace :: (v ++ .lexed .rBrace :: rest)) e := by simpa using h
    obtain ⟨s1, h1, -, hr1⟩ := complete_T hT h'
    obtain ⟨ts', hs, ht, h2⟩ := h1.clean_cons
    obtain ⟨s3, h3, f3, hr3⟩ := complete_Ss hSs h2 (by
      intro t ht; simp only [List.head?_cons, Option.some.injEq] at ht; rw [← ht]; exact ⟨rfl, rfl⟩)
    obtain ⟨s4, hr4, h4⟩ := token_reads (g := getRBrace) (msg := "}") (a := ()) h3 rfl
    refine ⟨s4, h4, 0, fun s5 y ⟨f, hf⟩ => hr1 _ _ ⟨f + f3 + 1, fun f' hf' => ?_⟩⟩
    obtain ⟨f', rfl⟩ : ∃ g, f' = g + 1 := ⟨f' - 1, by omega⟩
    show post (f' + 1) x s1 = _
    rw [post_succ, hs, h1.2]
    simp only
    rw [bind_of (hr3 f' (by omega)), bind_of hr4]; exact hf f' (by omega)

theorem complete_Ss : ∀ {u : List (Tok F)} {xs : List (Sexp F)}, Spec.Ss u xs → ∀ {s rest e}, At s (u ++ rest) e → Stop rest →
    ∃ s', At s' rest e ∧ Reads seq s xs s'
  | _, _, .nil, s, rest, e, h, hstop => by
    refine ⟨clean s, h.clean, 1, fun f hf => ?_⟩
    obtain ⟨f, rfl⟩ : ∃ g, f = g + 1 := ⟨f - 1, by omega⟩
    rw [seq_succ]
    cases rest with
    | nil => rw [show clean s = ⟨[], e⟩ from h.clean_nil]; rfl
    | cons t ts =>
      obtain ⟨ts', hs, ht, -⟩ := At.clean_cons (t := t) (ts := ts) h
      rw [hs]
      simp only [List.head?_cons, (hstop t rfl).1]; rfl
  | _, _, .cons u x v xs hS hSs, s, rest, e, h, hstop => by
    have h' : At s (u ++ (v ++ rest)) e := by simpa using h
    obtain ⟨s1, h1, f1, hr1⟩ := complete_S hS h'.clean (Ss_noPost hSs hstop)
    obtain ⟨s2, h2, f2, hr2⟩ := complete_Ss hSs h1 hstop
    refine ⟨s2, h2, f1 + f2 + 1, fun f hf => ?_⟩
    obtain ⟨f, rfl⟩ : ∃ g, f = g + 1 := ⟨f - 1, by omega⟩
    obtain ⟨t, w, rfl, hst⟩ := S_starts hS
    obtain ⟨ts', hs, ht, -⟩ := At.clean_cons (t := t) (ts := w ++ (v ++ rest)) h'
    rw [seq_succ, hs]
    simp only [List.head?_cons, hst.1, if_true]
    rw [← hs]
    rw [bind_of (s' := s1) (a := some x), bind_of (hr2 f (by omega))]
    · rfl
    · simp only [swallow, hr1 f (by omega)]

theorem complete_B : ∀ {u : List (Tok F)} {x : Sexp F}, Spec.B u x → ∀ {s ts e}, At s (u ++ ts) e →
    (∃ c, ts = c :: ts.tail ∧ (c = .lexed .rParen ∨ c = .lexed .rBrack)) → ∃ s', At s' ts e ∧ Reads body s x s'
  | _, _, .list u ss hSs, s, ts, e, h, hc => by
    obtain ⟨c, hts, hc⟩ := hc
    obtain ⟨s1, h1, f1, hr1⟩ := complete_Ss hSs h (by
      intro t ht; rw [hts] at ht; simp only [List.head?_cons, Option.some.injEq] at ht; rw [← ht]
      rcases hc with rfl | rfl <;> exact ⟨rfl, rfl⟩)
    refine ⟨clean s1, h1.clean, f1 + 1, fun f hf => ?_⟩
    obtain ⟨f, rfl⟩ : ∃ g, f = g + 1 := ⟨f - 1, by omega⟩
    rw [body_succ, bind_of (hr1 f (by omega)), bodyTail]
    rw [hts] at h1
    obtain ⟨ts', hs, ht, -⟩ := h1.clean_cons
    rw [hs]
    rcases hc with rfl | rfl <;> rfl
  | _, _, .nested u ss v x hSs hB, s, ts, e, h, hc => by
    have h' : At s (u ++ .lexed .at :: (v ++ ts)) e := by simpa using h
    obtain ⟨s1, h1, f1, hr1⟩ := complete_Ss hSs h' (by
      intro t ht; simp only [List.head?_cons, Option.some.injEq] at ht; rw [← ht]; exact ⟨rfl, rfl⟩)
    obtain ⟨ts', hs, ht, h2⟩ := h1.clean_cons
    obtain ⟨s3, h3, f3, hr3⟩ := complete_B hB h2.clean hc
    refine ⟨s3, h3, f1 + f3 + 1, fun f hf => ?_⟩
    obtain ⟨f, rfl⟩ : ∃ g, f = g + 1 := ⟨f - 1, by omega⟩
    rw [body_succ, bind_of (hr1 f (by omega)), bodyTail, hs, h1.2]
    simp only
    rw [bind_of (hr3 f (by omega))]; rfl
  | _, _, .dotted u ss v x hSs hS, s, ts, e, h, hc => by
    have h' : At s (u ++ .lexed .dot :: (v ++ ts)) e := by simpa using h
    obtain ⟨s1, h1, f1, hr1⟩ := complete_Ss hSs h' (by
      intro t ht; simp only [List.head?_cons, Option.some.injEq] at ht; rw [← ht]; exact ⟨rfl, rfl⟩)
    obtain ⟨ts', hs, ht, h2⟩ := h1.clean_cons
    obtain ⟨c, hts, hc⟩ := hc
    obtain ⟨s3, h3, f3, hr3⟩ := complete_S hS h2 (by
      rw [hts]; refine NoPost.of_cons ?_
      rcases hc with rfl | rfl <;> rfl)
    refine ⟨s3, h3, f1 + f3 + 1, fun f hf => ?_⟩
    obtain ⟨f, rfl⟩ : ∃ g, f = g + 1 := ⟨f - 1, by omega⟩
    rw [body_succ, bind_of (hr1 f (by omega)), bodyTail, hs, h1.2]
    simp only
    rw [bind_of (hr3 f (by omega))]
    cases ss with
    | nil => rfl
    | cons b bs => rw [← mkListLike_eq]; rfl

end

theorem complete_sexps {ts us : List (Tok F)} {xs : List (Sexp F)} (hs : Spec.Strip ts us) (h : Spec.Ss us xs) :
    ∃ f, ∀ f', f ≤ f' → parse f' ts = some (.ok xs, [], []) := by
  have hat : At (⟨ts, []⟩ : St F) (us ++ []) [] := by
    rw [List.append_nil]; exact ⟨((strip_iff ts us).1 hs).symm, rfl⟩
  obtain ⟨s1, h1, f1, hr1⟩ := complete_Ss h hat.clean (by intro t ht; simp at ht)
  refine ⟨f1, fun f hf => ?_⟩
  have hc := h1.clean_nil
  have : sexps f ⟨ts, []⟩ = some (.ok xs, ⟨[], []⟩) := by
    rw [sexps, bind_of (capture_eq _), bind_of (hr1 f hf)]
    refine (bind_of (s' := ⟨[], []⟩) (a := ()) ?_)
    simp only [eof, peek_eq, hc, List.head?_nil]
  rw [parse, this]; rfl

theorem sound_sexps {fuel : Nat} {ts us : List (Tok F)} {xs : List (Sexp F)} {left} (hs : Spec.Strip ts us)
    (h : parse fuel ts = some (.ok xs, [], left)) : Spec.Ss us xs ∧ left = [] := by
  simp only [parse, Option.map_eq_some_iff, Prod.mk.injEq, Prod.exists] at h
  obtain ⟨r, s', h, rfl, he, rfl⟩ := h
  have heof : Sound (eof : P F Unit) (fun u _ rest => u = [] ∧ rest = []) := by
    refine sound_clean fun s r s' h => ?_
    rcases clean_cases s with ⟨e, hs, -⟩ | ⟨t, ts, e, hs, ht, -⟩
    · simp only [eof, peek_eq, hs, List.head?_nil, Option.some.injEq, Prod.mk.injEq] at h
      obtain ⟨rfl, rfl⟩ := h
      exact ⟨[], by rw [hs]; simp, fun x hx _ => ⟨[], by rw [hs]; rfl, rfl, rfl⟩⟩
    · simp only [eof, peek_eq, hs, List.head?_cons, expected_cons "eof" ht, Option.some.injEq, Prod.mk.injEq] at h
      obtain ⟨rfl, rfl⟩ := h
      exact ⟨[], by rw [hs]; simp, by intro x hx; cases hx⟩
  have hleft : s'.toks = [] := by
    rw [sexps, bind_of (capture_eq _), bind_eq] at h
    rcases hq : seq fuel (clean ⟨ts, []⟩) with _ | ⟨e | a, s1⟩
    · simp [hq] at h
    · rw [hq] at h; simp at h
    · rw [hq] at h
      simp only [bind_eq, eof, peek_eq] at h
      rcases clean_cases s1 with ⟨e, hs, -⟩ | ⟨t, ts, e, hs, ht, -⟩
      · rw [hs] at h; simp only [List.head?_nil, pure_eq, Option.some.injEq, Prod.mk.injEq] at h
        rw [← h.2]
      · rw [hs] at h; simp only [List.head?_cons, expected_cons "eof" ht] at h; simp at h
  refine ⟨?_, hleft⟩
  rw [sexps, bind_of (capture_eq _)] at h
  obtain ⟨m, hm, h1⟩ := Sound.bind (sound fuel).2.2.1 (fun a => Sound.bind heof (fun _ => sound_pure a)) _ _ _ h
  have hm0 : m = [] := by
    rw [he] at hm; simp only [errs_clean] at hm; simpa using hm.symm
  obtain ⟨u, hu, a, v, w, rfl, hSs, un, v', w', rfl, ⟨rfl, hrest⟩, rfl, rfl⟩ := h1 xs rfl hm0
  rw [view_clean] at hu
  have hv : view s' = [] := by rw [view, hleft]; rfl
  rw [hv] at hu
  rw [(strip_iff ts us).1 hs]
  have : ts.filter (fun t => !t.isAmbient) = v := by simpa [view] using hu
  rw [this]; exact hSs

theorem parse_mono {fuel fuel' : Nat} (h : fuel ≤ fuel') {ts : List (Tok F)} {r} (hr : parse fuel ts = some r) : parse fuel' ts = some r := by
  simp only [parse, Option.map_eq_some_iff] at hr ⊢
  obtain ⟨a, ha, rfl⟩ := hr
  refine ⟨a, ?_, rfl⟩
  rw [sexps] at ha ⊢
  exact Le.bind (Le.refl _) (fun _ => Le.bind (mono_le h).2.2.1 (fun _ => Le.refl _)) _ _ ha

theorem seq_eof (fuel : Nat) (ts : List (Tok F)) (e) : (seq fuel : P F (List (Sexp F))) ⟨.eof :: ts, e⟩ = none := by
  induction fuel generalizing e with
  | zero => rfl
  | succ fuel ih =>
    rw [seq_succ, clean_cons rfl]
    simp only [List.head?_cons, leadsSexp, if_true]
    cases fuel with
    | zero => rfl
    | succ fuel =>
      have h : swallow (sexp (fuel + 1)) ⟨.eof :: ts, e⟩ = some (.ok none, ⟨.eof :: ts, e ++ [⟨.eof, "S-expression"⟩]⟩) := by
        rw [swallow, sexp_succ, clean_cons rfl]; rfl
      rw [bind_of h, bind_eq, ih]

end Verif.Parser
