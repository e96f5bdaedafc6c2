import Verif.Parser.Model

/-! # Lemmas about the parser: one step of each function, fuel, and progress -/
namespace Verif.Parser
open Verif.Lexer (TokenRep)

variable {F : Type}

/-- The parser after its leading ambient tokens were dropped. -/
def clean (s : St F) : St F := { s with toks := s.toks.dropWhile Tok.isAmbient }

/-- The tokens that are not ambient. -/
def view (s : St F) : List (Tok F) := s.toks.filter (fun t => !t.isAmbient)

theorem bind_eq {α β} (p : P F α) (q : α → P F β) (s : St F) :
    (p >>= q) s = match p s with
      | none => none
      | some (.error e, s) => some (.error e, s)
      | some (.ok a, s) => q a s := rfl

theorem pure_eq {α} (a : α) (s : St F) : (pure a : P F α) s = some (.ok a, s) := rfl

theorem bind_of {α β} {p : P F α} {q : α → P F β} {s s' : St F} {a : α} (h : p s = some (.ok a, s')) :
    (p >>= q) s = q a s' := by rw [bind_eq, h]

theorem dropWhile_clean (ts : List (Tok F)) :
    (ts.dropWhile Tok.isAmbient).dropWhile Tok.isAmbient = ts.dropWhile Tok.isAmbient := by
  induction ts with
  | nil => rfl
  | cons t ts ih =>
    by_cases h : t.isAmbient
    · simp [List.dropWhile_cons, h, ih]
    · simp [h]

theorem clean_clean (s : St F) : clean (clean s) = clean s := by
  simp [clean, dropWhile_clean]

theorem filter_clean (ts : List (Tok F)) :
    (ts.dropWhile Tok.isAmbient).filter (fun t => !t.isAmbient) = ts.filter (fun t => !t.isAmbient) := by
  induction ts with
  | nil => rfl
  | cons t ts ih =>
    by_cases h : t.isAmbient
    · simp [List.dropWhile_cons, h, ih]
    · simp [h]

@[simp] theorem view_clean (s : St F) : view (clean s) = view s := filter_clean s.toks
@[simp] theorem errs_clean (s : St F) : (clean s).errs = s.errs := rfl

/-- A clean parser is at its end or at a token that is not ambient. -/
theorem clean_cases (s : St F) :
    (∃ e, clean s = ⟨[], e⟩ ∧ view s = []) ∨
    (∃ t ts e, clean s = ⟨t :: ts, e⟩ ∧ t.isAmbient = false ∧ view s = t :: view ⟨ts, e⟩) := by
  rcases s with ⟨toks, e⟩
  induction toks with
  | nil => exact .inl ⟨e, rfl, rfl⟩
  | cons t ts ih =>
    by_cases h : t.isAmbient
    · have h1 : clean ⟨t :: ts, e⟩ = clean ⟨ts, e⟩ := by simp [clean, List.dropWhile_cons, h]
      have h2 : view ⟨t :: ts, e⟩ = view ⟨ts, e⟩ := by simp [view, h]
      rw [h1, h2]; exact ih
    · exact .inr ⟨t, ts, e, by simp [clean, List.dropWhile_cons, h], by simpa using h, by simp [view, h]⟩

theorem peek_eq (s : St F) : peek s = ((clean s).toks.head?, clean s) := rfl

theorem clean_nil (e : List (Err F)) : clean ⟨[], e⟩ = ⟨[], e⟩ := rfl
theorem clean_cons {t : Tok F} (h : t.isAmbient = false) (ts e) : clean ⟨t :: ts, e⟩ = ⟨t :: ts, e⟩ := by
  simp [clean, List.dropWhile_cons, h]

theorem capture_eq (s : St F) : (capture : P F Unit) s = some (.ok (), clean s) := rfl

theorem should_eq (L : Tok F → Bool) (s : St F) : should L s = should L (clean s) := by
  simp [should, peek_eq, clean_clean]
theorem should_nil (L : Tok F → Bool) (e) : should L ⟨[], e⟩ = some (.ok false, ⟨[], e⟩) := rfl
theorem should_cons (L : Tok F → Bool) {t : Tok F} (h : t.isAmbient = false) (ts e) :
    should L ⟨t :: ts, e⟩ = some (.ok (L t), ⟨t :: ts, e⟩) := by
  simp [should, peek_eq, clean_cons h]

theorem tryParse_eq {α} (L : Tok F → Bool) (p : P F α) (s : St F) : tryParse L p s = tryParse L p (clean s) := by
  simp only [tryParse, bind_eq, should_eq L s, should_eq L (clean s), clean_clean]
theorem tryParse_nil {α} (L : Tok F → Bool) (p : P F α) (e) : tryParse L p ⟨[], e⟩ = some (.ok none, ⟨[], e⟩) := rfl
theorem tryParse_no {α} {L : Tok F → Bool} (p : P F α) {t : Tok F} (h : t.isAmbient = false) (hl : L t = false) (ts e) :
    tryParse L p ⟨t :: ts, e⟩ = some (.ok none, ⟨t :: ts, e⟩) := by
  simp [tryParse, bind_eq, should_cons L h, hl, pure_eq]
theorem tryParse_yes {α} {L : Tok F → Bool} (p : P F α) {t : Tok F} (h : t.isAmbient = false) (hl : L t = true) (ts e) :
    tryParse L p ⟨t :: ts, e⟩ = (p >>= fun a => pure (some a)) ⟨t :: ts, e⟩ := by
  simp [tryParse, bind_eq, should_cons L h, hl]

theorem expected_nil {α} (msg : String) (e) : (expected msg : P F α) ⟨[], e⟩ = some (.error ⟨.eof, msg⟩, ⟨[], e⟩) := rfl
theorem expected_cons {α} (msg : String) {t : Tok F} (h : t.isAmbient = false) (ts e) :
    (expected msg : P F α) ⟨t :: ts, e⟩ = some (.error ⟨t, msg⟩, ⟨t :: ts, e⟩) := by
  simp [expected, peek_eq, clean_cons h]

theorem token_eq {α} (g : Tok F → Option α) (msg) (s : St F) : token g msg s = token g msg (clean s) := by
  simp [token, peek_eq, clean_clean]
theorem token_nil {α} (g : Tok F → Option α) (msg) (e) :
    token g msg ⟨[], e⟩ = some (.error ⟨.eof, msg⟩, ⟨[], e⟩) := rfl
theorem token_yes {α} {g : Tok F → Option α} (msg) {t : Tok F} {a} (h : t.isAmbient = false) (hg : g t = some a) (ts e) :
    token g msg ⟨t :: ts, e⟩ = some (.ok a, ⟨ts, e⟩) := by
  simp [token, peek_eq, clean_cons h, hg, next, List.dropWhile_cons, h]
theorem token_no {α} {g : Tok F → Option α} (msg) {t : Tok F} (h : t.isAmbient = false) (hg : g t = none) (ts e) :
    token g msg ⟨t :: ts, e⟩ = some (.error ⟨t, msg⟩, ⟨t :: ts, e⟩) := by
  simp [token, peek_eq, clean_cons h, hg, expected_cons msg h]

/-- What `sexp` does before its loop, by the token it stands at. -/
def dispatch (fuel : Nat) : P F (Sexp F) := fun s =>
  let between (get : Tok F → Option Unit) (msg : String) : P F (Sexp F) :=
    body fuel >>= fun r => token get msg >>= fun _ => pure r
  let marked (name : List Char) : P F (Sexp F) := sexp fuel >>= fun x => pure (.list [.symbol name, x])
  match s.toks with
  | [] => some (.error ⟨.eof, "S-expression"⟩, s)
  | t :: ts =>
    let s' : St F := { s with toks := ts }
    match t with
    | .lexed (.signed i) => some (.ok (Sexp.ofSigned i), s')
    | .lexed (.unsigned n) => some (.ok (.integer false n), s')
    | .lexed (.fpNumber f) => some (.ok (.fpNumber f), s')
    | .lexed (.symbol x) => some (.ok (.symbol x), s')
    | .lexed (.string x) => some (.ok (.string x), s')
    | .lexed (.char c) => some (.ok (.char c), s')
    | .lexed .true => some (.ok (.bool true), s')
    | .lexed .false => some (.ok (.bool false), s')
    | .lexed .lParen => between getRParen ")" s'
    | .lexed .lBrack => between getRBrack "]" s'
    | .lexed .quote => marked QUOTE s'
    | .lexed .backquote => marked QUASIQUOTE s'
    | .lexed .comma => marked UNQUOTE s'
    | .lexed .commaAt => marked UNQUOTE_SPLICING s'
    | .lexed .backslash => marked CAPTURE s'
    | .lexed .tilde => marked LOAD s'
    | t => some (.error ⟨t, "S-expression"⟩, s)

theorem bind_some {α β} (p : P F α) (q : Option α → P F β) (s : St F) :
    ((p >>= fun a => pure (some a)) >>= q) s = (p >>= fun a => q (some a)) s := by
  simp only [bind_eq]
  rcases p s with _ | ⟨e | a, s'⟩ <;> rfl

theorem try_no {α β} {L : Tok F → Bool} (p : P F α) (q : Option α → P F β) {t : Tok F} (h : t.isAmbient = false) (hl : L t = false)
    (ts e) : (tryParse L p >>= q) ⟨t :: ts, e⟩ = q none ⟨t :: ts, e⟩ := bind_of (tryParse_no p h hl ts e)
theorem try_yes {α β} {L : Tok F → Bool} (p : P F α) (q : Option α → P F β) {t : Tok F} (h : t.isAmbient = false) (hl : L t = true)
    (ts e) : (tryParse L p >>= q) ⟨t :: ts, e⟩ = (p >>= fun a => q (some a)) ⟨t :: ts, e⟩ := by
  rw [← bind_some, bind_eq, tryParse_yes p h hl]; rfl
theorem try_nil {α β} {L : Tok F → Bool} (p : P F α) (q : Option α → P F β) (e) :
    (tryParse L p >>= q) ⟨[], e⟩ = q none ⟨[], e⟩ := rfl

theorem tok_yes {α β} {g : Tok F → Option α} (msg) (q : α → P F β) {t : Tok F} {a} (h : t.isAmbient = false) (hg : g t = some a) (ts e) :
    (token g msg >>= q) ⟨t :: ts, e⟩ = q a ⟨ts, e⟩ := bind_of (token_yes msg h hg ts e)

theorem bind_assoc' {α β γ} (p : P F α) (q : α → P F β) (r : β → P F γ) (s : St F) :
    ((p >>= q) >>= r) s = (p >>= fun a => q a >>= r) s := by
  simp only [bind_eq]
  rcases p s with _ | ⟨e | a, s'⟩ <;> rfl

theorem bind_pure' {α} (p : P F α) (s : St F) : (p >>= fun a => pure a) s = p s := by
  simp only [bind_eq, pure_eq]
  rcases p s with _ | ⟨e | a, s'⟩ <;> rfl

theorem bind_congr' {α β} (p : P F α) {q q' : α → P F β} (h : ∀ a s, q a s = q' a s) (s : St F) : (p >>= q) s = (p >>= q') s := by
  rw [show q = q' from funext fun a => funext fun s => h a s]

set_option maxRecDepth 4000 in
theorem sexp_succ (fuel : Nat) (s : St F) : sexp (fuel + 1) s = (dispatch fuel >>= post fuel) (clean s) := by
  simp only [sexp]
  rw [bind_of (capture_eq s), bind_of (capture_eq _), clean_clean]
  rw [bind_eq, bind_eq]
  congr 1
  rcases clean_cases s with ⟨e, hs, -⟩ | ⟨t, ts, e, hs, ht, -⟩
  · rw [hs]; rfl
  · rw [hs]
    rcases t with rep | _
    · cases rep <;> first
        | (simp [Tok.isAmbient] at ht; done)
        | skip
      all_goals
        repeat1' first
          | refine (try_no _ _ ht (by rfl) _ _).trans ?_
          | refine (try_yes _ _ ht (by rfl) _ _).trans ?_
          | refine (tok_yes _ _ ht (by rfl) _ _).trans ?_
          | rfl
          | exact bind_congr' _ (fun a s => bind_pure' _ s) _
          | exact (bind_of (capture_eq _)).trans ((congrArg _ (clean_cons ht _ _)).trans (tok_yes _ _ ht (by rfl) _ _))
          | refine (bind_assoc' _ _ _ _).trans ?_
    · repeat1' first
          | refine (try_no _ _ ht (by rfl) _ _).trans ?_
          | refine (try_yes _ _ ht (by rfl) _ _).trans ?_
          | rfl
theorem post_succ (fuel : Nat) (x : Sexp F) (s : St F) : post (fuel + 1) x s =
    match (clean s).toks with
    | .lexed .question :: ts => post fuel (.list [.symbol TRY_QUESTION, x]) ⟨ts, s.errs⟩
    | .lexed .exclamation :: ts => post fuel (.list [.symbol TRY_EXCLAMATION, x]) ⟨ts, s.errs⟩
    | .lexed .lBrace :: ts =>
      (seq fuel >>= fun ss => token getRBrace "}" >>= fun _ => post fuel (.list (.symbol ANNOTATE :: x :: ss))) ⟨ts, s.errs⟩
    | _ => some (.ok x, clean s) := by
  simp only [post]
  rw [bind_eq, tryParse_eq, ← bind_eq]
  rcases clean_cases s with ⟨e, hs, -⟩ | ⟨t, ts, e, hs, ht, -⟩
  · rw [hs]; rfl
  · have he : s.errs = e := by rw [← errs_clean, hs]
    rw [hs, he]
    rcases t with rep | _
    · cases rep <;> first
        | (simp [Tok.isAmbient] at ht; done)
        | skip
      all_goals
        repeat1' first
          | refine (try_no _ _ ht (by rfl) _ _).trans ?_
          | refine (try_yes _ _ ht (by rfl) _ _).trans ?_
          | refine (tok_yes _ _ ht (by rfl) _ _).trans ?_
          | rfl
    · repeat1' first
          | refine (try_no _ _ ht (by rfl) _ _).trans ?_
          | rfl

theorem seq_succ (fuel : Nat) (s : St F) : seq (fuel + 1) s =
    match (clean s).toks.head? with
    | some t =>
      if leadsSexp t then (swallow (sexp fuel) >>= fun a => seq fuel >>= fun more => pure (a.toList ++ more)) (clean s)
      else some (.ok [], clean s)
    | none => some (.ok [], clean s) := by
  simp only [seq]
  rw [bind_eq, should_eq]
  rcases clean_cases s with ⟨e, hs, -⟩ | ⟨t, ts, e, hs, ht, -⟩
  · rw [hs]; rfl
  · rw [hs, should_cons _ ht]
    simp only [List.head?_cons]
    by_cases h : leadsSexp t
    · simp only [h, if_true]
    · simp only [h]; rfl

/-- What `body` does after its items. -/
def bodyTail (fuel : Nat) (items : List (Sexp F)) : P F (Sexp F) := fun s =>
  match (clean s).toks with
  | .lexed .at :: ts => (body fuel >>= fun last => pure (.list (items ++ [last]))) (clean ⟨ts, s.errs⟩)
  | .lexed .dot :: ts => (sexp fuel >>= fun last => pure (match items with
      | [] => last
      | head :: items => Sexp.mkListLike head items last)) ⟨ts, s.errs⟩
  | _ => some (.ok (.list items), clean s)

theorem body_succ (fuel : Nat) (s : St F) : body (fuel + 1) s = (seq fuel >>= bodyTail fuel) s := by
  simp only [body]
  refine bind_congr' _ (fun items s => ?_) s
  rw [bodyTail]
  rw [bind_eq, tryParse_eq, ← bind_eq]
  rcases clean_cases s with ⟨e, hs, -⟩ | ⟨t, ts, e, hs, ht, -⟩
  · rw [hs]; rfl
  · have he : s.errs = e := by rw [← errs_clean, hs]
    rw [hs, he]
    rcases t with rep | _
    · cases rep <;> first
        | (simp [Tok.isAmbient] at ht; done)
        | skip
      all_goals
        repeat1' first
          | refine (try_no _ _ ht (by rfl) _ _).trans ?_
          | refine (try_yes _ _ ht (by rfl) _ _).trans ?_
          | refine (tok_yes _ _ ht (by rfl) _ _).trans ?_
          | rfl
          | (refine bind_congr' _ (fun a s => ?_) _; cases items <;> rfl)
    · repeat1' first
          | refine (try_no _ _ ht (by rfl) _ _).trans ?_
          | rfl

/-! ## Fuel -/

/-- `q` does what `p` does when `p` has enough fuel. -/
def Le {α} (p q : P F α) : Prop := ∀ s r, p s = some r → q s = some r

theorem Le.refl {α} (p : P F α) : Le p p := fun _ _ h => h

theorem Le.bind {α β} {p p' : P F α} {q q' : α → P F β} (h : Le p p') (hq : ∀ a, Le (q a) (q' a)) : Le (p >>= q) (p' >>= q') := by
  intro s r hr
  rw [bind_eq] at hr ⊢
  rcases hp : p s with _ | ⟨e | a, s'⟩
  · simp [hp] at hr
  · rw [h s _ hp]; rw [hp] at hr; exact hr
  · rw [h s _ hp]; rw [hp] at hr; exact hq a s' r hr

theorem Le.swallow {α} {p p' : P F α} (h : Le p p') : Le (swallow p) (swallow p') := by
  intro s r hr
  simp only [Parser.swallow] at hr ⊢
  rcases hp : p s with _ | ⟨e | a, s'⟩
  · simp [hp] at hr
  · rw [h s _ hp]; rw [hp] at hr; exact hr
  · rw [h s _ hp]; rw [hp] at hr; exact hr

theorem mono (fuel : Nat) :
    Le (sexp fuel : P F (Sexp F)) (sexp (fuel + 1)) ∧ (∀ x : Sexp F, Le (post fuel x) (post (fuel + 1) x)) ∧
    Le (seq fuel : P F (List (Sexp F))) (seq (fuel + 1)) ∧ Le (body fuel : P F (Sexp F)) (body (fuel + 1)) := by
  induction fuel with
  | zero =>
    refine ⟨?_, fun x => ?_, ?_, ?_⟩ <;> intro s r h <;> simp [sexp, post, seq, body] at h
  | succ fuel ih =>
    obtain ⟨i1, i2, i3, i4⟩ := ih
    refine ⟨?_, fun x => ?_, ?_, ?_⟩ <;> intro s r h
    · rw [sexp_succ] at h ⊢
      refine Le.bind (fun s r h => ?_) i2 _ _ h
      simp only [dispatch] at h ⊢
      split at h
      · exact h
      · split at h <;> first
          | exact h
          | exact Le.bind i4 (fun _ => Le.refl _) _ _ h
          | exact Le.bind i1 (fun _ => Le.refl _) _ _ h
          | (rename_i h1 h2 h3 h4 h5 h6 h7 h8 h9 h10 h11 h12 h13 h14 h15 h16; split <;> simp_all)
    · rw [post_succ] at h ⊢
      split at h
      · exact i2 _ _ _ h
      · exact i2 _ _ _ h
      · exact Le.bind i3 (fun _ => Le.bind (Le.refl _) (fun _ => i2 _)) _ _ h
      · exact h
    · rw [seq_succ] at h ⊢
      split at h
      · split at h
        · rename_i hl
          simp only [hl, if_true]
          exact Le.bind (Le.swallow i1) (fun _ => Le.bind i3 (fun _ => Le.refl _)) _ _ h
        · rename_i hl
          simp only [hl]; exact h
      · exact h
    · rw [body_succ] at h ⊢
      refine Le.bind i3 (fun items s r h => ?_) _ _ h
      rw [bodyTail] at h ⊢
      split at h
      · exact Le.bind i4 (fun _ => Le.refl _) _ _ h
      · exact Le.bind i1 (fun _ => Le.refl _) _ _ h
      · exact h

theorem mono_le {fuel fuel' : Nat} (h : fuel ≤ fuel') :
    Le (sexp fuel : P F (Sexp F)) (sexp fuel') ∧ (∀ x : Sexp F, Le (post fuel x) (post fuel' x)) ∧
    Le (seq fuel : P F (List (Sexp F))) (seq fuel') ∧ Le (body fuel : P F (Sexp F)) (body fuel') := by
  induction h with
  | refl => exact ⟨Le.refl _, fun _ => Le.refl _, Le.refl _, Le.refl _⟩
  | @step m _ ih =>
    obtain ⟨i1, i2, i3, i4⟩ := ih
    obtain ⟨m1, m2, m3, m4⟩ := mono (F := F) m
    exact ⟨fun s r h => m1 _ _ (i1 _ _ h), fun x s r h => m2 _ _ _ (i2 _ _ _ h), fun s r h => m3 _ _ (i3 _ _ h),
      fun s r h => m4 _ _ (i4 _ _ h)⟩

end Verif.Parser
