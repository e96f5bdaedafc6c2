import Verif.Parser.Lemmas

/-! # Lemmas: the parser makes progress on tokens without `Eof` -/
namespace Verif.Parser
open Verif.Lexer (TokenRep)

variable {F : Type}

/-- The tokens of `s'` are what is left of those of `s`, and its errors are those of `s` and further ones. -/
def Ext (s s' : St F) : Prop := s'.toks <:+ s.toks ∧ ∃ more, s'.errs = s.errs ++ more

theorem Ext.refl (s : St F) : Ext s s := ⟨List.suffix_rfl, [], by simp⟩
theorem Ext.trans {s s' s'' : St F} (h : Ext s s') (h' : Ext s' s'') : Ext s s'' := by
  obtain ⟨a, m, hm⟩ := h
  obtain ⟨b, n, hn⟩ := h'
  exact ⟨b.trans a, m ++ n, by rw [hn, hm, List.append_assoc]⟩
theorem Ext.clean (s : St F) : Ext s (clean s) := ⟨List.dropWhile_suffix _, [], by simp⟩
theorem Ext.cons (t : Tok F) (ts e) : Ext ⟨t :: ts, e⟩ ⟨ts, e⟩ := ⟨List.suffix_cons _ _, [], by simp⟩
theorem Ext.le {s s' : St F} (h : Ext s s') : s'.toks.length ≤ s.toks.length := h.1.length_le
theorem Ext.noEof {s s' : St F} (h : Ext s s') (hn : Tok.eof ∉ s.toks) : Tok.eof ∉ s'.toks := fun hm => hn (h.1.subset hm)

/-- `p` from `s` ends in a way that satisfies `A`. -/
def Ends {α} (p : P F α) (s : St F) (A : Except (Err F) α → St F → Prop) : Prop := ∃ r s', p s = some (r, s') ∧ A r s'

theorem Ends.bind {α β} {p : P F α} {q : α → P F β} {s : St F} {A : Except (Err F) α → St F → Prop} {B : Except (Err F) β → St F → Prop}
    (hp : Ends p s A) (hq : ∀ a s1, A (.ok a) s1 → Ends (q a) s1 B) (he : ∀ e s1, A (.error e) s1 → B (.error e) s1) :
    Ends (p >>= q) s B := by
  obtain ⟨r, s1, h, ha⟩ := hp
  rcases r with e | a
  · exact ⟨.error e, s1, by rw [bind_eq, h], he e s1 ha⟩
  · obtain ⟨r, s2, h2, hb⟩ := hq a s1 ha
    exact ⟨r, s2, by rw [bind_eq, h]; exact h2, hb⟩

theorem Ends.mono {α} {p : P F α} {s : St F} {A B : Except (Err F) α → St F → Prop} (hp : Ends p s A) (h : ∀ r s', A r s' → B r s') :
    Ends p s B := by
  obtain ⟨r, s1, hp, ha⟩ := hp
  exact ⟨r, s1, hp, h _ _ ha⟩

theorem token_ends {α} (g : Tok F → Option α) (msg) (s : St F) : Ends (token g msg) s (fun _ s' => Ext s s') := by
  refine Exists.elim (?_ : Ends (token g msg) (clean s) (fun _ s' => Ext (clean s) s')) fun r h => ?_
  · rcases clean_cases s with ⟨e, hs, -⟩ | ⟨t, ts, e, hs, ht, -⟩
    · rw [hs]; exact ⟨_, _, token_nil g msg e, Ext.refl _⟩
    · rw [hs]
      cases hg : g t with
      | none => exact ⟨_, _, token_no msg ht hg ts e, Ext.refl _⟩
      | some a => exact ⟨_, _, token_yes msg ht hg ts e, Ext.cons _ _ _⟩
  · obtain ⟨s', h, he⟩ := h
    exact ⟨r, s', by rw [token_eq]; exact h, (Ext.clean s).trans he⟩

theorem recover_suffix (ts : List (Tok F)) : recover ts <:+ ts := by
  induction ts with
  | nil => exact List.suffix_rfl
  | cons t ts ih =>
    simp only [recover]
    split
    · exact ih.trans (List.suffix_cons _ _)
    · split
      · exact List.suffix_rfl
      · exact ih.trans (List.suffix_cons _ _)

/-- A token at which `sexp` gets stuck is not one that starts an S-expression, or is dropped by the recovery. -/
def Stuck (s : St F) : Prop := ∀ t ts, s.toks = t :: ts → t.isAmbient = false → leadsSexp t = true → followsSexp t = false

theorem swallow_ends {α} {p : P F α} {s : St F} {A : Except (Err F) α → St F → Prop} (h : Ends p s A) :
    Ends (swallow p) s (fun r s' => (∃ a, r = .ok (some a) ∧ A (.ok a) s') ∨
      (∃ e s1, r = .ok none ∧ A (.error e) s1 ∧ s' = ⟨recover s1.toks, s1.errs ++ [e]⟩)) := by
  obtain ⟨r, s1, h, ha⟩ := h
  rcases r with e | a
  · exact ⟨_, _, by simp only [swallow, h], .inr ⟨e, s1, rfl, ha, rfl⟩⟩
  · exact ⟨_, _, by simp only [swallow, h], .inl ⟨a, rfl, ha⟩⟩

theorem progress (fuel : Nat) : ∀ (s : St F), Tok.eof ∉ s.toks →
    (3 * s.toks.length + 1 ≤ fuel → Ends (sexp fuel) s (fun r s' => Ext s s' ∧
      (s'.toks.length < s.toks.length ∨ (∃ e, r = .error e) ∧ s' = clean s ∧ Stuck s'))) ∧
    (3 * s.toks.length + 1 ≤ fuel → ∀ x, Ends (post fuel x) s (fun _ s' => Ext s s')) ∧
    (3 * s.toks.length + 2 ≤ fuel → Ends (seq fuel) s (fun r s' => Ext s s' ∧ (∃ l, r = .ok l))) ∧
    (3 * s.toks.length + 3 ≤ fuel → Ends (body fuel) s (fun _ s' => Ext s s')) := by
  induction fuel with
  | zero => intro s _; exact ⟨fun h => by omega, fun h => by omega, fun h => by omega, fun h => by omega⟩
  | succ fuel ih =>
    intro s hn
    have hc := Ext.clean s
    have hcl := hc.le
    have hcn := hc.noEof hn
    refine ⟨fun hf => ?_, fun hf x => ?_, fun hf => ?_, fun hf => ?_⟩
    · obtain ⟨r, s', h, hA⟩ : Ends (dispatch fuel >>= post fuel) (clean s) (fun r s' => Ext (clean s) s' ∧
          (s'.toks.length < (clean s).toks.length ∨ (∃ e, r = .error e) ∧ s' = clean s ∧ Stuck s')) := by
        refine Ends.bind (A := fun r s' => Ext (clean s) s' ∧
          (s'.toks.length < (clean s).toks.length ∨ (∃ e, r = .error e) ∧ s' = clean s ∧ Stuck s')) ?_ ?_ ?_
        · rcases clean_cases s with ⟨e, hs, -⟩ | ⟨t, ts, e, hs, ht, -⟩
          · rw [hs]
            exact ⟨_, _, rfl, Ext.refl _, .inr ⟨⟨_, rfl⟩, rfl, by intro t ts h; simp at h⟩⟩
          · rw [hs] at hcl hcn ⊢
            have hE := Ext.cons t ts e
            simp only [List.length_cons] at hcl
            have hn' := hE.noEof hcn
            obtain ⟨i1, -, -, i4⟩ := ih ⟨ts, e⟩ hn'
            replace i1 := i1 (by simp only; omega)
            have hm : ∀ name, Ends (sexp fuel >>= fun x => pure (.list [.symbol name, x]) : P F (Sexp F)) ⟨ts, e⟩
                (fun r s' => Ext ⟨t :: ts, e⟩ s' ∧ (s'.toks.length < (t :: ts).length ∨ (∃ e, r = .error e) ∧ s' = ⟨t :: ts, e⟩ ∧ Stuck s')) := by
              intro name
              refine Ends.bind i1 (fun a s1 h => ⟨_, _, rfl, hE.trans h.1, .inl ?_⟩) (fun e s1 h => ⟨hE.trans h.1, .inl ?_⟩) <;>
              · have := h.1.le
                simp only [List.length_cons] at this ⊢; omega
            have hb : ∀ (g : Tok F → Option Unit) msg, 3 * ts.length + 3 ≤ fuel →
                Ends (body fuel >>= fun r => token g msg >>= fun _ => pure r : P F (Sexp F)) ⟨ts, e⟩
                (fun r s' => Ext ⟨t :: ts, e⟩ s' ∧ (s'.toks.length < (t :: ts).length ∨ (∃ e, r = .error e) ∧ s' = ⟨t :: ts, e⟩ ∧ Stuck s')) := by
              intro g msg hf
              refine Ends.mono (A := fun _ s' => Ext ⟨ts, e⟩ s') ?_ (fun r s' h => ⟨hE.trans h, .inl ?_⟩)
              · exact Ends.bind (i4 hf) (fun a s1 h => Ends.bind (token_ends g msg s1) (fun _ s2 h2 => ⟨_, _, rfl, h.trans h2⟩)
                  (fun _ s2 h2 => h.trans h2)) (fun e s1 h => h)
              · have := h.le
                simp only [List.length_cons] at this ⊢; omega
            have hlt : ts.length < (t :: ts).length := by simp
            have hok : ∀ x : Sexp F, (fun r s' => Ext ⟨t :: ts, e⟩ s' ∧ (s'.toks.length < (t :: ts).length ∨ (∃ e, r = .error e) ∧ s' = ⟨t :: ts, e⟩ ∧ Stuck s'))
                (.ok x : Except (Err F) (Sexp F)) ⟨ts, e⟩ := fun x => ⟨hE, .inl hlt⟩
            have hst : (leadsSexp t = true → followsSexp t = false) → ∀ er, (fun r s' => Ext ⟨t :: ts, e⟩ s' ∧ (s'.toks.length < (t :: ts).length ∨ (∃ e, r = .error e) ∧ s' = ⟨t :: ts, e⟩ ∧ Stuck s'))
                (.error er : Except (Err F) (Sexp F)) ⟨t :: ts, e⟩ := fun h er => ⟨Ext.refl _, .inr ⟨⟨_, rfl⟩, rfl, by
                  intro t' ts' h' _; simp only [List.cons.injEq] at h'; rw [← h'.1]; exact h⟩⟩
            have hf' : 3 * ts.length + 3 ≤ fuel := by omega
            rcases t with rep | _
            · cases rep <;> first
                | (simp [Tok.isAmbient] at ht; done)
                | exact ⟨_, _, rfl, hok _⟩
                | exact hb _ _ hf'
                | exact hm _
                | exact ⟨_, _, rfl, hst (by intro; first | rfl | contradiction) _⟩
            · simp at hcn
        · intro a s1 h
          rcases h with ⟨hE, hlt | ⟨⟨e, he⟩, -⟩⟩
          · have hn1 := hE.noEof hcn
            refine Ends.mono ((ih s1 hn1).2.1 (by omega) a) (fun r s' h => ⟨hE.trans h, .inl ?_⟩)
            have := h.le; omega
          · cases he
        · intro e s1 h
          refine ⟨h.1, ?_⟩
          rcases h.2 with h | ⟨-, h1, h2⟩
          · exact .inl h
          · exact .inr ⟨⟨e, rfl⟩, h1, h2⟩
      refine ⟨r, s', by rw [sexp_succ]; exact h, hc.trans hA.1, ?_⟩
      rcases hA.2 with h | h
      · exact .inl (by omega)
      · exact .inr h
    · refine Exists.elim (?_ : Ends (post (fuel + 1) x) s (fun _ s' => Ext (clean s) s')) fun r ⟨s', h, hA⟩ => ⟨r, s', h, hc.trans hA⟩
      rw [Ends, post_succ]
      have he : s.errs = (clean s).errs := rfl
      rw [he]
      generalize hcs : clean s = c at *
      obtain ⟨ct, ce⟩ := c
      simp only at hcl hcn ⊢
      split
      · have hE := Ext.cons (F := F) (.lexed .question) ‹_› ce
        have := (ih _ (hE.noEof hcn)).2.1 (by simp only [List.length_cons] at hcl ⊢; omega) (.list [.symbol TRY_QUESTION, x])
        exact Ends.mono this fun _ _ h => hE.trans h
      · have hE := Ext.cons (F := F) (.lexed .exclamation) ‹_› ce
        have := (ih _ (hE.noEof hcn)).2.1 (by simp only [List.length_cons] at hcl ⊢; omega) (.list [.symbol TRY_EXCLAMATION, x])
        exact Ends.mono this fun _ _ h => hE.trans h
      · have hE := Ext.cons (F := F) (.lexed .lBrace) ‹_› ce
        have hi := ih _ (hE.noEof hcn)
        simp only [List.length_cons] at hcl
        refine Ends.bind (hi.2.2.1 (by simp only; omega)) (fun a s1 h => Ends.bind (token_ends _ _ s1) (fun _ s2 h2 => ?_)
          (fun _ s2 h2 => hE.trans (h.1.trans h2))) (fun _ s1 h => hE.trans h.1)
        have hE2 := hE.trans (h.1.trans h2)
        refine Ends.mono ((ih s2 (hE2.noEof hcn)).2.1 ?_ _) (fun _ _ h => hE2.trans h)
        have h1 := h.1.le
        have h2 := h2.le
        simp only at h1; omega
      · exact ⟨_, _, rfl, Ext.refl _⟩
    · refine Exists.elim (?_ : Ends (seq (fuel + 1)) s (fun r s' => Ext (clean s) s' ∧ (∃ l, r = .ok l))) fun r ⟨s', h, hA⟩ => ⟨r, s', h, hc.trans hA.1, hA.2⟩
      rw [Ends, seq_succ]
      split
      · rename_i t hh
        split
        · rename_i hl
          refine Ends.bind (swallow_ends ((ih _ hcn).1 (by omega))) (fun a s1 h => ?_) (fun e s1 h => ?_)
          · have hE : Ext (clean s) s1 ∧ s1.toks.length < (clean s).toks.length := by
              rcases h with ⟨a, -, h, h'⟩ | ⟨e, s2, -, ⟨h, h'⟩, rfl⟩
              · exact ⟨h, h'.resolve_right (by rintro ⟨⟨e, he⟩, -⟩; cases he)⟩
              · have hr := recover_suffix s2.toks
                refine ⟨⟨hr.trans h.1, ?_⟩, ?_⟩
                · obtain ⟨m, hm⟩ := h.2
                  exact ⟨m ++ [e], by simp only [hm, List.append_assoc]⟩
                · rcases h' with h' | ⟨-, h1, h2⟩
                  · exact Nat.lt_of_le_of_lt hr.length_le h'
                  · rcases clean_cases s with ⟨e', hs, -⟩ | ⟨t', ts, e', hs, ht, -⟩
                    · rw [hs] at hh; simp at hh
                    · rw [h1, clean_clean, hs] at h2
                      rw [hs] at hh
                      simp only [List.head?_cons, Option.some.injEq] at hh
                      have := h2 t' ts rfl ht (by rw [hh]; exact hl)
                      rw [h1, clean_clean, hs]
                      simp only [recover, ht, this, List.length_cons]
                      exact Nat.lt_succ_of_le (recover_suffix ts).length_le
            have hn1 := hE.1.noEof hcn
            refine Ends.bind ((ih s1 hn1).2.2.1 (by omega)) (fun l s2 h2 => ⟨_, _, rfl, hE.1.trans h2.1, _, rfl⟩)
              (fun e s2 h2 => ?_)
            obtain ⟨-, l, hl⟩ := h2; cases hl
          · rcases h with ⟨a, h, -⟩ | ⟨e, s2, h, -⟩ <;> cases h
        · exact ⟨_, _, rfl, Ext.refl _, _, rfl⟩
      · exact ⟨_, _, rfl, Ext.refl _, _, rfl⟩
    · rw [Ends, body_succ]
      refine Ends.bind ((ih s hn).2.2.1 (by omega)) (fun items s1 h => ?_) (fun e s1 h => h.1)
      have hE1 := h.1.trans (Ext.clean s1)
      have hn1 := hE1.noEof hn
      have hl1 := hE1.le
      have he : s1.errs = (clean s1).errs := rfl
      rw [Ends, bodyTail, he]
      generalize clean s1 = c at *
      obtain ⟨ct, ce⟩ := c
      simp only at hl1 hn1 ⊢
      split
      · have hE := Ext.cons (F := F) (.lexed .at) ‹_› ce
        have hE' := hE.trans (Ext.clean _)
        have := hE'.le
        simp only [List.length_cons] at hl1 this
        refine Ends.bind ((ih _ (hE'.noEof hn1)).2.2.2 (by
          have := (Ext.clean (⟨‹List (Tok F)›, ce⟩ : St F)).le
          simp only at this; omega)) (fun a s2 h2 => ⟨_, _, rfl, hE1.trans (hE'.trans h2)⟩) (fun e s2 h2 => hE1.trans (hE'.trans h2))
      · have hE := Ext.cons (F := F) (.lexed .dot) ‹_› ce
        simp only [List.length_cons] at hl1
        refine Ends.bind ((ih _ (hE.noEof hn1)).1 (by simp only; omega)) (fun a s2 h2 => ⟨_, _, rfl, hE1.trans (hE.trans h2.1)⟩)
          (fun e s2 h2 => hE1.trans (hE.trans h2.1))
      · exact ⟨_, _, rfl, hE1⟩

/-- On tokens without `Eof`, parsing ends; a result comes only when every token was read, and the errors are at most those told. -/
theorem sexps_ends (ts : List (Tok F)) (hn : Tok.eof ∉ ts) (fuel : Nat) (hf : 3 * ts.length + 2 ≤ fuel) :
    Ends (sexps fuel) ⟨ts, []⟩ (fun r s' => s'.toks <:+ ts ∧ ((∃ ss, r = .ok ss) → s'.toks = [])) := by
  have hc := Ext.clean (⟨ts, []⟩ : St F)
  have hl := hc.le
  simp only [sexps]
  rw [Ends, bind_of (capture_eq _)]
  refine Ends.bind ((progress fuel _ (hc.noEof hn)).2.2.1 (by simp only at hl; omega)) (fun ss s1 h => ?_) (fun e s1 h => ?_)
  · have hE := (hc.trans h.1).trans (Ext.clean s1)
    rcases clean_cases s1 with ⟨e, hs, -⟩ | ⟨t, ts', e, hs, ht, -⟩
    · refine ⟨.ok ss, ⟨[], e⟩, ?_, List.nil_suffix, fun _ => rfl⟩
      refine (bind_of (s' := ⟨[], e⟩) (a := ()) ?_)
      simp only [eof, peek_eq, hs, List.head?_nil]
    · rw [hs] at hE
      refine ⟨.error ⟨t, "eof"⟩, ⟨t :: ts', e⟩, ?_, hE.1, ?_⟩
      · rw [bind_eq]
        simp only [eof, peek_eq, hs, List.head?_cons, expected_cons "eof" ht]
      · rintro ⟨ss, h⟩; cases h
  · obtain ⟨-, l, h⟩ := h; cases h

end Verif.Parser
