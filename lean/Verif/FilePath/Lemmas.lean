import Verif.StrOps.Props
import Verif.FilePath.Model
import Verif.FilePath.Spec

/-!
# Lemmas on paths
-/
namespace Verif.FilePath
open Verif.Utf8 Verif.StrOps Verif.StrOps.Spec Verif.FilePath.Spec

/-! ## Names -/

theorem pieces_ne_nil (p : List Nat) : pieces p ≠ [] := by
  cases p with
  | nil => simp [pieces]
  | cons c cs =>
    rw [pieces]
    split
    · simp
    · split <;> simp

theorem pieces_append (a b : List Nat) : pieces (a ++ 47 :: b) = pieces a ++ pieces b := by
  induction a with
  | nil => simp [pieces]
  | cons c cs ih =>
    rw [List.cons_append, pieces, pieces, ih]
    by_cases h : c = 47
    · simp [h]
    · rw [if_neg h, if_neg h]
      cases e : pieces cs with
      | nil => exact absurd e (pieces_ne_nil cs)
      | cons p ps => simp

theorem pieces_name (a : List Nat) (h : 47 ∉ a) : pieces a = [a] := by
  induction a with
  | nil => rfl
  | cons c cs ih =>
    rw [pieces, if_neg (fun e => h (by simp [e])), ih (fun e => h (by simp [e]))]

theorem names_nil : names [] = [] := rfl

theorem names_append (a b : List Nat) : names (a ++ 47 :: b) = names a ++ names b := by
  rw [names, pieces_append, List.filter_append]; rfl

theorem names_slash (b : List Nat) : names (47 :: b) = names b := by
  have := names_append [] b
  simpa [names_nil] using this

theorem names_name (a : List Nat) (h : 47 ∉ a) (hne : a ≠ []) : names a = [a] := by
  rw [names, pieces_name a h]
  cases a with
  | nil => exact absurd rfl hne
  | cons => rfl

/-- Every name in a path is non-empty and without slash. -/
theorem names_good (p : List Nat) : ∀ n ∈ names p, n ≠ [] ∧ 47 ∉ n := by
  have key : ∀ p : List Nat, ∀ n ∈ pieces p, 47 ∉ n := by
    intro p
    induction p with
    | nil => simp [pieces]
    | cons c cs ih =>
      rw [pieces]
      by_cases h : c = 47
      · rw [if_pos h]
        intro n hn
        rcases List.mem_cons.1 hn with rfl | hn
        · simp
        · exact ih n hn
      · rw [if_neg h]
        cases e : pieces cs with
        | nil => exact absurd e (pieces_ne_nil cs)
        | cons p ps =>
          intro n hn
          simp only [List.mem_cons] at hn
          rcases hn with rfl | hn
          · have := ih p (by rw [e]; simp)
            simp only [List.mem_cons, not_or]
            exact ⟨fun h' => h h'.symm, this⟩
          · exact ih n (by rw [e]; simp [hn])
  intro n hn
  obtain ⟨h1, h2⟩ := List.mem_filter.1 hn
  refine ⟨?_, key p n h1⟩
  rintro rfl
  simp at h2

theorem walk_append (loc : List (List Nat)) (a b : List (List Nat)) : walk loc (a ++ b) = walk (walk loc a) b := by
  simp [walk]

/-! ## Slashes -/

/-- The rest of a path after leading slashes. -/
def trim : List Nat → List Nat
  | [] => []
  | c :: cs => if c = 47 then trim cs else c :: cs

theorem trim_names (s : List Nat) : names (trim s) = names s := by
  induction s with
  | nil => rfl
  | cons c cs ih =>
    rw [trim]
    by_cases h : c = 47
    · rw [if_pos h, ih, h, names_slash]
    · rw [if_neg h]

theorem trim_head (s : List Nat) : ¬ absolute (trim s) := by
  induction s with
  | nil => simp [trim, absolute]
  | cons c cs ih =>
    rw [trim]
    by_cases h : c = 47
    · rwa [if_pos h]
    · rw [if_neg h]; simp [absolute, h]

theorem trim_length (s : List Nat) : (trim s).length ≤ s.length := by
  induction s with
  | nil => simp [trim]
  | cons c cs ih =>
    rw [trim]
    split
    · simp; omega
    · simp

theorem slash_text : Text [47] := text_ascii 47 (by omega)
theorem dot_text : Text [46] := text_ascii 46 (by omega)

theorem trim_text {s : List Nat} (h : Text s) : Text (trim s) := by
  induction s with
  | nil => exact h
  | cons c cs ih =>
    rw [trim]
    by_cases hc : c = 47
    · rw [if_pos hc]
      subst hc
      exact ih (text_tail slash_text (by simpa using h))
    · rwa [if_neg hc]

theorem skipSeps_eq (s : List Nat) (h : Text s) (fuel : Nat) (hf : s.length < fuel) : skipSeps fuel s = .ok (trim s) := by
  induction fuel generalizing s with
  | zero => omega
  | succ fuel ih =>
    rw [skipSeps]
    cases s with
    | nil => rw [if_neg (by simp)]; rfl
    | cons c cs =>
      rw [if_pos (by simp)]
      have hb : byteAt 0 (c :: cs) = .ok c := rfl
      rw [hb, StrOps.bind_ok, trim]
      by_cases hc : c = 47
      · rw [if_pos hc, if_pos hc]
        subst hc
        have ht : Text cs := text_tail slash_text (by simpa using h)
        have : skip 1 (47 :: cs) = .ok cs := skip_ok [47] cs slash_text ht
        rw [this, StrOps.bind_ok]
        exact ih cs ht (by simp at hf; omega)
      · rw [if_neg hc, if_neg hc]

/-! ## Components -/

/-- The component of a name. -/
def classify (n : List Nat) : Comp :=
  if n = [46] then .currentDir else if n = [46, 46] then .parentDir else .normal n

/-- What `components` gives. -/
def comps (p : List Nat) : List Comp := (if absolute p then [.rootDir] else []) ++ (names p).map classify

theorem startsWith_false {pre s : List Nat} (h : startsWith pre s ≠ true) : ∀ b, s ≠ pre ++ b :=
  fun b e => h ((startsWith_iff pre s).2 ⟨b, e⟩)

theorem comps_trim (s : List Nat) : comps (trim s) = (names s).map classify := by
  rw [comps, if_neg (trim_head s), trim_names]; rfl

theorem nextComp_spec (p : List Nat) (h : Text p) (hl : p.length < 2 ^ 64) :
    (p = [] ∧ nextComp p = .ok none) ∨
    ∃ c t, nextComp p = .ok (some (c, t)) ∧ Text t ∧ t.length < p.length ∧ comps p = c :: comps t := by
  unfold nextComp
  by_cases h0 : p.length = 0
  · exact .inl ⟨List.length_eq_zero_iff.1 h0, by rw [if_pos h0]⟩
  refine .inr ?_
  rw [if_neg h0]
  have hne : p ≠ [] := by intro e; simp [e] at h0
  by_cases h1 : startsWith [47] p = true
  · rw [if_pos h1]
    obtain ⟨b, rfl⟩ := (startsWith_iff _ _).1 h1
    have hb := text_tail slash_text h
    have : skip 1 ([47] ++ b) = .ok b := skip_ok [47] b slash_text hb
    rw [this, StrOps.bind_ok, skipSeps_eq b hb _ (by omega), StrOps.bind_ok]
    refine ⟨_, _, rfl, trim_text hb, by have := trim_length b; simp; omega, ?_⟩
    rw [comps_trim, comps, if_pos (by simp [absolute])]
    simp [names_slash]
  rw [if_neg h1]
  have habs : ¬ absolute p := by
    intro ha
    cases p with
    | nil => exact hne rfl
    | cons c cs =>
      simp [absolute] at ha
      exact startsWith_false h1 cs (by simp [ha])
  have hc : comps p = (names p).map classify := by rw [comps, if_neg habs]; rfl
  rw [hc]
  by_cases h2 : startsWith [46, 47] p = true
  · rw [if_pos h2]
    obtain ⟨b, rfl⟩ := (startsWith_iff _ _).1 h2
    have hd : Text [46, 47] := text_append dot_text slash_text
    have hb := text_tail hd h
    have : skip 2 ([46, 47] ++ b) = .ok b := skip_ok [46, 47] b hd hb
    rw [this, StrOps.bind_ok, skipSeps_eq b hb _ (by omega), StrOps.bind_ok]
    refine ⟨_, _, rfl, trim_text hb, by have := trim_length b; simp; omega, ?_⟩
    rw [comps_trim]
    have : names ([46, 47] ++ b) = [46] :: names b := by
      have := names_append [46] b
      rw [names_name [46] (by simp) (by simp)] at this
      simpa using this
    rw [this]; rfl
  rw [if_neg h2]
  by_cases h3 : startsWith [46, 46, 47] p = true
  · rw [if_pos h3]
    obtain ⟨b, rfl⟩ := (startsWith_iff _ _).1 h3
    have hd : Text [46, 46, 47] := text_append (a := [46]) dot_text (text_append (a := [46]) dot_text slash_text)
    have hb := text_tail hd h
    have : skip 3 ([46, 46, 47] ++ b) = .ok b := skip_ok [46, 46, 47] b hd hb
    rw [this, StrOps.bind_ok, skipSeps_eq b hb _ (by omega), StrOps.bind_ok]
    refine ⟨_, _, rfl, trim_text hb, by have := trim_length b; simp; omega, ?_⟩
    rw [comps_trim]
    have : names ([46, 46, 47] ++ b) = [46, 46] :: names b := by
      have := names_append [46, 46] b
      rw [names_name [46, 46] (by simp) (by simp)] at this
      simpa using this
    rw [this]; rfl
  rw [if_neg h3]
  rcases find_spec [47] p slash_text h hl with ⟨i, ⟨⟨a, b, e, rfl⟩, hmin⟩, hf⟩ | ⟨hn, hf⟩
  · rw [hf, StrOps.bind_ok]
    subst e
    have ha : Text a := text_before slash_text (by simp) h
    have hb : Text b := text_after slash_text (by simp) h
    have hsb : Text ([47] ++ b) := text_append slash_text hb
    have e1 : a ++ [47] ++ b = a ++ ([47] ++ b) := by simp
    have e2 : a ++ [47] ++ b = a ++ 47 :: b := by simp
    simp only [e1, take_ok a _ ha hsb, skip_ok a _ ha hsb, StrOps.bind_ok]
    rw [skipSeps_eq _ hsb _ (by omega), StrOps.bind_ok]
    have h47 : 47 ∉ a := by
      intro hm
      obtain ⟨x, y, rfl⟩ := List.append_of_mem hm
      have := hmin x.length ⟨x, y ++ [47] ++ b, by simp, rfl⟩
      simp at this
      omega
    have hane : a ≠ [] := by
      rintro rfl
      exact startsWith_false h1 b (by simp)
    have hn1 : a ≠ [46] := by
      rintro rfl
      exact startsWith_false h2 b (by simp)
    have hn2 : a ≠ [46, 46] := by
      rintro rfl
      exact startsWith_false h3 b (by simp)
    refine ⟨_, _, rfl, trim_text hsb, ?_, ?_⟩
    · have := trim_length ([47] ++ b)
      have := List.length_pos_iff.2 hane
      simp only [List.length_append, List.length_cons, List.length_nil] at *
      omega
    · rw [comps_trim, ← e1, e2, names_append, names_name a h47 hane]
      have : names ([47] ++ b) = names b := names_slash b
      rw [this]
      simp [classify, hn1, hn2]
  · rw [hf, StrOps.bind_ok]
    refine ⟨_, _, rfl, text_nil, by have := List.length_pos_iff.2 hne; simpa using this, ?_⟩
    have h47 : 47 ∉ p := by
      intro hm
      obtain ⟨x, y, e⟩ := List.append_of_mem hm
      exact hn x.length ⟨x, y, by rw [e]; simp, rfl⟩
    rw [names_name p h47 hne]
    rfl

theorem components_eq (fuel : Nat) : ∀ p, Text p → p.length < 2 ^ 64 → p.length < fuel → components fuel p = .ok (comps p) := by
  induction fuel with
  | zero => intro p _ _ h; omega
  | succ fuel ih =>
    intro p h hl hf
    rw [components]
    rcases nextComp_spec p h hl with ⟨rfl, e⟩ | ⟨c, t, e, ht, hlt, hc⟩
    · rw [e]; rfl
    · rw [e, StrOps.bind_ok]
      simp only [ih t ht (by omega) (by omega), StrOps.bind_ok]
      rw [hc]

theorem put_append (a b : List Comp) (buf : List (List Nat)) : put (a ++ b) buf = put b (put a buf) := by
  induction a generalizing buf with
  | nil => rfl
  | cons c a ih => cases c <;> simp [put, ih]

theorem put_names (ns : List (List Nat)) (buf : List (List Nat)) : put (ns.map classify) buf = walk buf ns := by
  induction ns generalizing buf with
  | nil => rfl
  | cons n ns ih =>
    rw [List.map_cons]
    have : walk buf (n :: ns) = walk (step buf n) ns := rfl
    rw [this, ← ih, classify, step]
    by_cases h1 : n = [46]
    · rw [if_pos h1, if_pos h1]; rfl
    · rw [if_neg h1, if_neg h1]
      by_cases h2 : n = [46, 46]
      · rw [if_pos h2, if_pos h2]; rfl
      · rw [if_neg h2, if_neg h2]; rfl

/-- Putting the components of a path is walking along it. -/
theorem put_comps (p : List Nat) (buf : List (List Nat)) : put (comps p) buf = denotes buf p := by
  rw [comps, put_append, put_names, denotes]
  by_cases h : absolute p
  · rw [if_pos h, if_pos h]; rfl
  · rw [if_neg h, if_neg h]; rfl

theorem init_eq (cwd : List Nat) (h : Text cwd) (hl : cwd.length < 2 ^ 64) : init cwd = .ok (denotes [] cwd) := by
  rw [init, components_eq _ cwd h hl (by omega), StrOps.bind_ok, put_comps]

/-! ## Locations and the way they are written -/

/-- A location made of proper names. -/
def Proper (loc : List (List Nat)) : Prop := ∀ n ∈ loc, n ≠ [] ∧ 47 ∉ n ∧ n ≠ [46] ∧ n ≠ [46, 46]

theorem step_proper {loc : List (List Nat)} {n : List Nat} (h : Proper loc) (hn : n ≠ [] ∧ 47 ∉ n) : Proper (step loc n) := by
  unfold step
  split
  · exact h
  · split
    · exact fun m hm => h m (List.dropLast_subset _ hm)
    · intro m hm
      rcases List.mem_append.1 hm with hm | hm
      · exact h m hm
      · rw [List.mem_singleton.1 hm]; exact ⟨hn.1, hn.2, ‹_›, ‹_›⟩

theorem walk_proper {loc : List (List Nat)} (h : Proper loc) (ns : List (List Nat)) (hn : ∀ n ∈ ns, n ≠ [] ∧ 47 ∉ n) : Proper (walk loc ns) := by
  induction ns generalizing loc with
  | nil => exact h
  | cons n ns ih => exact ih (step_proper h (hn n (by simp))) (fun m hm => hn m (by simp [hm]))

theorem denotes_proper {here : List (List Nat)} (h : Proper here) (p : List Nat) : Proper (denotes here p) := by
  unfold denotes
  split
  · exact walk_proper (by intro n hn; simp at hn) _ (names_good p)
  · exact walk_proper h _ (names_good p)

theorem complete_nil : complete [] = [] := rfl

theorem complete_cons (n : List Nat) (loc : List (List Nat)) : complete (n :: loc) = write (n :: loc) := by
  rw [complete, join_eq]
  induction loc generalizing n with
  | nil => simp [glue, write]
  | cons m loc ih =>
    have := ih m
    simp only [glue, List.nil_append] at this ⊢
    rw [write, ← this]
    simp

theorem names_write (loc : List (List Nat)) (h : Proper loc) : names (write loc) = loc := by
  induction loc with
  | nil => rfl
  | cons n loc ih =>
    obtain ⟨h1, h2, _, _⟩ := h n (by simp)
    cases loc with
    | nil => rw [write, names_slash, names_name n h2 h1]
    | cons m loc =>
      have ih := ih (fun x hx => h x (by simp [hx]))
      rw [write]
      have : ∃ t, write (m :: loc) = 47 :: t := by
        cases loc <;> exact ⟨_, rfl⟩
      obtain ⟨t, e⟩ := this
      rw [e] at ih ⊢
      rw [List.cons_append, names_slash, names_append, names_name n h2 h1, ← names_slash t, ih]
      rfl

theorem write_absolute (loc : List (List Nat)) : absolute (write loc) := by
  cases loc with
  | nil => rfl
  | cons n loc => cases loc <;> rfl

theorem walk_proper_eq (acc loc : List (List Nat)) (h : Proper loc) : walk acc loc = acc ++ loc := by
  induction loc generalizing acc with
  | nil => simp [walk]
  | cons n loc ih =>
    obtain ⟨_, _, h3, h4⟩ := h n (by simp)
    have : walk acc (n :: loc) = walk (step acc n) loc := rfl
    rw [this, step, if_neg h3, if_neg h4, ih _ (fun x hx => h x (by simp [hx]))]
    simp

/-- Writing a location and reading it back. -/
theorem denotes_write (here loc : List (List Nat)) (h : Proper loc) : denotes here (write loc) = loc := by
  rw [denotes, if_pos (write_absolute loc), names_write loc h, walk_proper_eq _ _ h]
  rfl

theorem walk_text {here : List (List Nat)} (h : ∀ n ∈ here, Text n) (ns : List (List Nat)) (hn : ∀ n ∈ ns, Text n) :
    ∀ n ∈ walk here ns, Text n := by
  induction ns generalizing here with
  | nil => exact h
  | cons m ns ih =>
    refine ih (here := step here m) ?_ (fun x hx => hn x (by simp [hx]))
    unfold step
    split
    · exact h
    · split
      · exact fun x hx => h x (List.dropLast_subset _ hx)
      · intro x hx
        rcases List.mem_append.1 hx with hx | hx
        · exact h x hx
        · rw [List.mem_singleton.1 hx]; exact hn m (by simp)

theorem pieces_glue (p : List Nat) : glue [47] (pieces p) = p := by
  induction p with
  | nil => rfl
  | cons c cs ih =>
    rw [pieces]
    cases e : pieces cs with
    | nil => exact absurd e (pieces_ne_nil cs)
    | cons q qs =>
      rw [e] at ih
      by_cases h : c = 47
      · rw [if_pos h, h, glue, ih]; rfl
      · rw [if_neg h]
        cases qs with
        | nil => simpa [glue] using ih
        | cons r rs =>
          simp only [glue] at ih ⊢
          rw [← ih]; simp

theorem pieces_text (ps : List (List Nat)) (h : Text (glue [47] ps)) : ∀ n ∈ ps, Text n := by
  induction ps with
  | nil => simp
  | cons p ps ih =>
    cases ps with
    | nil =>
      intro n hn
      rw [List.mem_singleton.1 hn]; exact h
    | cons q qs =>
      rw [glue] at h
      intro n hn
      rcases List.mem_cons.1 hn with rfl | hn
      · exact text_before slash_text (by simp) h
      · exact ih (text_after slash_text (by simp) h) n hn

theorem names_text {p : List Nat} (h : Text p) : ∀ n ∈ names p, Text n := by
  intro n hn
  refine pieces_text (pieces p) (by rw [pieces_glue]; exact h) n (List.mem_filter.1 hn).1

theorem write_text (loc : List (List Nat)) (h : ∀ n ∈ loc, Text n) : Text (write loc) := by
  induction loc with
  | nil => exact slash_text
  | cons n loc ih =>
    cases loc with
    | nil => exact text_append (a := [47]) slash_text (h n (by simp))
    | cons m loc => exact text_append (a := 47 :: n) (text_append (a := [47]) slash_text (h n (by simp))) (ih (fun x hx => h x (by simp [hx])))

theorem denotes_text {here : List (List Nat)} (h : ∀ n ∈ here, Text n) {p : List Nat} (hp : Text p) : ∀ n ∈ denotes here p, Text n := by
  unfold denotes
  split
  · exact walk_text (by simp) _ (names_text hp)
  · exact walk_text h _ (names_text hp)

/-! ## The last component -/

/-- A path is what comes before its last component, the component, and slashes. -/
theorem last_split (p : List Nat) : ∃ a b n, p = a ++ b ++ List.replicate n 47 ∧ 47 ∉ b ∧ (a = [] ∨ ∃ a', a = a' ++ [47]) ∧ (b = [] → a = []) := by
  have tail : ∀ p : List Nat, ∃ q n, p = q ++ List.replicate n 47 ∧ ∀ q', q ≠ q' ++ [47] := by
    intro p
    generalize hn : p.length = k
    induction k generalizing p with
    | zero => exact ⟨[], 0, by simp [List.length_eq_zero_iff.1 hn], by simp⟩
    | succ k ih =>
      rcases List.eq_nil_or_concat p with rfl | ⟨q, c, rfl⟩
      · simp at hn
      · rw [List.concat_eq_append] at *
        by_cases hc : c = 47
        · subst hc
          obtain ⟨r, n, e, h⟩ := ih q (by simpa using hn)
          refine ⟨r, n + 1, ?_, h⟩
          rw [e, List.append_assoc, List.replicate_succ']
        · refine ⟨q ++ [c], 0, by simp, fun q' e => ?_⟩
          have := List.append_inj' e rfl
          simp at this
          exact hc this.2
  have front : ∀ q : List Nat, ∃ a b, q = a ++ b ∧ 47 ∉ b ∧ (a = [] ∨ ∃ a', a = a' ++ [47]) := by
    intro q
    generalize hn : q.length = k
    induction k generalizing q with
    | zero => exact ⟨[], [], by simp [List.length_eq_zero_iff.1 hn], by simp, .inl rfl⟩
    | succ k ih =>
      rcases List.eq_nil_or_concat q with rfl | ⟨r, c, rfl⟩
      · simp at hn
      · rw [List.concat_eq_append] at *
        by_cases hc : c = 47
        · subst hc
          exact ⟨r ++ [47], [], by simp, by simp, .inr ⟨r, rfl⟩⟩
        · obtain ⟨a, b, e, h1, h2⟩ := ih r (by simpa using hn)
          refine ⟨a, b ++ [c], by rw [e]; simp, ?_, h2⟩
          simp only [List.mem_append, List.mem_singleton, not_or]
          exact ⟨h1, fun h => hc h.symm⟩
  obtain ⟨q, n, e, h⟩ := tail p
  obtain ⟨a, b, e', h1, h2⟩ := front q
  refine ⟨a, b, n, by rw [e, e'], h1, h2, ?_⟩
  rintro rfl
  rcases h2 with h2 | ⟨a', h2⟩
  · exact h2
  · exact absurd (by rw [e', h2]; simp) (h a')

theorem byteAt_ok (a : List Nat) (c : Nat) (b : List Nat) : byteAt a.length (a ++ c :: b) = .ok c := by
  simp [byteAt, lift]

theorem endLoop_eq (q : List Nat) (h : ∀ q', q ≠ q' ++ [47]) (n : Nat) (rest : List Nat) :
    endLoop (q ++ List.replicate n 47 ++ rest) (q.length + n) = .ok q.length := by
  induction n generalizing rest with
  | zero =>
    rcases List.eq_nil_or_concat q with rfl | ⟨r, c, rfl⟩
    · rfl
    · rw [List.concat_eq_append] at *
      have e : (r ++ [c]).length + 0 = r.length + 1 := by simp
      have e2 : r ++ [c] ++ List.replicate 0 47 ++ rest = r ++ c :: rest := by simp
      rw [e, e2, endLoop, byteAt_ok, StrOps.bind_ok, if_neg]
      · simp
      · rintro rfl; exact h r rfl
  | succ n ih =>
    have e : q.length + (n + 1) = (q ++ List.replicate n 47).length + 1 := by simp; omega
    have e2 : q ++ List.replicate (n + 1) 47 ++ rest = (q ++ List.replicate n 47) ++ 47 :: rest := by
      rw [List.replicate_succ']; simp
    rw [e, e2, endLoop, byteAt_ok, StrOps.bind_ok, if_pos rfl]
    have := ih (47 :: rest)
    simpa using this

theorem startLoop_eq (a : List Nat) (ha : a = [] ∨ ∃ a', a = a' ++ [47]) (b : List Nat) (hb : 47 ∉ b) (rest : List Nat) :
    startLoop (a ++ b ++ rest) (a.length + b.length) = .ok a.length := by
  generalize hn : b.length = k
  induction k generalizing b rest with
  | zero =>
    have : b = [] := List.length_eq_zero_iff.1 hn
    subst this
    rcases ha with rfl | ⟨a', rfl⟩
    · rfl
    · have e : (a' ++ [47]).length + 0 = a'.length + 1 := by simp
      have e2 : a' ++ [47] ++ [] ++ rest = a' ++ 47 :: rest := by simp
      rw [e, e2, startLoop, byteAt_ok, StrOps.bind_ok, if_neg (by simp)]
      simp
  | succ k ih =>
    rcases List.eq_nil_or_concat b with rfl | ⟨r, c, rfl⟩
    · simp at hn
    · rw [List.concat_eq_append] at *
      have hk : r.length = k := by simpa using hn
      have e : a.length + (k + 1) = (a ++ r).length + 1 := by simp; omega
      have e2 : a ++ (r ++ [c]) ++ rest = (a ++ r) ++ c :: rest := by simp
      rw [e, e2, startLoop, byteAt_ok, StrOps.bind_ok, if_pos (by rintro rfl; simp at hb)]
      have := ih r (fun h => hb (by simp [h])) (c :: rest) hk
      simpa [hk] using this

theorem no_slash_end (a b : List Nat) (hb : 47 ∉ b) (hab : b = [] → a = []) : ∀ q', a ++ b ≠ q' ++ [47] := by
  intro q' e
  rcases List.eq_nil_or_concat b with rfl | ⟨r, c, rfl⟩
  · rw [hab rfl] at e; simp at e
  · rw [List.concat_eq_append] at *
    rw [← List.append_assoc] at e
    have := (List.append_inj' e rfl).2
    simp at this
    subst this
    simp at hb

theorem lastEnd_eq (a b : List Nat) (n : Nat) (hb : 47 ∉ b) (hab : b = [] → a = []) :
    lastEnd (a ++ b ++ List.replicate n 47) = .ok (a ++ b).length := by
  have := endLoop_eq (a ++ b) (no_slash_end a b hb hab) n []
  rw [lastEnd]
  simpa [Nat.add_assoc] using this

theorem startEnd_eq (a b : List Nat) (n : Nat) (hb : 47 ∉ b) (ha : a = [] ∨ ∃ a', a = a' ++ [47]) (hab : b = [] → a = []) :
    startEnd (a ++ b ++ List.replicate n 47) = .ok (a.length, a.length + b.length) := by
  rw [startEnd, lastEnd_eq a b n hb hab, StrOps.bind_ok]
  have := startLoop_eq a ha b hb (List.replicate n 47)
  rw [List.length_append, this]
  rfl

theorem slashes_text (n : Nat) : Text (List.replicate n 47) := by
  induction n with
  | zero => exact text_nil
  | succ n ih => exact text_append (a := [47]) slash_text ih

theorem text_front {a b : List Nat} (h : Text (a ++ b)) (hb : Text b) : Text a := by
  by_cases hne : b = []
  · subst hne; simpa using h
  · exact text_before (b := []) hb hne (by simpa using h)

theorem names_replicate (n : Nat) : names (List.replicate n 47) = [] := by
  induction n with
  | zero => rfl
  | succ n ih => rw [List.replicate_succ, names_slash, ih]

theorem names_slashes (p : List Nat) (n : Nat) : names (p ++ List.replicate n 47) = names p := by
  cases n with
  | zero => simp
  | succ n => rw [List.replicate_succ, names_append, names_replicate, List.append_nil]

end Verif.FilePath
