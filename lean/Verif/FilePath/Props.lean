import Verif.FilePath.Lemmas

/-!
# C48: the path functions agree
-/
namespace Verif.FilePath
open Verif.Utf8 Verif.StrOps Verif.StrOps.Spec Verif.FilePath.Spec

/-! ## Canonical paths -/

/-- What `path/canonicalize` computes: the location the path denotes, written from the root, except that the root is the empty string. -/
theorem canonicalize_spec (cwd p : List Nat) (hc : Text cwd) (hp : Text p) (hl : cwd.length < 2 ^ 64) (hl' : p.length < 2 ^ 64) :
    canonicalize cwd p = .ok (complete (denotes (denotes [] cwd) p)) := by
  rw [canonicalize, init_eq cwd hc hl, StrOps.bind_ok, components_eq _ p hp hl' (by omega), StrOps.bind_ok, put_comps]

/-- The bytes needed to write names. -/
def size (loc : List (List Nat)) : Nat := (loc.map (fun n => n.length + 1)).sum

theorem size_append (a b : List (List Nat)) : size (a ++ b) = size a + size b := by simp [size]

theorem size_dropLast (a : List (List Nat)) : size a.dropLast ≤ size a := by
  rcases List.eq_nil_or_concat a with rfl | ⟨r, c, rfl⟩
  · simp [size]
  · rw [List.concat_eq_append, List.dropLast_concat, size_append]; omega

theorem size_walk (loc ns : List (List Nat)) : size (walk loc ns) ≤ size loc + size ns := by
  induction ns generalizing loc with
  | nil => simp [walk, size]
  | cons n ns ih =>
    have h := ih (step loc n)
    have e : walk loc (n :: ns) = walk (step loc n) ns := rfl
    have h2 : size (step loc n) ≤ size loc + (n.length + 1) := by
      unfold step
      split
      · omega
      · split
        · have := size_dropLast loc; omega
        · rw [size_append]; simp [size]
    have h3 : size (n :: ns) = n.length + 1 + size ns := by simp [size]
    rw [e]; omega

theorem size_pieces (ps : List (List Nat)) (h : ps ≠ []) : size ps = (glue [47] ps).length + 1 := by
  induction ps with
  | nil => exact absurd rfl h
  | cons p ps ih =>
    cases ps with
    | nil => simp [size, glue]
    | cons q qs =>
      have := ih (by simp)
      have e : size (p :: q :: qs) = p.length + 1 + size (q :: qs) := by simp [size]
      rw [e, this, glue]
      simp
      omega

theorem size_filter (ps : List (List Nat)) (f : List Nat → Bool) : size (ps.filter f) ≤ size ps := by
  induction ps with
  | nil => simp
  | cons p ps ih =>
    have e : size (p :: ps) = p.length + 1 + size ps := by simp [size]
    rw [List.filter_cons]
    split
    · have e' : size (p :: ps.filter f) = p.length + 1 + size (ps.filter f) := by simp [size]
      omega
    · omega

theorem size_names (p : List Nat) : size (names p) ≤ p.length + 1 := by
  have h1 := size_filter (pieces p) (fun n => !n.isEmpty)
  have h2 := size_pieces (pieces p) (pieces_ne_nil p)
  rw [pieces_glue] at h2
  rw [names]; omega

theorem size_denotes (here : List (List Nat)) (p : List Nat) : size (denotes here p) ≤ size here + p.length + 1 := by
  have h2 := size_names p
  unfold denotes
  split
  · have := size_walk [] (names p)
    simp [size] at this h2 ⊢
    omega
  · have := size_walk here (names p)
    omega

theorem write_length (loc : List (List Nat)) : (write loc).length ≤ size loc + 1 := by
  induction loc with
  | nil => simp [write]
  | cons n loc ih =>
    have e : size (n :: loc) = n.length + 1 + size loc := by simp [size]
    cases loc with
    | nil => rw [e]; simp [write]; omega
    | cons m loc => rw [e, write]; simp; omega

/-- **C48.** The canonical path denotes what the path denotes, is absolute, and is its own canonical path, for every path that does not
denote the root. -/
theorem canonicalize_partial (cwd p : List Nat) (hc : Text cwd) (hp : Text p) (hl : cwd.length + p.length + 3 < 2 ^ 64)
    (hroot : denotes (denotes [] cwd) p ≠ []) :
    ∃ r, canonicalize cwd p = .ok r ∧ Text r ∧ absolute r ∧ (∀ here, denotes here r = denotes (denotes [] cwd) p) ∧
      canonicalize cwd r = .ok r := by
  have hprop : Proper (denotes (denotes [] cwd) p) := denotes_proper (denotes_proper (by intro n hn; simp at hn) cwd) p
  have htext : ∀ n ∈ denotes (denotes [] cwd) p, Text n := denotes_text (denotes_text (by simp) hc) hp
  have hlen := size_denotes (denotes [] cwd) p
  have hlen' := size_denotes [] cwd
  have h0 : size [] = 0 := rfl
  have e := canonicalize_spec cwd p hc hp (by omega) (by omega)
  generalize hloc : denotes (denotes [] cwd) p = loc at *
  cases loc with
  | nil => exact absurd rfl hroot
  | cons n loc =>
    rw [complete_cons] at e
    have hw := write_length (n :: loc)
    have hwt := write_text _ htext
    refine ⟨_, e, hwt, write_absolute _, fun here => denotes_write here _ hprop, ?_⟩
    rw [canonicalize_spec cwd _ hc hwt (by omega) (by omega), denotes_write _ _ hprop, complete_cons]

/-- **C48, refuted.** The canonical path of a path denoting the root is the empty string.  Unless the process works in the root, that
does not denote the root, and canonicalising it again gives something else. -/
theorem canonicalize_root_partial (cwd p : List Nat) (hc : Text cwd) (hp : Text p) (hl : cwd.length < 2 ^ 64) (hl' : p.length < 2 ^ 64)
    (hroot : denotes (denotes [] cwd) p = []) (hcwd : denotes [] cwd ≠ []) :
    canonicalize cwd p = .ok [] ∧ denotes (denotes [] cwd) [] ≠ denotes (denotes [] cwd) p ∧
      ∃ r, canonicalize cwd [] = .ok r ∧ r ≠ [] := by
  have hn : denotes (denotes [] cwd) [] = denotes [] cwd := rfl
  refine ⟨by rw [canonicalize_spec cwd p hc hp hl hl', hroot]; rfl, by rw [hroot, hn]; exact hcwd, ?_⟩
  rw [canonicalize_spec cwd [] hc text_nil hl (by simp), hn]
  refine ⟨_, rfl, ?_⟩
  cases h : denotes [] cwd with
  | nil => exact absurd h hcwd
  | cons n loc =>
    rw [complete_cons]
    intro e
    have := write_absolute (n :: loc)
    rw [e] at this
    simp [absolute] at this

/-- The macro `canonicalized-path` walks along its arguments one after the other. -/
theorem canonicalized_path_spec (cwd : List Nat) (ps : List (List Nat)) (hc : Text cwd) (hl : cwd.length < 2 ^ 64)
    (hp : ∀ p ∈ ps, Text p ∧ p.length < 2 ^ 64) :
    canonicalizedPath cwd ps = .ok (complete (ps.foldl denotes (denotes [] cwd))) := by
  have key : ∀ (ps : List (List Nat)) buf, (∀ p ∈ ps, Text p ∧ p.length < 2 ^ 64) → putAll ps buf = .ok (ps.foldl denotes buf) := by
    intro ps
    induction ps with
    | nil => intro buf _; rfl
    | cons p ps ih =>
      intro buf h
      obtain ⟨h1, h2⟩ := h p (by simp)
      rw [putAll, components_eq _ p h1 h2 (by omega), StrOps.bind_ok, put_comps, ih _ (fun q hq => h q (by simp [hq]))]
      rfl
  rw [canonicalizedPath, init_eq cwd hc hl, StrOps.bind_ok, key ps _ hp, StrOps.bind_ok]

/-! ## Joining -/

theorem absolute_iff (p : List Nat) : isAbsolute p = true ↔ absolute p := by
  rw [isAbsolute, startsWith_iff, absolute]
  cases p with
  | nil => simp
  | cons c cs => simp [eq_comm]

/-- **C48.** Joining with an absolute path gives that path. -/
theorem join_absolute (p q : List Nat) (hq : absolute q) : join p q = .ok q := by
  rw [join, if_pos ((absolute_iff q).2 hq)]

/-- What joining a relative path computes: a slash between the path without its last slashes and the other path. -/
theorem join_eq' (p q : List Nat) (hp : Text p) (hq : ¬ absolute q) :
    ∃ a n, p = a ++ List.replicate n 47 ∧ (∀ a', a ≠ a' ++ [47]) ∧ Text a ∧ join p q = .ok (a ++ 47 :: q) := by
  obtain ⟨a, b, n, rfl, hb, ha, hab⟩ := last_split p
  have hend := no_slash_end a b hb hab
  have ht := text_front hp (slashes_text n)
  refine ⟨a ++ b, n, rfl, hend, ht, ?_⟩
  have hq' : isAbsolute q = false := by
    cases h : isAbsolute q with
    | false => rfl
    | true => exact absurd ((absolute_iff q).1 h) hq
  rw [join, hq', if_neg (by simp)]
  by_cases hroot : a ++ b ++ List.replicate n 47 = [47]
  · rw [if_pos hroot, hroot]
    have : a ++ b = [] := by
      cases hab' : a ++ b with
      | nil => rfl
      | cons c cs =>
        rw [hab'] at hroot
        simp only [List.cons_append, List.cons.injEq] at hroot
        have : c = 47 ∧ cs = [] := ⟨hroot.1, by have := hroot.2; simp at this; exact this.1⟩
        exact absurd (by rw [hab', this.1, this.2]; rfl) (hend [])
    rw [this]; rfl
  · rw [if_neg hroot, lastEnd_eq a b n hb hab, StrOps.bind_ok, take_ok _ _ ht (slashes_text n), StrOps.bind_ok]
    simp

/-- **C48.** Joining a relative path to a non-empty path denotes what is reached along the one path after the other. -/
theorem join_partial (p q : List Nat) (hp : Text p) (hq : Text q) (hne : p ≠ []) (hrel : ¬ absolute q) :
    ∃ r, join p q = .ok r ∧ Text r ∧ ∀ here, denotes here r = denotes (denotes here p) q := by
  obtain ⟨a, n, rfl, hend, ha, e⟩ := join_eq' p q hp hrel
  refine ⟨_, e, text_append ha (text_append (a := [47]) slash_text hq), fun here => ?_⟩
  have habs : absolute (a ++ 47 :: q) ↔ absolute (a ++ List.replicate n 47) := by
    cases a with
    | nil =>
      cases n with
      | zero => simp at hne
      | succ n => simp [absolute, List.replicate_succ]
    | cons c cs => simp [absolute]
  rw [denotes, names_append, walk_append, denotes, if_neg hrel, denotes, names_slashes]
  by_cases h : absolute (a ++ 47 :: q)
  · rw [if_pos h, if_pos (habs.1 h)]
  · rw [if_neg h, if_neg (fun h' => h (habs.2 h'))]

/-- The empty path denotes the working directory, but joining a relative path to it gives an absolute path. -/
theorem join_empty_partial (q : List Nat) (hrel : ¬ absolute q) : join [] q = .ok (47 :: q) := by
  obtain ⟨a, n, e, _, _, h⟩ := join_eq' [] q text_nil hrel
  cases a with
  | nil => exact h
  | cons => simp at e

/-- The macros agree: canonicalising the arguments one after the other is canonicalising their join. -/
theorem path_macros_agree (cwd a : List Nat) (bs : List (List Nat)) (hc : Text cwd) (hl : cwd.length < 2 ^ 64) (ha : Text a) (hne : a ≠ [])
    (hb : ∀ b ∈ bs, Text b) (hlen : size (a :: bs) < 2 ^ 64) :
    ∃ p, pathMacro a bs = .ok p ∧ canonicalize cwd p = canonicalizedPath cwd (a :: bs) := by
  suffices h : ∀ (bs : List (List Nat)) a, Text a → a ≠ [] → (∀ b ∈ bs, Text b) →
      ∃ p, pathMacro a bs = .ok p ∧ Text p ∧ p.length ≤ size (a :: bs) ∧ ∀ here, denotes here p = bs.foldl denotes (denotes here a) by
    obtain ⟨p, e, ht, hs, hd⟩ := h bs a ha hne hb
    refine ⟨p, e, ?_⟩
    have hlen2 : ∀ b ∈ a :: bs, b.length < 2 ^ 64 := by
      intro b hb
      have : b.length + 1 ≤ size (a :: bs) := by
        clear hlen hs hd
        generalize a :: bs = l at hb
        induction l with
        | nil => simp at hb
        | cons x l ih =>
          have e : size (x :: l) = x.length + 1 + size l := by simp [size]
          rcases List.mem_cons.1 hb with rfl | hb
          · omega
          · have := ih hb; omega
      omega
    rw [canonicalize_spec cwd p hc ht hl (by omega), hd, canonicalized_path_spec cwd _ hc hl]
    · rfl
    · intro q hq
      refine ⟨?_, hlen2 q hq⟩
      rcases List.mem_cons.1 hq with rfl | hq
      · exact ha
      · exact hb q hq
  intro bs
  induction bs with
  | nil => intro a ha _ _; exact ⟨a, rfl, ha, by simp [size], fun _ => rfl⟩
  | cons b bs ih =>
    intro a ha hne hb
    have hbt := hb b (by simp)
    have e1 : size (a :: b :: bs) = a.length + 1 + (b.length + 1 + size bs) := by simp [size]
    by_cases hab : absolute b
    · have hbne : b ≠ [] := by rintro rfl; simp [absolute] at hab
      obtain ⟨p, e, h1, h2, h3⟩ := ih b hbt hbne (fun x hx => hb x (by simp [hx]))
      have e2 : size (b :: bs) = b.length + 1 + size bs := by simp [size]
      refine ⟨p, by rw [pathMacro, join_absolute a b hab, StrOps.bind_ok, e], h1, by omega, fun here => ?_⟩
      rw [h3, List.foldl_cons]
      have : denotes here b = denotes (denotes here a) b := by
        rw [denotes, if_pos hab]
        rw [denotes.eq_def (denotes here a), if_pos hab]
      rw [this]
    · obtain ⟨a', n, ea, _, _, ej⟩ := join_eq' a b ha hab
      obtain ⟨r, er, ht, hd⟩ := join_partial a b ha hbt hne hab
      have : r = a' ++ 47 :: b := by rw [ej] at er; exact (Except.ok.inj er).symm
      have hrl : r.length ≤ a.length + 1 + b.length := by rw [this, ea]; simp; omega
      obtain ⟨p, e, h1, h2, h3⟩ := ih r ht (by rw [this]; simp) (fun x hx => hb x (by simp [hx]))
      have e2 : size (r :: bs) = r.length + 1 + size bs := by simp [size]
      refine ⟨p, by rw [pathMacro, er, StrOps.bind_ok, e], h1, by omega, fun here => ?_⟩
      rw [h3, hd, List.foldl_cons]

/-! ## Directory name and base name -/

/-- **C48.** Directory name and base name exist for every path, the base name is a single name (or the path is only slashes), and joining
them gives a path with the meaning of the original. -/
theorem dir_base_join (p : List Nat) (hp : Text p) :
    ∃ d b r, dirName p = .ok d ∧ baseName p = .ok b ∧ join d b = .ok r ∧ Text d ∧ Text b ∧ d ≠ [] ∧
      (∀ here, denotes here r = denotes here p) ∧ (47 ∉ b ∨ (b = [47] ∧ names p = [] ∧ p ≠ [])) := by
  obtain ⟨a, b, n, rfl, hb, ha, hab⟩ := last_split p
  have hse := startEnd_eq a b n hb ha hab
  have hsl := slashes_text n
  have htab := text_front hp hsl
  by_cases hbe : b = []
  · have hae := hab hbe
    subst hbe hae
    simp only [List.nil_append] at *
    have hd : dirName (List.replicate n 47) = .ok (if isAbsolute (List.replicate n 47) then [47] else [46]) := by
      rw [dirName, hse]; rfl
    cases n with
    | zero =>
      refine ⟨[46], [], [46, 47], hd, rfl, rfl, dot_text, text_nil, by simp, fun here => ?_, .inl (by simp)⟩
      rfl
    | succ n =>
      have habs : isAbsolute (List.replicate (n + 1) 47) = true := (absolute_iff _).2 (by simp [absolute, List.replicate_succ])
      rw [if_pos habs] at hd
      refine ⟨[47], [47], [47], hd, ?_, rfl, slash_text, slash_text, by simp, fun here => ?_,
        .inr ⟨rfl, names_replicate _, by simp [List.replicate_succ]⟩⟩
      · rw [baseName, if_neg (by simp), hse, StrOps.bind_ok]
        exact if_pos rfl
      · rw [denotes, denotes, names_replicate, if_pos (by rfl), if_pos ((absolute_iff _).1 habs)]
        rfl
  -- a proper last component
  have hbt : Text b := by
    rcases ha with rfl | ⟨a', rfl⟩
    · simpa using htab
    · exact text_after (a := a') slash_text (by simp) htab
  have hat := text_front htab hbt
  have hbpos := List.length_pos_iff.2 hbe
  have hbase : baseName (a ++ b ++ List.replicate n 47) = .ok b := by
    rw [baseName, if_neg (by simp [hbe]), hse, StrOps.bind_ok]
    simp only
    rw [if_neg (by omega)]
    have := substring_ok a b (List.replicate n 47) hat hbt hsl
    rw [List.length_append] at this
    rw [this]; rfl
  have hbrel : ¬ absolute b := by
    intro h
    cases b with
    | nil => exact hbe rfl
    | cons c cs =>
      simp [absolute] at h
      exact hb (by simp [h])
  -- the directory name denotes what is before
  have hdir : ∃ d, dirName (a ++ b ++ List.replicate n 47) = .ok d ∧ Text d ∧ d ≠ [] ∧
      ∀ here, walk (denotes here d) [b] = denotes here (a ++ b ++ List.replicate n 47) := by
    have habsp : absolute (a ++ b ++ List.replicate n 47) ↔ absolute a := by
      cases a with
      | nil =>
        cases b with
        | nil => exact absurd rfl hbe
        | cons c cs =>
          simp [absolute] at hbrel ⊢
          exact hbrel
      | cons c cs => simp [absolute]
    have hnames : names (a ++ b ++ List.replicate n 47) = names a ++ [b] := by
      rw [names_slashes]
      rcases ha with rfl | ⟨a', rfl⟩
      · simpa [names_nil] using names_name b hb hbe
      · have e1 : names (a' ++ [47] ++ b) = names a' ++ names b := by
          have := names_append a' b
          simpa using this
        have e2 : names (a' ++ [47]) = names a' := names_slashes a' 1
        rw [e1, e2, names_name b hb hbe]
    have hden : ∀ here, denotes here (a ++ b ++ List.replicate n 47) = walk (denotes here a) [b] := by
      intro here
      rw [denotes, hnames, walk_append, denotes]
      by_cases h : absolute a
      · rw [if_pos h, if_pos (habsp.2 h)]
      · rw [if_neg h, if_neg (fun h' => h (habsp.1 h'))]
    rw [dirName, hse, StrOps.bind_ok]
    simp only
    by_cases hshort : a.length ≤ 1
    · rw [if_pos hshort]
      rcases ha with rfl | ⟨a', rfl⟩
      · have : isAbsolute ([] ++ b ++ List.replicate n 47) = false := by
          cases h : isAbsolute ([] ++ b ++ List.replicate n 47) with
          | false => rfl
          | true => exact absurd (habsp.1 ((absolute_iff _).1 h)) (by simp [absolute])
        rw [this]
        exact ⟨[46], rfl, dot_text, by simp, fun here => (hden here).symm⟩
      · have e : a' = [] := by
          simp at hshort; exact hshort
        subst e
        have : isAbsolute ([] ++ [47] ++ b ++ List.replicate n 47) = true := (absolute_iff _).2 (habsp.2 (by simp [absolute]))
        rw [this]
        exact ⟨[47], rfl, slash_text, by simp, fun here => (hden here).symm⟩
    · rw [if_neg hshort]
      rcases ha with rfl | ⟨a', rfl⟩
      · simp at hshort
      · have ha' : Text a' := text_front hat slash_text
        have e : (a' ++ [47]).length - 1 = a'.length := by simp
        have e2 : a' ++ [47] ++ b ++ List.replicate n 47 = a' ++ ([47] ++ b ++ List.replicate n 47) := by simp
        have hne : a' ≠ [] := by
          rintro rfl; simp at hshort
        have htk : take a'.length (a' ++ [47] ++ b ++ List.replicate n 47) = .ok a' := by
          rw [e2]
          exact take_ok a' _ ha' (text_append (text_append slash_text hbt) hsl)
        rw [e, htk]
        refine ⟨a', rfl, ha', hne, fun here => ?_⟩
        rw [hden here]
        congr 1
        have e3 : names (a' ++ [47]) = names a' := names_slashes a' 1
        have : absolute (a' ++ [47]) ↔ absolute a' := by
          cases a' with
          | nil => exact absurd rfl hne
          | cons => simp [absolute]
        rw [denotes, denotes, e3]
        by_cases h : absolute a'
        · rw [if_pos h, if_pos (this.2 h)]
        · rw [if_neg h, if_neg (fun h' => h (this.1 h'))]
  obtain ⟨d, ed, hdt, hdne, hdd⟩ := hdir
  obtain ⟨r, er, _, hr⟩ := join_partial d b hdt hbt hdne hbrel
  refine ⟨d, b, r, ed, hbase, er, hdt, hbt, hdne, fun here => ?_, .inl hb⟩
  rw [hr, ← hdd here, denotes, if_neg hbrel, names_name b hb hbe]

/-! ## Extensions -/

theorem dotLoop_none (a b rest : List Nat) (h : 46 ∉ b) : dotLoop (a ++ b ++ rest) a.length (a.length + b.length) = .ok a.length := by
  generalize hn : b.length = k
  induction k generalizing b rest with
  | zero =>
    cases hl : a.length with
    | zero => rfl
    | succ m => rw [Nat.add_zero, dotLoop, if_neg (by omega)]
  | succ k ih =>
    rcases List.eq_nil_or_concat b with rfl | ⟨r, c, rfl⟩
    · simp at hn
    · rw [List.concat_eq_append] at *
      have hk : r.length = k := by simpa using hn
      have e : a.length + (k + 1) = (a ++ r).length + 1 := by simp; omega
      have e2 : a ++ (r ++ [c]) ++ rest = (a ++ r) ++ c :: rest := by simp
      rw [e, e2, dotLoop, if_pos (by simp; omega), byteAt_ok, StrOps.bind_ok, if_pos (by rintro rfl; simp at h)]
      have := ih r (c :: rest) (fun h' => h (by simp [h'])) hk
      simpa [hk] using this

theorem dotLoop_some (a s x rest : List Nat) (h : 46 ∉ x) :
    dotLoop (a ++ (s ++ [46] ++ x) ++ rest) a.length (a.length + (s ++ [46] ++ x).length) = .ok (a.length + s.length + 1) := by
  generalize hn : x.length = k
  induction k generalizing x rest with
  | zero =>
    have : x = [] := List.length_eq_zero_iff.1 hn
    subst this
    have e : a.length + (s ++ [46] ++ []).length = (a ++ s).length + 1 := by simp; omega
    have e2 : a ++ (s ++ [46] ++ []) ++ rest = (a ++ s) ++ 46 :: rest := by simp
    rw [e, e2, dotLoop, if_pos (by simp; omega), byteAt_ok, StrOps.bind_ok, if_neg (by simp)]
    simp
  | succ k ih =>
    rcases List.eq_nil_or_concat x with rfl | ⟨r, c, rfl⟩
    · simp at hn
    · rw [List.concat_eq_append] at *
      have hk : r.length = k := by simpa using hn
      have e : a.length + (s ++ [46] ++ (r ++ [c])).length = (a ++ (s ++ [46] ++ r)).length + 1 := by simp; omega
      have e2 : a ++ (s ++ [46] ++ (r ++ [c])) ++ rest = (a ++ (s ++ [46] ++ r)) ++ c :: rest := by simp
      rw [e, e2, dotLoop, if_pos (by simp; omega), byteAt_ok, StrOps.bind_ok, if_pos (by rintro rfl; simp at h)]
      have := ih r (c :: rest) (fun h' => h (by simp [h'])) hk
      simpa using this

theorem last_dot (b : List Nat) : 46 ∉ b ∨ ∃ s x, b = s ++ [46] ++ x ∧ 46 ∉ x := by
  induction b with
  | nil => exact .inl (by simp)
  | cons c b ih =>
    rcases ih with h | ⟨s, x, rfl, h⟩
    · by_cases hc : c = 46
      · exact .inr ⟨[], b, by simp [hc], h⟩
      · exact .inl (by simp only [List.mem_cons, not_or]; exact ⟨fun h' => hc h'.symm, h⟩)
    · exact .inr ⟨c :: s, x, by simp, h⟩

theorem dot_unique {s x s' x' : List Nat} (h : 46 ∉ x) (h' : 46 ∉ x') (e : s ++ [46] ++ x = s' ++ [46] ++ x') : s = s' ∧ x = x' := by
  have key : ∀ {s x s' x' : List Nat}, 46 ∉ x → s ++ [46] ++ x = s' ++ [46] ++ x' → s'.length ≤ s.length := by
    intro s x s' x' h e
    apply Classical.byContradiction
    intro hlt
    have hlt : s.length < s'.length := by omega
    have h1 : (s ++ [46] ++ x)[s'.length]? = some 46 := by rw [e]; simp
    rw [List.getElem?_append_right (by simp; omega)] at h1
    exact h (List.mem_of_getElem? h1)
  have hl : s.length = s'.length := Nat.le_antisymm (key h' e.symm) (key h e)
  rw [List.append_assoc, List.append_assoc] at e
  obtain ⟨h1, h2⟩ := List.append_inj e hl
  exact ⟨h1, by simpa using h2⟩

/-- The names of a path with a last component. -/
theorem names_last {a b : List Nat} (n : Nat) (hb : 47 ∉ b) (ha : a = [] ∨ ∃ a', a = a' ++ [47]) (hbe : b ≠ []) :
    names (a ++ b ++ List.replicate n 47) = names a ++ [b] := by
  rw [names_slashes]
  rcases ha with rfl | ⟨a', rfl⟩
  · simpa [names_nil] using names_name b hb hbe
  · have e1 : names (a' ++ [47] ++ b) = names a' ++ names b := by
      have := names_append a' b
      simpa using this
    have e2 : names (a' ++ [47]) = names a' := names_slashes a' 1
    rw [e1, e2, names_name b hb hbe]

theorem text_base {a b : List Nat} (n : Nat) (h : Text (a ++ b ++ List.replicate n 47)) (ha : a = [] ∨ ∃ a', a = a' ++ [47]) :
    Text a ∧ Text b := by
  have htab := text_front h (slashes_text n)
  have hbt : Text b := by
    rcases ha with rfl | ⟨a', rfl⟩
    · simpa using htab
    · exact text_after (a := a') slash_text (by simp) htab
  exact ⟨text_front htab hbt, hbt⟩

/-- `path/extension?` gives the extension of the last name: what comes after its last dot, if there is something before that dot. -/
theorem extension_spec (p : List Nat) (hp : Text p) :
    ∃ r, extension p = .ok r ∧ ∀ x, r = some x ↔ ∃ ns b, names p = ns ++ [b] ∧ Ext b x := by
  obtain ⟨a, b, n, rfl, hb, ha, hab⟩ := last_split p
  obtain ⟨hat, hbt⟩ := text_base n hp ha
  have hse := startEnd_eq a b n hb ha hab
  rw [extension, startDotEnd, hse]
  simp only [StrOps.bind_ok]
  by_cases hbe : b = []
  · have hae := hab hbe
    subst hbe hae
    refine ⟨none, ?_, ?_⟩
    · have : dotLoop ([] ++ [] ++ List.replicate n 47) ([] : List Nat).length (([] : List Nat).length + ([] : List Nat).length) = .ok 0 := rfl
      rw [this]; rfl
    · intro x
      simp only [reduceCtorEq, false_iff]
      rintro ⟨ns, b, e, _⟩
      have := names_replicate n
      simp only [List.nil_append] at e
      rw [this] at e
      simp at e
  have hn := names_last n hb ha hbe
  rcases last_dot b with hdot | ⟨s, x, rfl, hx⟩
  · refine ⟨none, ?_, ?_⟩
    · rw [dotLoop_none a b _ hdot]
      exact if_neg (Nat.not_lt.2 (Nat.le_succ _))
    · intro x
      simp only [reduceCtorEq, false_iff]
      rintro ⟨ns, b', e, stem, _, rfl, _⟩
      rw [hn] at e
      have := (List.append_inj' e rfl).2
      simp at this
      rw [this] at hdot
      simp at hdot
  · rw [dotLoop_some a s x _ hx]
    simp only [StrOps.bind_ok]
    by_cases hs : s = []
    · subst hs
      refine ⟨none, if_neg (by simp), ?_⟩
      intro y
      simp only [reduceCtorEq, false_iff]
      rintro ⟨ns, b', e, stem, hst, rfl, hy⟩
      rw [hn] at e
      have := (List.append_inj' e rfl).2
      simp only [List.cons.injEq, and_true] at this
      exact hst (dot_unique hx hy this).1.symm
    · have hpos := List.length_pos_iff.2 hs
      rw [if_pos (by omega)]
      have hsd : Text s := text_before dot_text (by simp) hbt
      have hxt : Text x := text_after dot_text (by simp) hbt
      have hpre : Text (a ++ (s ++ [46])) := text_append hat (text_append hsd dot_text)
      have hsub := substring_ok (a ++ (s ++ [46])) x (List.replicate n 47) hpre hxt (slashes_text n)
      have e1 : (a ++ (s ++ [46])).length = a.length + s.length + 1 := by simp; omega
      have e2 : (a ++ (s ++ [46]) ++ x).length = a.length + (s ++ [46] ++ x).length := by simp
      have e3 : a ++ (s ++ [46]) ++ x ++ List.replicate n 47 = a ++ (s ++ [46] ++ x) ++ List.replicate n 47 := by simp
      rw [e1, e2, e3] at hsub
      rw [hsub]
      refine ⟨some x, rfl, fun y => ?_⟩
      constructor
      · rintro h; cases h
        exact ⟨names a, _, hn, s, hs, rfl, hx⟩
      · rintro ⟨ns, b', e, stem, hst, rfl, hy⟩
        rw [hn] at e
        have := (List.append_inj' e rfl).2
        simp only [List.cons.injEq, and_true] at this
        rw [(dot_unique hx hy this).2]

/-- The stem of a last name: what is before its extension. -/
def Stem (b stem : List Nat) : Prop := (∃ x, stem ≠ [] ∧ b = stem ++ [46] ++ x ∧ 46 ∉ x) ∨ ((¬ ∃ x, Ext b x) ∧ stem = b)

/-- `path/with-extension` replaces or adds the extension of the last name, and changes nothing else. -/
theorem with_extension_spec (ext : Option (List Nat)) (p : List Nat) (hp : Text p) (hne : names p ≠ []) :
    ∃ a b n stem r, p = a ++ b ++ List.replicate n 47 ∧ names p = names a ++ [b] ∧ Stem b stem ∧
      withExtension ext p = .ok r ∧
      r = a ++ (stem ++ (match ext with | some x => 46 :: x | none => [])) ++ List.replicate n 47 := by
  obtain ⟨a, b, n, rfl, hb, ha, hab⟩ := last_split p
  obtain ⟨hat, hbt⟩ := text_base n hp ha
  have hbe : b ≠ [] := by
    intro hbe
    have hae := hab hbe
    subst hbe hae
    apply hne
    simpa using names_replicate n
  have hn := names_last n hb ha hbe
  have hse := startEnd_eq a b n hb ha hab
  have hskip : skip (a.length + b.length) (a ++ b ++ List.replicate n 47) = .ok (List.replicate n 47) := by
    rw [← List.length_append]
    exact skip_ok (a ++ b) _ (text_append hat hbt) (slashes_text n)
  -- the front that is kept
  have front : ∃ e stem, dotLoop (a ++ b ++ List.replicate n 47) a.length (a.length + b.length) = .ok e ∧ Stem b stem ∧
      (if a.length + 1 < e then take (e - 1) (a ++ b ++ List.replicate n 47)
        else take (a.length + b.length) (a ++ b ++ List.replicate n 47)) = .ok (a ++ stem) := by
    have hwhole : take (a.length + b.length) (a ++ b ++ List.replicate n 47) = .ok (a ++ b) := by
      rw [← List.length_append]
      exact take_ok (a ++ b) _ (text_append hat hbt) (slashes_text n)
    rcases last_dot b with hdot | ⟨s, x, rfl, hx⟩
    · refine ⟨_, b, dotLoop_none a b _ hdot, .inr ⟨?_, rfl⟩, ?_⟩
      · rintro ⟨x, stem, _, rfl, _⟩
        simp at hdot
      · rw [if_neg (by omega), hwhole]
    · refine ⟨_, if s = [] then s ++ [46] ++ x else s, dotLoop_some a s x _ hx, ?_, ?_⟩
      · by_cases hs : s = []
        · rw [if_pos hs]
          refine .inr ⟨?_, rfl⟩
          rintro ⟨y, stem, hst, e, hy⟩
          exact hst ((dot_unique hx hy e).1.symm.trans hs)
        · rw [if_neg hs]
          exact .inl ⟨x, hs, rfl, hx⟩
      · by_cases hs : s = []
        · subst hs
          rw [if_pos rfl, if_neg (by simp), hwhole]
        · have hpos := List.length_pos_iff.2 hs
          rw [if_neg hs, if_pos (by omega)]
          have hsd : Text s := text_before dot_text (by simp) hbt
          have hxt : Text x := text_after dot_text (by simp) hbt
          have e1 : a.length + s.length + 1 - 1 = (a ++ s).length := by simp
          have e2 : a ++ (s ++ [46] ++ x) ++ List.replicate n 47 = (a ++ s) ++ ([46] ++ x ++ List.replicate n 47) := by simp
          rw [e1, e2]
          exact take_ok _ _ (text_append hat hsd) (text_append (text_append dot_text hxt) (slashes_text n))
  obtain ⟨e, stem, hd, hst, hf⟩ := front
  refine ⟨a, b, n, stem, _, rfl, hn, hst, ?_, rfl⟩
  rw [withExtension.eq_def, startDotEnd, hse]
  by_cases hle : a.length + 1 < e
  · rw [if_pos hle] at hf
    simp only [StrOps.bind_ok, hd, if_pos hle, hf, hskip]
    cases ext <;> simp
  · rw [if_neg hle] at hf
    simp only [StrOps.bind_ok, hd, if_neg hle, hf, hskip]
    cases ext <;> simp

/-- The extension that was set is the one found afterwards. -/
theorem with_extension_extension (x p : List Nat) (hp : Text p) (hx : Text x) (hne : names p ≠ []) (h46 : 46 ∉ x) (h47 : 47 ∉ x) :
    ∃ r, withExtension (some x) p = .ok r ∧ Text r ∧ extension r = .ok (some x) := by
  obtain ⟨a', b', n', ep, hb', ha', hab'⟩ := last_split p
  have ht' := text_base n' (ep ▸ hp) ha'
  obtain ⟨a, b, n, stem, r, e, hn, hst, hw, rfl⟩ := with_extension_spec (some x) p hp hne
  have hgood := names_good p b (by rw [hn]; simp)
  have hstem : stem ≠ [] ∧ 47 ∉ stem := by
    rcases hst with ⟨y, h1, h2, _⟩ | ⟨_, rfl⟩
    · exact ⟨h1, fun h => hgood.2 (by rw [h2]; simp [h])⟩
    · exact hgood
  have hbt : Text b := names_text hp b (by rw [hn]; simp)
  have hstt : Text stem := by
    rcases hst with ⟨y, h1, h2, _⟩ | ⟨_, rfl⟩
    · rw [h2] at hbt
      exact text_before dot_text (by simp) hbt
    · exact hbt
  have hat : Text a := by
    have := text_front (e ▸ hp) (slashes_text n)
    exact text_front this hbt
  have hrt : Text (a ++ (stem ++ 46 :: x) ++ List.replicate n 47) :=
    text_append (text_append hat (text_append hstt (text_append (a := [46]) dot_text hx))) (slashes_text n)
  refine ⟨_, hw, hrt, ?_⟩
  obtain ⟨r, er, h⟩ := extension_spec _ hrt
  rw [er]
  congr 1
  refine (h x).2 ?_
  -- the part before is empty or ends with a slash
  have ha : a = [] ∨ ∃ a', a = a' ++ [47] := by
    rcases List.eq_nil_or_concat a with rfl | ⟨a0, c, rfl⟩
    · exact .inl rfl
    · rw [List.concat_eq_append] at *
      by_cases hc : c = 47
      · exact .inr ⟨a0, by rw [hc]⟩
      · exfalso
        -- the last name would then be longer
        have h1 : names (a0 ++ [c] ++ b) = names (a0 ++ [c]) ++ [b] := by
          rw [← hn, e, names_slashes]
        have hlast : ∀ q : List Nat, ∃ ms m, names (q ++ [c] ++ b) = ms ++ [m] ∧ b.length < m.length := by
          intro q
          obtain ⟨a1, b1, n1, eq, hb1, ha1, hab1⟩ := last_split (q ++ [c])
          cases n1 with
          | succ n1 =>
            rw [List.replicate_succ', ← List.append_assoc] at eq
            have := (List.append_inj' eq rfl).2
            simp at this
            exact absurd this hc
          | zero =>
            rw [List.replicate_zero, List.append_nil] at eq
            have hb1e : b1 ≠ [] := by
              rintro rfl
              rw [hab1 rfl] at eq
              simp at eq
            have := names_last (a := a1) (b := b1 ++ b) 0
              (by simp only [List.mem_append, not_or]; exact ⟨hb1, hgood.2⟩) ha1 (by simp [hb1e])
            refine ⟨names a1, b1 ++ b, ?_, by have := List.length_pos_iff.2 hb1e; simp; omega⟩
            rw [eq]
            simpa using this
        obtain ⟨ms, m, em, hm⟩ := hlast a0
        rw [h1] at em
        have := (List.append_inj' em rfl).2
        simp at this
        rw [this] at hm
        omega
  refine ⟨names a, stem ++ 46 :: x, names_last n ?_ ha (by simp), stem, hstem.1, by simp, h46⟩
  simp only [List.mem_append, List.mem_cons, not_or]
  exact ⟨hstem.2, by decide, h47⟩

/-- `path/default-extension` adds the extension only if the path has none. -/
theorem default_extension_spec (x p : List Nat) (hp : Text p) (hne : names p ≠ []) :
    ∃ r, extension p = .ok r ∧ ((r = none ∧ defaultExtension x p = withExtension (some x) p) ∨
      ((∃ y, r = some y) ∧ defaultExtension x p = .ok p)) := by
  obtain ⟨a, b, n, rfl, hb, ha, hab⟩ := last_split p
  obtain ⟨r, er, _⟩ := extension_spec _ hp
  refine ⟨r, er, ?_⟩
  obtain ⟨hat, hbt⟩ := text_base n hp ha
  have hse := startEnd_eq a b n hb ha hab
  have hdl : ∃ e, dotLoop (a ++ b ++ List.replicate n 47) a.length (a.length + b.length) = .ok e := by
    rcases last_dot b with hdot | ⟨s, x, rfl, hx⟩
    · exact ⟨_, dotLoop_none a b _ hdot⟩
    · exact ⟨_, dotLoop_some a s x _ hx⟩
  obtain ⟨e, hd⟩ := hdl
  rw [extension, startDotEnd, hse] at er
  rw [withExtension, defaultExtension, startDotEnd, hse]
  simp only [StrOps.bind_ok, hd] at er ⊢
  by_cases h : a.length + 1 < e
  · rw [if_pos h] at er
    rw [if_pos h, if_pos h]
    refine .inr ⟨?_, rfl⟩
    cases hs : substring e (a.length + b.length) (a ++ b ++ List.replicate n 47) with
    | none => rw [hs] at er; cases er
    | some y => rw [hs] at er; cases er; exact ⟨y, rfl⟩
  · rw [if_neg h] at er
    rw [if_neg h, if_neg h]
    refine .inl ⟨by cases er; rfl, ?_⟩
    rw [← List.length_append, take_ok _ _ (text_append hat hbt) (slashes_text n)]
    simp only [StrOps.bind_ok, List.append_assoc]

/-! ## Non-vacuity -/

-- "/u" with "a/../../b.c" is "/b.c"
example : canonicalize [47, 117] [97, 47, 46, 46, 47, 46, 46, 47, 98, 46, 99] = .ok [47, 98, 46, 99] := rfl
example : canonicalize [47, 117] [46, 47, 97, 47, 47, 98] = .ok [47, 117, 47, 97, 47, 98] := rfl
example : denotes [[117]] [46, 47, 97, 47, 47, 98] = [[117], [97], [98]] := by decide
-- "/" is canonicalised to "", and that to "/u"
example : canonicalize [47, 117] [47] = .ok [] := rfl
example : canonicalize [47, 117] [] = .ok [47, 117] := rfl
example : dirName [97, 47, 98, 47, 47] = .ok [97] := rfl
example : baseName [97, 47, 98, 47, 47] = .ok [98] := rfl
example : join [97, 47] [98] = .ok [97, 47, 98] := rfl
example : join [] [98] = .ok [47, 98] := rfl
example : extension [97, 46, 98, 46, 99, 47] = .ok (some [99]) := rfl
example : extension [46, 98] = .ok none := rfl
example : withExtension (some [122]) [97, 46, 98, 46, 99, 47] = .ok [97, 46, 98, 46, 122, 47] := rfl
example : defaultExtension [122] [97] = .ok [97, 46, 122] := rfl
example : canonicalizedPath [47, 117] [[97], [46, 46, 47, 98]] = .ok [47, 117, 47, 98] := rfl

end Verif.FilePath
