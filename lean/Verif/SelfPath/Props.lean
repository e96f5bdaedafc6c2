import Verif.SelfPath.Spec
import Verif.SelfPath.Model
import Verif.Path.Props
import Verif.StrOps.Props
import Verif.Utf8.Props

/-!
# C86: the self-hosted compiler reads and prints module paths as llrl0 does
-/
namespace Verif.SelfPath
open Verif.StrOps.Spec (Text At First Cut)
open Verif.Utf8.Spec (utf8 utf8s)

/-! ## Bytes of strings -/

theorem enc_append (a b : List Char) : enc (a ++ b) = enc a ++ enc b := by
  simp [enc, utf8s]

theorem enc_cons (c : Char) (s : List Char) : enc (c :: s) = utf8 c.toNat ++ enc s := by
  simp [enc, utf8s]

theorem enc_slash (s : List Char) : enc ('/' :: s) = 47 :: enc s := by
  rw [enc_cons]; rfl

theorem char_scalar (c : Char) : Utf8.Spec.Scalar c.toNat := by
  have h := c.valid
  simp only [UInt32.isValidChar, Nat.isValidChar] at h
  change c.toNat < 0xd800 ∨ 0xdfff < c.toNat ∧ c.toNat < 0x110000 at h
  unfold Utf8.Spec.Scalar
  omega

theorem enc_known (s : List Char) (h : Known s) : ∀ x ∈ s.map Char.toNat, Utf8.Known x := by
  intro x hx
  obtain ⟨c, hc, rfl⟩ := List.mem_map.mp hx
  exact ⟨char_scalar c, h c hc⟩

theorem enc_text (s : List Char) (h : Known s) : Text (enc s) := ⟨_, enc_known s h, rfl⟩

theorem enc_inj (s t : List Char) (hs : Known s) (ht : Known t) : enc s = enc t ↔ s = t := by
  constructor
  · intro h
    have := Utf8.utf8s_injective _ _ (enc_known s hs) (enc_known t ht) h
    exact (List.map_inj_right fun a b hab => Char.toNat_inj.mp hab).mp this
  · rintro rfl; rfl

theorem slash_utf8 (x : Nat) (h : 47 ∈ utf8 x) : x = 47 := by
  simp only [utf8] at h
  split at h
  · simpa [eq_comm] using h
  · split at h
    · simp at h; omega
    · split at h <;> simp at h <;> omega

theorem slash_enc (s : List Char) : 47 ∈ enc s ↔ '/' ∈ s := by
  induction s with
  | nil => simp [enc, utf8s]
  | cons c s ih =>
    rw [enc_cons, List.mem_append, ih, List.mem_cons]
    refine or_congr ⟨fun h => ?_, ?_⟩ Iff.rfl
    · have := slash_utf8 _ h
      exact (Char.toNat_inj.mp (by rw [this]; rfl)).symm
    · rintro rfl
      decide

theorem known_append (a b : List Char) : Known (a ++ b) ↔ Known a ∧ Known b := by
  simp only [Known, List.mem_append]
  exact ⟨fun h => ⟨fun c hc => h c (.inl hc), fun c hc => h c (.inr hc)⟩,
    fun h c hc => hc.elim (h.1 c) (h.2 c)⟩

theorem known_cons (c : Char) (b : List Char) : Known (c :: b) ↔ c.toNat ≤ 111411 ∧ Known b := by
  simp [Known]

theorem slash_text : Text slash := ⟨[47], by simp [Utf8.Spec.Scalar], rfl⟩

theorem no_slash (s : List Char) (h : '/' ∉ s) (i : Nat) : ¬ At slash (enc s) i := by
  rintro ⟨a, b, h1, _⟩
  exact h ((slash_enc s).1 (by rw [h1]; simp [slash]))

theorem first_slash (a b : List Char) (h : '/' ∉ a) :
    First slash (enc a ++ slash ++ enc b) (enc a).length := by
  refine ⟨⟨_, _, rfl, rfl⟩, ?_⟩
  rintro j ⟨x, y, h1, rfl⟩
  apply Classical.byContradiction
  intro hlt
  have hx : (enc a ++ slash ++ enc b)[x.length]? = some 47 := by rw [h1]; simp [slash]
  rw [List.append_assoc, List.getElem?_append_left (by omega)] at hx
  exact h ((slash_enc a).1 (List.mem_of_getElem? hx))

theorem find_none (s : List Char) (hk : Known s) (hf : Fits s) (h : '/' ∉ s) :
    StrOps.find slash (enc s) = .ok none := by
  rcases StrOps.find_spec slash (enc s) slash_text (enc_text s hk) hf with ⟨i, h1, _⟩ | ⟨_, h1⟩
  · exact absurd h1.1 (no_slash s h i)
  · exact h1

theorem enc_cut (a b : List Char) : enc (a ++ '/' :: b) = enc a ++ slash ++ enc b := by
  rw [enc_append, enc_slash]; simp [slash]

theorem find_some (a b : List Char) (hk : Known (a ++ '/' :: b)) (hf : Fits (a ++ '/' :: b))
    (h : '/' ∉ a) : StrOps.find slash (enc (a ++ '/' :: b)) = .ok (some (enc a).length) := by
  have hfirst := first_slash a b h
  rcases StrOps.find_spec slash _ slash_text (enc_text _ hk) hf with ⟨i, h1, h2⟩ | ⟨h1, _⟩
  · rw [enc_cut] at h1 h2 ⊢
    rw [h2, Nat.le_antisymm (h1.2 _ hfirst.1) (hfirst.2 _ h1.1)]
  · rw [enc_cut] at h1
    exact absurd hfirst.1 (h1 _)

theorem fits_append (a b : List Char) (h : Fits (a ++ b)) : Fits a ∧ Fits b := by
  unfold Fits at *
  rw [enc_append, List.length_append] at h
  omega

theorem fits_cons (c : Char) (b : List Char) (h : Fits (c :: b)) : Fits b :=
  (fits_append [c] b h).2

theorem split_cut (n : Nat) (s : List Char) (hn : s.length ≤ n) :
    Cut slash (enc s) ((Path.split s).map enc) := by
  induction n generalizing s with
  | zero =>
    have : s = [] := List.length_eq_zero_iff.1 (by omega)
    subst this
    exact .last _ (no_slash [] (by simp))
  | succ n ih =>
    by_cases h : '/' ∈ s
    · obtain ⟨a, b, rfl, ha⟩ := Path.cut_exists '/' s h
      rw [Path.split_append _ _ ha, enc_cut, List.map_cons]
      refine .cut _ _ _ (first_slash a b ha) (ih b ?_)
      simp only [List.length_append, List.length_cons] at hn
      omega
    · rw [Path.split_noslash s h]
      exact .last _ (no_slash s h)

theorem split_eq (s : List Char) (hk : Known s) (hf : Fits s) :
    StrOps.split ((enc s).length + 1) slash (enc s) = .ok ((Path.split s).map enc) := by
  obtain ⟨parts, h1, _, _, h2, _⟩ := StrOps.split_join slash (enc s) slash_text (enc_text s hk) hf
  rw [h1, StrOps.cut_unique _ _ _ _ (h2 (by simp [slash])) (split_cut _ s (Nat.le_refl _))]

theorem split_inherits (P : List Char → Prop) (h0 : ∀ a b, P (a ++ '/' :: b) → P a ∧ P b)
    (n : Nat) (s : List Char) (hn : s.length ≤ n) (hs : P s) : ∀ p ∈ Path.split s, P p := by
  induction n generalizing s with
  | zero =>
    have : s = [] := List.length_eq_zero_iff.1 (by omega)
    subst this
    intro p hp
    simp [Path.split] at hp
    subst hp
    exact hs
  | succ n ih =>
    by_cases h : '/' ∈ s
    · obtain ⟨a, b, rfl, ha⟩ := Path.cut_exists '/' s h
      rw [Path.split_append _ _ ha]
      simp only [List.length_append, List.length_cons] at hn
      intro p hp
      rcases List.mem_cons.1 hp with rfl | hp
      · exact (h0 _ _ hs).1
      · exact ih b (by omega) (h0 _ _ hs).2 p hp
    · rw [Path.split_noslash s h]
      simpa using hs

/-! ## Parts -/

theorem valid_eq (s : List Char) (hk : Known s) (hf : Fits s) :
    valid? (enc s) = .ok (Path.validPart s) := by
  have h0 : enc s = [] ↔ s = [] := enc_inj s [] hk (by simp [Known])
  have h1 : enc s = tilde ↔ s = Path.tilde := enc_inj s ['~'] hk (by simp [Known])
  have h2 : enc s = [46] ↔ s = ['.'] := enc_inj s ['.'] hk (by simp [Known])
  have h3 : enc s = [46, 46] ↔ s = ['.', '.'] := enc_inj s ['.', '.'] hk (by simp [Known])
  unfold valid?
  by_cases he : s = []
  · rw [if_pos (h0.2 he)]
    subst he
    rfl
  rw [if_neg (fun h => he (h0.1 h))]
  by_cases hs : '/' ∈ s
  · have hv : Path.validPart s = false := by simp [Path.validPart, hs]
    rw [hv]
    obtain ⟨a, b, rfl, ha⟩ := Path.cut_exists '/' s hs
    rw [find_some a b hk hf ha]
  · rw [find_none s hk hf hs]
    have e1 : (enc s != tilde) = (s != Path.tilde) := by rw [Bool.eq_iff_iff]; simp [h1]
    have e2 : (enc s != [46]) = (s != ['.']) := by rw [Bool.eq_iff_iff]; simp [h2]
    have e3 : (enc s != [46, 46]) = (s != ['.', '.']) := by rw [Bool.eq_iff_iff]; simp [h3]
    simp only [e1, e2, e3]
    simp [Path.validPart, hs, List.isEmpty_eq_false_iff.2 he]

theorem package_eq (s : List Char) (hk : Known s) (hf : Fits s) :
    packageFromString (enc s) = .ok (match Path.parsePackage s with
      | some p => .ok (p.map enc)
      | none => .error (enc s)) := by
  have h1 : enc s = tilde ↔ s = Path.tilde := enc_inj s ['~'] hk (by simp [Known])
  unfold packageFromString Path.parsePackage
  by_cases h : s = Path.tilde
  · rw [if_pos (h1.2 h), if_pos h]
    rfl
  · rw [if_neg (fun e => h (h1.1 e)), if_neg h, external, valid_eq s hk hf]
    unfold Path.external
    cases Path.validPart s <;> rfl

theorem findInvalid_eq (ps : List (List Char)) (hk : ∀ p ∈ ps, Known p) (hf : ∀ p ∈ ps, Fits p) :
    findInvalid (ps.map enc) = .ok ((ps.find? fun p => !Path.validPart p).map enc) := by
  induction ps with
  | nil => rfl
  | cons p ps ih =>
    rw [List.map_cons, findInvalid, valid_eq p (hk p (by simp)) (hf p (by simp))]
    cases h : Path.validPart p with
    | false => simp [h]
    | true =>
      simp only [h, List.find?_cons, Bool.not_true]
      exact ih (fun q hq => hk q (by simp [hq])) (fun q hq => hf q (by simp [hq]))

theorem fromParts_eq (ps : List (List Char)) (hk : ∀ p ∈ ps, Known p) (hf : ∀ p ∈ ps, Fits p) :
    (∀ m, Path.fromParts ps = some m → fromParts (ps.map enc) = .ok (.ok (m.map enc))) ∧
    (Path.fromParts ps = none → ∃ p, ps.find? (fun p => !Path.validPart p) = some p ∧
      fromParts (ps.map enc) = .ok (.error (enc p))) := by
  have h1 : ps.map enc = [prelude] ↔ ps.length = 1 ∧ ps.head? = some Path.prelude := by
    match ps with
    | [] => simp
    | [p] =>
      have : enc p = prelude ↔ p = Path.prelude :=
        enc_inj p Path.prelude (hk p (by simp)) (by unfold Known; decide)
      simp [this]
    | p :: q :: r => simp
  unfold Path.fromParts fromParts
  by_cases h : ps.length = 1 ∧ ps.head? = some Path.prelude
  · rw [if_pos (h1.2 h), if_pos h]
    refine ⟨?_, by simp⟩
    intro m hm
    cases hm
    rfl
  · rw [if_neg (fun e => h (h1.1 e)), if_neg h, findInvalid_eq ps hk hf]
    cases hfind : ps.find? fun p => !Path.validPart p with
    | none =>
      have hall : ps.all Path.validPart = true := by
        simpa [List.find?_eq_none] using hfind
      rw [if_pos hall]
      refine ⟨?_, by simp⟩
      intro m hm
      cases hm
      rfl
    | some p =>
      have hall : ¬ ps.all Path.validPart = true := by
        intro hall
        have h2 := List.find?_some hfind
        rw [List.all_eq_true] at hall
        simp [hall p (List.mem_of_find?_eq_some hfind)] at h2
      rw [if_neg hall]
      exact ⟨by simp, fun _ => ⟨p, rfl, rfl⟩⟩

/-- A path of llrl0 as one of the self-hosted compiler. -/
def encPath (p : Path.Path) : Path := ⟨p.package.map enc, p.module.map enc⟩

theorem module_eq (s : List Char) (hk : Known s) (hf : Fits s) :
    (∀ m, Path.parseModule s = some m → moduleFromString (enc s) = .ok (.ok (m.map enc))) ∧
    (Path.parseModule s = none → ∃ p, (Path.split s).find? (fun p => !Path.validPart p) = some p ∧
      moduleFromString (enc s) = .ok (.error (enc p))) := by
  unfold moduleFromString Path.parseModule
  rw [split_eq s hk hf]
  refine fromParts_eq _ (split_inherits Known ?_ _ s (Nat.le_refl _) hk)
    (split_inherits Fits ?_ _ s (Nat.le_refl _) hf)
  · intro a b h
    rw [known_append, known_cons] at h
    exact ⟨h.1, h.2.2⟩
  · intro a b h
    exact ⟨(fits_append _ _ h).1, fits_cons _ _ (fits_append _ _ h).2⟩

/-- C86: a string of characters that the standard library knows is a path for the self-hosted
compiler exactly if it is one for llrl0, and the same; if it is none, the error names a part of it
that is not acceptable. What is missing is strings with other characters, which panic. -/
theorem fromString_eq_partial (s : List Char) (hk : Known s) (hf : Fits s) :
    (∀ p, Path.parse s = some p → fromString (enc s) = .ok (.ok (encPath p))) ∧
    (Path.parse s = none → ∃ part, part ∈ Path.split s ∧ ¬ Path.PartOk part ∧
      fromString (enc s) = .ok (.error (enc part))) := by
  have bad : ∀ t, Path.parsePackage t = none → ¬ Path.PartOk t := by
    intro t h hp
    rw [← Path.validPart_iff] at hp
    unfold Path.parsePackage Path.external at h
    split at h
    · cases h
    · simp [hp] at h
  by_cases h : '/' ∈ s
  · obtain ⟨a, b, rfl, ha⟩ := Path.cut_exists '/' s h
    have hk' := (known_append _ _).1 hk
    have hkb := ((known_cons _ _).1 hk'.2).2
    have hf' := fits_append _ _ hf
    have hfb := fits_cons _ _ hf'.2
    have ht : StrOps.take (enc a).length (enc (a ++ '/' :: b)) = .ok (enc a) := by
      rw [enc_append]
      exact StrOps.take_ok _ _ (enc_text a hk'.1) (enc_text _ hk'.2)
    have hs : StrOps.skip ((enc a).length + slash.length) (enc (a ++ '/' :: b)) = .ok (enc b) := by
      rw [enc_cut, ← List.length_append]
      exact StrOps.skip_ok _ _ (StrOps.text_append (enc_text a hk'.1) slash_text) (enc_text b hkb)
    have e : fromString (enc (a ++ '/' :: b)) = andThen (packageFromString (enc a)) fun package =>
        andThen (moduleFromString (enc b)) fun module => .ok (.ok ⟨package, module⟩) := by
      unfold fromString
      simp only [find_some a b hk hf ha, ht, hs]
    rw [e, package_eq a hk'.1 hf'.1]
    unfold Path.parse
    rw [Path.cutAt_some _ _ _ ha, Path.split_append _ _ ha]
    cases hp : Path.parsePackage a with
    | none => exact ⟨by simp [hp], fun _ => ⟨a, by simp, bad a hp, rfl⟩⟩
    | some pk =>
      cases hm : Path.parseModule b with
      | none =>
        refine ⟨by simp [hp, hm], fun _ => ?_⟩
        obtain ⟨p, h1, h2⟩ := (module_eq b hkb hfb).2 hm
        refine ⟨p, List.mem_cons_of_mem _ (List.mem_of_find?_eq_some h1), ?_, ?_⟩
        · have := List.find?_some h1
          rw [← Path.validPart_iff]
          simpa using this
        · simp only [andThen, h2]
      | some m =>
        refine ⟨fun p h => ?_, by simp [hp, hm]⟩
        have : p = ⟨pk, m⟩ := by simpa [hp, hm, eq_comm] using h
        subst this
        simp only [andThen, (module_eq b hkb hfb).1 m hm, encPath]
  · have e : fromString (enc s) = andThen (packageFromString (enc s)) fun package =>
        .ok (.ok ⟨package, []⟩) := by
      unfold fromString
      simp only [find_none s hk hf h]
    rw [e, package_eq s hk hf]
    unfold Path.parse
    rw [Path.cutAt_none _ _ h, Path.split_noslash s h]
    cases hp : Path.parsePackage s with
    | none => exact ⟨by simp [hp], fun _ => ⟨s, by simp, bad s hp, rfl⟩⟩
    | some pk =>
      refine ⟨fun p h => ?_, by simp [hp]⟩
      have : p = ⟨pk, []⟩ := by simpa [hp, eq_comm] using h
      subst this
      rfl

/-! ## Printing -/

theorem formatLoop_eq (ps : List (List Char)) (i : Nat) (buf : List Nat) (hi : i ≠ 0) :
    formatLoop slash i buf (ps.map enc) = buf ++ ps.flatMap fun p => enc ('/' :: p) := by
  induction ps generalizing i buf with
  | nil => simp [formatLoop]
  | cons p ps ih =>
    rw [List.map_cons, formatLoop, if_pos hi, ih _ _ (by omega)]
    simp [enc_slash, slash]

theorem join_cons (p : List Char) (ps : List (List Char)) :
    enc (Path.join (p :: ps)) = enc p ++ ps.flatMap fun p => enc ('/' :: p) := by
  induction ps generalizing p with
  | nil => simp [Path.join]
  | cons q ps ih => rw [Path.join, enc_append, enc_slash, ih]; simp [enc_slash]

/-- C86: and every path is printed with the bytes that llrl0 prints. -/
theorem print_eq (p : Path.Path) : print (encPath p) = enc (Path.print p) := by
  obtain ⟨pk, m⟩ := p
  have h1 : showPackage (pk.map enc) = enc (Path.showPackage pk) := by cases pk <;> rfl
  cases m with
  | nil => simpa [print, encPath, Path.print] using h1
  | cons q m =>
    simp only [print, encPath, Path.print, List.map_cons, List.isEmpty_cons, Bool.false_eq_true,
      if_false, h1, showModule, Path.showModule, format, formatLoop, ne_eq, not_true_eq_false,
      List.nil_append, enc_append, enc_slash, join_cons]
    rw [formatLoop_eq _ _ _ (by omega)]
    simp [slash, enc_slash]

/-- C86: so a path is read again from what is printed of it. -/
theorem print_fromString (p : Path.Path) (h : Path.Reachable p) (hk : Known (Path.print p))
    (hf : Fits (Path.print p)) : fromString (print (encPath p)) = .ok (.ok (encPath p)) := by
  rw [print_eq]
  exact (fromString_eq_partial _ hk hf).1 p (Path.parse_print p h)

/-- C86: the packages that the compiler refers to have acceptable names, so they are not forced in
vain. -/
theorem packages_ok : builtin = .ok (.ok (some (enc "builtin".toList))) ∧
    std = .ok (.ok (some (enc "std".toList))) :=
  ⟨rfl, rfl⟩

/-- C86: a path with a character that the standard library does not know is one for llrl0, and
panics here. -/
theorem unknown_panics : ∃ s p, Path.parse s = some p ∧ fromString (enc s) = .error .assertion :=
  ⟨['😀'], ⟨some ['😀'], []⟩, rfl, rfl⟩

/-- A path with two parts, read and printed. -/
example : fromString (enc "std/å/b".toList) =
    .ok (.ok ⟨some (enc "std".toList), [enc "å".toList, enc "b".toList]⟩) ∧
    print ⟨some (enc "std".toList), [enc "å".toList, enc "b".toList]⟩ = enc "std/å/b".toList :=
  ⟨rfl, rfl⟩

/-- A path with a part that is not acceptable. -/
example : fromString (enc "~/a/../b".toList) = .ok (.error (enc "..".toList)) := rfl

/-- `prelude` is the same as no module. -/
example : fromString (enc "~/prelude".toList) = .ok (.ok ⟨none, []⟩) := rfl

end Verif.SelfPath
