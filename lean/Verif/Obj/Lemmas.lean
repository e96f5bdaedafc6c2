import Verif.Obj.Spec
import Verif.Asm.Props

namespace Verif.Obj

open Verif.Asm Spec

/-! ## Patching -/

theorem patch_get {buf : List Nat} {pos : Nat} {bs : List Nat} (h : pos + bs.length ≤ buf.length) (i : Nat) :
    (patch buf pos bs)[i]? = if pos ≤ i ∧ i < pos + bs.length then bs[i - pos]? else buf[i]? := by
  have e : patch buf pos bs = buf.take pos ++ (bs ++ buf.drop (pos + bs.length)) := by
    unfold patch
    have : pos - buf.length = 0 := by omega
    rw [this]
    simp
  rw [e]
  have hl : (buf.take pos).length = pos := by rw [List.length_take]; omega
  by_cases h1 : i < pos
  · rw [List.getElem?_append_left (by omega), if_neg (by omega), List.getElem?_take, if_pos h1]
  · rw [List.getElem?_append_right (by omega), hl]
    by_cases h2 : i < pos + bs.length
    · rw [List.getElem?_append_left (by omega), if_pos ⟨by omega, h2⟩]
    · rw [List.getElem?_append_right (by omega), if_neg (by omega), List.getElem?_drop]
      congr 1
      omega

theorem patch_length {buf : List Nat} {pos : Nat} {bs : List Nat} (h : pos + bs.length ≤ buf.length) :
    (patch buf pos bs).length = buf.length := by
  unfold patch
  simp only [List.length_append, List.length_take, List.length_replicate, List.length_drop]
  omega

theorem readField_get (buf : List Nat) (pos n i : Nat) :
    (readField buf pos n)[i]? = if i < n then buf[pos + i]? else none := by
  unfold readField
  rw [List.getElem?_take]
  split
  · rw [List.getElem?_drop]
  · rfl

theorem readField_patch_same {buf : List Nat} {pos : Nat} {bs : List Nat} (h : pos + bs.length ≤ buf.length) :
    readField (patch buf pos bs) pos bs.length = bs := by
  apply List.ext_getElem?
  intro i
  rw [readField_get]
  split
  · rw [patch_get h, if_pos ⟨by omega, by omega⟩]
    congr 1
    omega
  · rw [List.getElem?_eq_none (by omega)]

theorem readField_congr {a b : List Nat} {pos n : Nat} (h : ∀ i, pos ≤ i → i < pos + n → a[i]? = b[i]?) :
    readField a pos n = readField b pos n := by
  apply List.ext_getElem?
  intro i
  rw [readField_get, readField_get]
  split
  · exact h _ (by omega) (by omega)
  · rfl

/-! ## `produce` -/

/-- The displacement `produce` writes for a use, if it resolves it. -/
def staticValue (w : Writer) (u : Use) : Option Int :=
  match w.defs[u.target]? with
  | some (some d) =>
    if d.location.section_ = u.location.section_ ∧ u.location.section_ ≠ .bss ∧
        (u.ty = .pcRel8 ∨ u.ty = .pcRel32) then
      some ((d.location.pos : Int) + u.addend - (u.location.pos : Int))
    else none
  | _ => none

/-- The displacement fits. -/
def InRange (ty : RelocType) (v : Int) : Prop :=
  match ty with
  | .pcRel8 => -128 ≤ v ∧ v ≤ 127
  | _ => -2147483648 ≤ v ∧ v ≤ 2147483647

/-- The relocation for a use. -/
def useReloc (w : Writer) (u : Use) : Option Reloc :=
  match relocOf w.names ((w.defs[u.target]?).bind id) u with
  | .ok r => some r
  | .error _ => none

/-- Byte `i` of section `s` is in the field of `u`. -/
def Covers (u : Use) (s : Section) (i : Nat) : Prop :=
  u.location.section_ = s ∧ u.location.pos ≤ i ∧ i < u.location.pos + width u.ty

/-- State of `produce` after the uses `done`. -/
structure Produced (w : Writer) (syms : List (String × Binding)) (done : List Use) (o : Object) : Prop where
  len : ∀ s, (o.buf s).length = (w.buf s).length
  static : ∀ u ∈ done, ∀ v, staticValue w u = some v → InRange u.ty v ∧
    readField (o.buf u.location.section_) u.location.pos (width u.ty) = leBytes (width u.ty) v
  reloc : o.relocs = done.filterMap (fun u => if (staticValue w u).isSome then none else useReloc w u)
  needed : ∀ u ∈ done, staticValue w u = none → (useReloc w u).isSome = true
  known : ∀ u ∈ done, u.target < w.defs.length
  frame : ∀ s i, (∀ u ∈ done, (staticValue w u).isSome = true → ¬ Covers u s i) →
    (o.buf s)[i]? = (w.buf s)[i]?
  symbols : o.symbols = syms
  bss : o.bss = w.bss

/-- The field of a use is inside its section. -/
def InSection (w : Writer) (u : Use) : Prop :=
  u.location.section_ ≠ .bss ∧ u.location.pos + width u.ty ≤ (w.buf u.location.section_).length

/-- The fields of two uses do not overlap. -/
def Apart (u v : Use) : Prop :=
  u.location.section_ = v.location.section_ →
    u.location.pos + width u.ty ≤ v.location.pos ∨ v.location.pos + width v.ty ≤ u.location.pos

theorem setBuf_buf {o : Object} {s : Section} (hs : s ≠ .bss) (b : List Nat) (t : Section) :
    (o.setBuf s b).buf t = if t = s then b else o.buf t := by
  cases s <;> cases t <;> first | rfl | exact absurd rfl hs

theorem setBuf_rest {o : Object} {s : Section} (b : List Nat) :
    (o.setBuf s b).relocs = o.relocs ∧ (o.setBuf s b).symbols = o.symbols ∧ (o.setBuf s b).bss = o.bss := by
  cases s <;> exact ⟨rfl, rfl, rfl⟩

theorem resolveStatically_some {ty : RelocType} {buf b : List Nat} {d p : Nat} {a : Int}
    (h : resolveStatically ty buf d p a = some (some b)) :
    (ty = .pcRel8 ∨ ty = .pcRel32) ∧ InRange ty ((d : Int) + a - (p : Int)) ∧
      b = patch buf p (leBytes (width ty) ((d : Int) + a - (p : Int))) := by
  cases ty <;> simp only [resolveStatically] at h
  · split at h
    · rename_i hc; cases h; exact ⟨.inl rfl, hc, rfl⟩
    · cases h
  · split at h
    · rename_i hc; cases h; exact ⟨.inr rfl, hc, rfl⟩
    · cases h
  · cases h
  · cases h

theorem resolveStatically_none {ty : RelocType} {buf : List Nat} {d p : Nat} {a : Int}
    (h : resolveStatically ty buf d p a = some none) : ¬ (ty = .pcRel8 ∨ ty = .pcRel32) := by
  cases ty <;> simp only [resolveStatically] at h
  · split at h <;> cases h
  · split at h <;> cases h
  · rintro (h | h) <;> cases h
  · rintro (h | h) <;> cases h

theorem produceUse_cases {w : Writer} {o o' : Object} {u : Use} (h : produceUse w o u = .ok o') :
    u.target < w.defs.length ∧
    ((∃ v, staticValue w u = some v ∧ InRange u.ty v ∧
        o' = o.setBuf u.location.section_ (patch (o.buf u.location.section_) u.location.pos (leBytes (width u.ty) v)) ∧
        u.location.section_ ≠ .bss) ∨
     (staticValue w u = none ∧ ∃ r, useReloc w u = some r ∧ o' = { o with relocs := o.relocs ++ [r] })) := by
  unfold produceUse at h
  split at h
  · cases h
  · rename_i hd
    have hlt := (List.getElem?_eq_some_iff.1 hd).1
    refine ⟨hlt, .inr ?_⟩
    split at h
    · rename_i r hr
      cases h
      refine ⟨by simp [staticValue, hd], r, ?_, rfl⟩
      simp only [useReloc, hd, Option.bind, id, hr]
    · cases h
  · rename_i d hd
    have hlt := (List.getElem?_eq_some_iff.1 hd).1
    refine ⟨hlt, ?_⟩
    split at h
    · cases h
    · rename_i o1 ht
      cases h
      unfold tryStatic at ht
      split at ht
      · rename_i hc
        split at ht
        · cases ht
        · rename_i b hb
          cases ht
          obtain ⟨h1, h2, h3⟩ := resolveStatically_some hb
          refine .inl ⟨_, ?_, h2, by rw [h3], hc.2⟩
          simp only [staticValue, hd]
          rw [if_pos ⟨hc.1, hc.2, h1⟩]
        · cases ht
      · cases ht
    · rename_i ht
      have hs : staticValue w u = none := by
        unfold tryStatic at ht
        simp only [staticValue, hd]
        split at ht
        · split at ht
          · cases ht
          · cases ht
          · rename_i hb
            rw [if_neg (fun hc => resolveStatically_none hb hc.2.2)]
        · rename_i hc
          rw [if_neg (fun h => hc ⟨h.1, h.2.1⟩)]
      refine .inr ⟨hs, ?_⟩
      split at h
      · rename_i r hr
        cases h
        refine ⟨r, ?_, rfl⟩
        simp only [useReloc, hd, Option.bind, id, hr]
      · cases h

theorem produceUses_ok {w : Writer} {syms : List (String × Binding)} : ∀ {us done : List Use} {o o' : Object},
    (∀ u ∈ us, InSection w u) → (∀ u ∈ done, ∀ v ∈ us, Apart u v) → us.Pairwise Apart →
    Produced w syms done o → produceUses w o us = .ok o' → Produced w syms (done ++ us) o' := by
  intro us
  induction us with
  | nil =>
    intro done o o' _ _ _ hp h
    cases h
    rw [List.append_nil]
    exact hp
  | cons u us ih =>
    intro done o o' hin hap hpw hp h
    simp only [produceUses] at h
    split at h
    · rename_i o1 h1
      have hpw' := List.pairwise_cons.1 hpw
      have key : Produced w syms (done ++ [u]) o1 := by
        obtain ⟨hlt, hc⟩ := produceUse_cases h1
        have hu := hin u (List.mem_cons_self ..)
        rcases hc with ⟨v, hv, hr, rfl, hs⟩ | ⟨hv, r, hr, rfl⟩
        · have hfit : u.location.pos + (leBytes (width u.ty) v).length ≤ (o.buf u.location.section_).length := by
            rw [hp.len, leBytes_length]
            exact hu.2
          obtain ⟨hb1, hb2, hb3⟩ := setBuf_rest (o := o) (s := u.location.section_)
            (patch (o.buf u.location.section_) u.location.pos (leBytes (width u.ty) v))
          refine ⟨?_, ?_, ?_, ?_, ?_, ?_, hb2.trans hp.symbols, hb3.trans hp.bss⟩
          · intro s
            rw [setBuf_buf hs]
            split
            · rename_i e
              rw [patch_length hfit, hp.len, e]
            · exact hp.len s
          · intro x hx vx hvx
            rw [setBuf_buf hs]
            rcases List.mem_append.1 hx with hx | hx
            · obtain ⟨a, b⟩ := hp.static x hx vx hvx
              refine ⟨a, ?_⟩
              split
              · rename_i e
                rw [← b, e]
                apply readField_congr
                intro i i1 i2
                rw [patch_get hfit, if_neg]
                intro hi
                rw [leBytes_length] at hi
                have := hap x hx u (List.mem_cons_self ..) e
                omega
              · exact b
            · rw [List.mem_singleton] at hx
              subst hx
              rw [hv] at hvx
              cases hvx
              refine ⟨hr, ?_⟩
              rw [if_pos rfl]
              have := readField_patch_same hfit
              rw [leBytes_length] at this
              exact this
          · rw [hb1, hp.reloc, List.filterMap_append]
            simp [hv]
          · intro x hx hxn
            rcases List.mem_append.1 hx with hx | hx
            · exact hp.needed x hx hxn
            · rw [List.mem_singleton] at hx
              subst hx
              rw [hv] at hxn
              cases hxn
          · intro x hx
            rcases List.mem_append.1 hx with hx | hx
            · exact hp.known x hx
            · rw [List.mem_singleton] at hx
              subst hx
              exact hlt
          · intro s i hn
            rw [setBuf_buf hs]
            have h0 := hp.frame s i (fun x hx => hn x (List.mem_append_left _ hx))
            split
            · rename_i e
              subst e
              rw [patch_get hfit, if_neg, h0]
              intro hi
              rw [leBytes_length] at hi
              exact hn u (List.mem_append_right _ (List.mem_singleton.2 rfl)) (by rw [hv]; rfl)
                ⟨rfl, hi.1, hi.2⟩
            · exact h0
        · refine ⟨hp.len, ?_, ?_, ?_, ?_, ?_, hp.symbols, hp.bss⟩
          · intro x hx vx hvx
            rcases List.mem_append.1 hx with hx | hx
            · exact hp.static x hx vx hvx
            · rw [List.mem_singleton] at hx
              subst hx
              rw [hv] at hvx
              cases hvx
          · show o.relocs ++ [r] = _
            rw [hp.reloc, List.filterMap_append]
            simp [hv, hr]
          · intro x hx hxn
            rcases List.mem_append.1 hx with hx | hx
            · exact hp.needed x hx hxn
            · rw [List.mem_singleton] at hx
              subst hx
              rw [hr]
              rfl
          · intro x hx
            rcases List.mem_append.1 hx with hx | hx
            · exact hp.known x hx
            · rw [List.mem_singleton] at hx
              subst hx
              exact hlt
          · intro s i hn
            exact hp.frame s i (fun x hx => hn x (List.mem_append_left _ hx))
      have := ih (done := done ++ [u]) (fun x hx => hin x (List.mem_cons_of_mem _ hx))
        (by
          intro x hx y hy
          rcases List.mem_append.1 hx with hx | hx
          · exact hap x hx y (List.mem_cons_of_mem _ hy)
          · rw [List.mem_singleton] at hx
            subst hx
            exact hpw'.1 y hy)
        hpw'.2 key h
      rwa [List.append_assoc] at this
    · cases h

theorem produce_ok {w : Writer} {o : Object} (hin : ∀ u ∈ w.uses, InSection w u) (hpw : w.uses.Pairwise Apart)
    (h : produce w = .ok o) : ∃ syms, symbolsOf w w.names = some syms ∧ Produced w syms w.uses o := by
  unfold produce at h
  split at h
  · cases h
  · rename_i syms hs
    refine ⟨syms, hs, ?_⟩
    have h0 : Produced w syms [] ⟨w.text, w.data, w.rodata, w.bss, syms, []⟩ := by
      refine ⟨fun s => ?_, fun u hu => (by cases hu), rfl, fun u hu => (by cases hu), fun u hu => (by cases hu),
        fun s i _ => ?_, rfl, rfl⟩ <;> cases s <;> rfl
    exact produceUses_ok hin (fun u hu => (by cases hu)) hpw h0 h

/-! ## Invariants of the operations -/

/-- Invariant of a writer. -/
structure Inv (w : Writer) : Prop where
  inSection : ∀ u ∈ w.uses, InSection w u
  apart : w.uses.Pairwise Apart
  labels : ∀ u ∈ w.uses, u.target < w.defs.length
  names : ∀ n l, (n, l) ∈ w.names → l < w.defs.length
  keys : (HMap.keys w.names).Nodup
  vals : (w.names.map (·.2)).Nodup
  defs : ∀ (l : Nat) (d : Def), w.defs[l]? = some (some d) → d.location.pos ≤ w.pos d.location.section_

/-- `w'` continues `w`. -/
structure Ext (w w' : Writer) : Prop where
  buf : ∀ s, w.buf s <+: w'.buf s
  pos : ∀ s, w.pos s ≤ w'.pos s
  defs : ∀ (l : Nat) (d : Def), w.defs[l]? = some (some d) → w'.defs[l]? = some (some d)
  len : w.defs.length ≤ w'.defs.length
  uses : w.uses <+: w'.uses
  names : ∀ n l, HMap.get w.names n = some l → HMap.get w'.names n = some l

/-- What a caller of `use` must ensure: the label is of this writer; the field was written, and no use
was recorded for any of its bytes. -/
def UseOk (w : Writer) (u : Use) : Prop :=
  u.target < w.defs.length ∧ InSection w u ∧ ∀ v ∈ w.uses, Apart v u

/-- Correct use of the writer: labels come from this writer, and see `UseOk`.  In `.text` uses are recorded
by the instructions with a label only (codegen.rs:1192-1205 is the only other caller of `use`, it works on
`.rodata`). -/
def OpOk (w : Writer) : Op → Prop
  | .define _ l _ => l < w.defs.length
  | .use loc l a ty => UseOk w ⟨loc, l, a, ty⟩ ∧ loc.section_ ≠ .text
  | .useRelative s o l a ty => s ≠ .text ∧
    ∀ loc, Location.offset ⟨s, w.pos s⟩ o = some loc → UseOk w ⟨loc, l, a, ty⟩
  | .inst i => i.label < w.defs.length
  | _ => True

/-- All operations of a program are correct uses. -/
def ProgOk : Writer → List Op → Prop
  | _, [] => True
  | w, op :: ops => OpOk w op ∧ ∀ w', step w op = some w' → ProgOk w' ops

theorem Ext.refl (w : Writer) : Ext w w :=
  ⟨fun _ => List.prefix_rfl, fun _ => Nat.le_refl _, fun _ _ h => h, Nat.le_refl _, List.prefix_rfl, fun _ _ h => h⟩

theorem Ext.trans {a b c : Writer} (h : Ext a b) (k : Ext b c) : Ext a c :=
  ⟨fun s => (h.buf s).trans (k.buf s), fun s => Nat.le_trans (h.pos s) (k.pos s),
    fun l d x => k.defs l d (h.defs l d x), Nat.le_trans h.len k.len, h.uses.trans k.uses,
    fun n l x => k.names n l (h.names n l x)⟩

theorem pos_eq_length {w : Writer} {s : Section} (h : s ≠ .bss) : w.pos s = (w.buf s).length := by
  cases s <;> first | rfl | exact absurd rfl h

theorem write_inv {w w' : Writer} {s : Section} {bytes : List Nat} (hw : Inv w) (h : write w s bytes = some w') :
    Inv w' ∧ Ext w w' ∧ w'.buf s = w.buf s ++ bytes ∧ w'.uses = w.uses ∧ w'.defs = w.defs ∧ s ≠ .bss ∧
      (∀ t, t ≠ s → w'.buf t = w.buf t ∧ w'.pos t = w.pos t) := by
  have hext : Ext w w' := by
    cases s <;> simp only [write] at h <;> cases h
    all_goals
      refine ⟨fun t => ?_, fun t => ?_, fun _ _ h => h, Nat.le_refl _, List.prefix_rfl, fun _ _ h => h⟩
      · cases t <;> first | exact List.prefix_rfl | exact List.prefix_append _ _
      · cases t <;> simp [Writer.pos]
  have hrest : w'.buf s = w.buf s ++ bytes ∧ w'.uses = w.uses ∧ w'.defs = w.defs ∧ s ≠ .bss ∧
      (∀ t, t ≠ s → w'.buf t = w.buf t ∧ w'.pos t = w.pos t) ∧ w'.names = w.names := by
    cases s <;> simp only [write] at h <;> cases h
    all_goals
      refine ⟨rfl, rfl, rfl, by decide, fun t ht => ?_, rfl⟩
      cases t <;> first | exact absurd rfl ht | exact ⟨rfl, rfl⟩
  obtain ⟨h1, h2, h3, h4, h5, h6⟩ := hrest
  refine ⟨?_, hext, h1, h2, h3, h4, h5⟩
  refine ⟨?_, h2 ▸ hw.apart, by rw [h2, h3]; exact hw.labels, by rw [h3, h6]; exact hw.names, h6 ▸ hw.keys,
    h6 ▸ hw.vals, ?_⟩
  · intro u hu
    rw [h2] at hu
    obtain ⟨a, b⟩ := hw.inSection u hu
    exact ⟨a, Nat.le_trans b (hext.buf _).length_le⟩
  · intro l d hd
    rw [h3] at hd
    exact Nat.le_trans (hw.defs l d hd) (hext.pos _)

theorem allocate_write {w : Writer} {s : Section} {n : Nat} (hs : s ≠ .bss) :
    ∃ bs, write w s bs = some (allocate w s n) := by
  cases s
  · exact ⟨_, rfl⟩
  · exact ⟨_, rfl⟩
  · exact ⟨_, rfl⟩
  · exact absurd rfl hs

theorem allocate_inv {w : Writer} {s : Section} {n : Nat} (hw : Inv w) :
    Inv (allocate w s n) ∧ Ext w (allocate w s n) := by
  by_cases hs : s = .bss
  · subst hs
    have hext : Ext w (allocate w .bss n) := by
      refine ⟨fun t => ?_, fun t => ?_, fun _ _ h => h, Nat.le_refl _, List.prefix_rfl, fun _ _ h => h⟩
      · cases t <;> exact List.prefix_rfl
      · cases t <;> simp [Writer.pos, allocate]
    refine ⟨⟨?_, hw.apart, hw.labels, hw.names, hw.keys, hw.vals, ?_⟩, hext⟩
    · intro u hu
      obtain ⟨a, b⟩ := hw.inSection u hu
      exact ⟨a, Nat.le_trans b (hext.buf _).length_le⟩
    · intro l d hd
      exact Nat.le_trans (hw.defs l d hd) (hext.pos _)
  · obtain ⟨bs, hb⟩ := allocate_write (w := w) (n := n) hs
    obtain ⟨a, b, _⟩ := write_inv hw hb
    exact ⟨a, b⟩

theorem useAt_inv {w : Writer} {loc : Location} {l : Nat} {a : Int} {ty : RelocType} (hw : Inv w)
    (h : UseOk w ⟨loc, l, a, ty⟩) : Inv (useAt w loc l a ty) ∧ Ext w (useAt w loc l a ty) := by
  refine ⟨⟨?_, ?_, ?_, hw.names, hw.keys, hw.vals, hw.defs⟩, ?_⟩
  · intro u hu
    rcases List.mem_append.1 hu with hu | hu
    · exact hw.inSection u hu
    · rw [List.mem_singleton] at hu
      subst hu
      exact h.2.1
  · show (w.uses ++ [_]).Pairwise Apart
    rw [List.pairwise_append]
    refine ⟨hw.apart, List.pairwise_singleton _ _, fun u hu v hv => ?_⟩
    rw [List.mem_singleton] at hv
    subst hv
    exact h.2.2 u hu
  · intro u hu
    rcases List.mem_append.1 hu with hu | hu
    · exact hw.labels u hu
    · rw [List.mem_singleton] at hu
      subst hu
      exact h.1
  · refine ⟨fun t => ?_, fun t => Nat.le_refl _, fun _ _ h => h, Nat.le_refl _, List.prefix_append _ _, fun _ _ h => h⟩
    cases t <;> exact List.prefix_rfl

theorem issue_inv {w : Writer} (hw : Inv w) : Inv (issueLabel w).2 ∧ Ext w (issueLabel w).2 := by
  have hext : Ext w (issueLabel w).2 := by
    refine ⟨fun t => ?_, fun t => Nat.le_refl _, fun l d hd => ?_, ?_, List.prefix_rfl, fun _ _ h => h⟩
    · cases t <;> exact List.prefix_rfl
    · show (w.defs ++ [none])[l]? = _
      rw [List.getElem?_append_left (List.getElem?_eq_some_iff.1 hd).1]
      exact hd
    · show _ ≤ (w.defs ++ [none]).length
      simp
  refine ⟨⟨hw.inSection, hw.apart, fun u hu => Nat.lt_of_lt_of_le (hw.labels u hu) hext.len,
    fun n l h => Nat.lt_of_lt_of_le (hw.names n l h) hext.len, hw.keys, hw.vals, ?_⟩, hext⟩
  intro l d hd
  have hd' : (w.defs ++ [none])[l]? = some (some d) := hd
  by_cases hl : l < w.defs.length
  · rw [List.getElem?_append_left hl] at hd'
    exact hw.defs l d hd'
  · rw [List.getElem?_append_right (by omega)] at hd'
    cases hk : l - w.defs.length with
    | zero => rw [hk] at hd'; cases hd'
    | succ k => rw [hk] at hd'; cases hd'

theorem get_inv {w : Writer} {name : String} (hw : Inv w) : Inv (getLabel w name).2 ∧ Ext w (getLabel w name).2 := by
  unfold getLabel
  split
  · exact ⟨hw, Ext.refl w⟩
  · rename_i hn
    obtain ⟨hi, he⟩ := issue_inv hw
    have hnk : name ∉ HMap.keys w.names := by
      rw [HMap.mem_keys_iff, hn]
      exact fun h => by cases h
    have hrem : HMap.insert w.names name w.defs.length = (name, w.defs.length) :: w.names := by
      unfold HMap.insert HMap.remove
      congr 1
      rw [List.filter_eq_self]
      intro p hp
      have : p.1 ≠ name := fun e => hnk (e ▸ List.mem_map_of_mem hp)
      simpa using this
    have e : (issueLabel w).2.names = w.names := rfl
    refine ⟨⟨hi.inSection, hi.apart, hi.labels, ?_, ?_, ?_, hi.defs⟩, ?_⟩
    · show ∀ n l, (n, l) ∈ HMap.insert w.names name w.defs.length → l < (w.defs ++ [none]).length
      rw [hrem]
      intro n l hm
      rcases List.mem_cons.1 hm with h | h
      · cases h; simp
      · have := hw.names n l h
        simp; omega
    · show (HMap.keys (HMap.insert w.names name w.defs.length)).Nodup
      rw [hrem]
      exact List.nodup_cons.2 ⟨hnk, hw.keys⟩
    · show ((HMap.insert w.names name w.defs.length).map (·.2)).Nodup
      rw [hrem]
      refine List.nodup_cons.2 ⟨fun h => ?_, hw.vals⟩
      obtain ⟨⟨n, l⟩, h1, h2⟩ := List.mem_map.1 h
      have := hw.names n l h1
      simp only at h2
      omega
    · refine ⟨he.buf, he.pos, he.defs, he.len, he.uses, fun n l h => ?_⟩
      show HMap.get (HMap.insert w.names name w.defs.length) n = some l
      rw [HMap.get_insert]
      split
      · rename_i e
        subst e
        rw [hn] at h
        cases h
      · exact h

theorem define_inv {w w' : Writer} {s : Section} {l : Nat} {g : Bool} (hw : Inv w)
    (h : define w s l g = some w') :
    Inv w' ∧ Ext w w' ∧ w'.defs[l]? = some (some ⟨g, ⟨s, w.pos s⟩⟩) := by
  unfold define at h
  split at h
  · rename_i hl
    have hlt := (List.getElem?_eq_some_iff.1 hl).1
    cases h
    have hbuf : ∀ t, Writer.buf { w with defs := w.defs.set l (some ⟨g, ⟨s, w.pos s⟩⟩) } t = w.buf t := by
      intro t; cases t <;> rfl
    have hpos : ∀ t, Writer.pos { w with defs := w.defs.set l (some ⟨g, ⟨s, w.pos s⟩⟩) } t = w.pos t := by
      intro t; cases t <;> rfl
    refine ⟨⟨?_, hw.apart, ?_, ?_, hw.keys, hw.vals, ?_⟩, ?_, ?_⟩
    · intro u hu
      obtain ⟨a, b⟩ := hw.inSection u hu
      exact ⟨a, by rw [hbuf]; exact b⟩
    · intro u hu
      simp only [List.length_set]
      exact hw.labels u hu
    · intro n k hk
      simp only [List.length_set]
      exact hw.names n k hk
    · intro k d hd
      simp only [List.getElem?_set] at hd
      rw [hpos]
      split at hd
      · cases hd
        exact Nat.le_refl _
      · exact hw.defs k d hd
    · refine ⟨fun t => by rw [hbuf]; exact List.prefix_rfl, fun t => by rw [hpos]; exact Nat.le_refl _,
        fun k d hd => ?_, by simp, List.prefix_rfl, fun _ _ h => h⟩
      simp only [List.getElem?_set]
      split
      · rename_i e
        subst e
        rw [hl] at hd
        cases hd
      · exact hd
    · simp only [List.getElem?_set, if_true, if_pos hlt]
  · cases h

theorem useRelative_inv {w w' : Writer} {s : Section} {o : Int} {l : Nat} {a : Int} {ty : RelocType} (hw : Inv w)
    (hok : ∀ loc, Location.offset ⟨s, w.pos s⟩ o = some loc → UseOk w ⟨loc, l, a, ty⟩)
    (h : useRelative w s o l a ty = some w') : Inv w' ∧ Ext w w' := by
  unfold useRelative at h
  cases hl : Location.offset ⟨s, w.pos s⟩ o with
  | none => rw [hl] at h; cases h
  | some loc =>
    rw [hl] at h
    cases h
    exact useAt_inv hw (hok loc hl)

/-- Size of the field of an instruction with a label. -/
def LabelInst.width (i : LabelInst) : Nat := Spec.width i.use.2.2

/-- Instructions with a label: what is written, and the use recorded. -/
theorem inst_cases {w w' : Writer} {i : LabelInst} (h : inst w i = some w') :
    ∃ bs, i.bytes = some bs ∧ i.width ≤ w.text.length + bs.length ∧
      w' = useAt { w with text := w.text ++ bs } ⟨.text, w.text.length + bs.length - i.width⟩ i.label i.use.2.1 i.use.2.2 := by
  unfold inst at h
  cases hb : i.bytes with
  | none => rw [hb] at h; cases h
  | some bs =>
    rw [hb] at h
    refine ⟨bs, rfl, ?_⟩
    simp only [write, bind, Option.bind, useRelative] at h
    cases hl : Location.offset ⟨.text, Writer.pos { w with text := w.text ++ bs } .text⟩ i.use.1 with
    | none => rw [hl] at h; cases h
    | some loc =>
      rw [hl] at h
      cases h
      unfold Location.offset at hl
      have e : i.use.1 = -(i.width : Int) := by cases i <;> rfl
      rw [e] at hl
      simp only [Writer.pos, List.length_append] at hl
      split at hl
      · rename_i hc
        cases hl
        refine ⟨by omega, ?_⟩
        congr 2
        omega
      · cases hl

theorem encode_rip_shape {legacy : List Nat} {w : Bool} {opcode : List Nat} {reg : RegSlot} {imm bs : List Nat}
    (h : encodeModRM legacy w opcode reg (.mem (.ripDisp 0)) imm = some bs) :
    ∃ pre, bs = pre ++ leBytes 4 0 ++ imm ∧ pre ≠ [] ∧
      ∀ v imm', encodeModRM legacy w opcode reg (.mem (.ripDisp v)) imm' = some (pre ++ leBytes 4 v ++ imm') := by
  obtain ⟨r, m, rex, b, sib, disp, h1, h2, h3, h4, h5, h6, rfl⟩ := encode_shape h
  have hm : ∀ v, RmSlot.toRm (.mem (.ripDisp v)) =
      some ⟨0, 5, false, false, none, none, none, some (.disp32 v), .notRequired⟩ := fun v => rfl
  rw [hm] at h2
  cases h2
  cases h5
  cases h6
  refine ⟨legacy ++ rex.toList ++ opcode ++ [b], by simp [Displacement.bytes], by simp, fun v imm' => ?_⟩
  simp only [encodeModRM, bind, h1, hm, Option.bind]
  have e3 : (ModRM.mk r ⟨0, 5, false, false, none, none, none, some (.disp32 v), .notRequired⟩).rexByte w = some rex := h3
  have e4 : (ModRM.mk r ⟨0, 5, false, false, none, none, none, some (.disp32 v), .notRequired⟩).byte = some b := h4
  rw [e3, e4]
  have e5 : Rm.sibByte ⟨0, 5, false, false, none, none, none, some (.disp32 v), .notRequired⟩ = some none := rfl
  have e6 : Rm.dispBytes ⟨0, 5, false, false, none, none, none, some (.disp32 v), .notRequired⟩ =
    some (some (leBytes 4 v)) := rfl
  simp [e5, e6]

/-- The last bytes are the field. -/
theorem bytes_shape {i : LabelInst} {bs : List Nat} (h : i.bytes = some bs) : i.width ≤ bs.length := by
  cases i
  case call | jmp | jmpShort | jcc | jccShort => cases h; simp [LabelInst.width, LabelInst.use, Spec.width, leBytes_length]
  all_goals
    obtain ⟨pre, rfl, _⟩ := encode_rip_shape h
    simp only [List.length_append, leBytes_length]
    exact Nat.le_add_right_of_le (Nat.le_add_left _ _)

theorem inst_inv {w w' : Writer} {i : LabelInst} (hw : Inv w) (hl : i.label < w.defs.length)
    (h : inst w i = some w') : Inv w' ∧ Ext w w' := by
  obtain ⟨bs, hb, hle, rfl⟩ := inst_cases h
  have hbl := bytes_shape hb
  obtain ⟨h1, h2, h3, h4, h5, _, h7⟩ := write_inv hw (rfl : write w .text bs = some _)
  obtain ⟨h8, h9⟩ := useAt_inv (loc := ⟨.text, w.text.length + bs.length - i.width⟩) (l := i.label)
    (a := i.use.2.1) (ty := i.use.2.2) h1
    ⟨hl, ⟨(fun h => by cases h), by
      show w.text.length + bs.length - i.width + i.width ≤ (w.text ++ bs).length
      rw [List.length_append]; omega⟩, fun v hv hs => by
      have := (hw.inSection v hv).2
      rw [hs] at this
      left
      show v.location.pos + Spec.width v.ty ≤ w.text.length + bs.length - i.width
      have : v.location.pos + Spec.width v.ty ≤ w.text.length := this
      omega⟩
  exact ⟨h8, h2.trans h9⟩

theorem step_inv {w w' : Writer} {op : Op} (hw : Inv w) (hok : OpOk w op) (h : step w op = some w') :
    Inv w' ∧ Ext w w' := by
  cases op with
  | issue => cases h; exact issue_inv hw
  | get name => cases h; exact get_inv hw
  | define s l g => exact ⟨(define_inv hw h).1, (define_inv hw h).2.1⟩
  | write s bytes => exact ⟨(write_inv hw h).1, (write_inv hw h).2.1⟩
  | allocate s n => cases h; exact allocate_inv hw
  | align s a =>
    simp only [step, align] at h
    split at h
    · cases h
    · cases h
      split
      · exact allocate_inv hw
      · exact ⟨hw, Ext.refl w⟩
  | use loc l a ty => cases h; exact useAt_inv hw hok.1
  | useRelative s o l a ty => exact useRelative_inv hw hok.2 h
  | inst i => exact inst_inv hw hok h

theorem inv_new : Inv Writer.new :=
  ⟨fun u hu => (by cases hu), .nil, fun u hu => (by cases hu), fun n l h => (by cases h), .nil, .nil,
    fun l d h => (by cases h)⟩

theorem run_inv : ∀ {ops : List Op} {w w' : Writer}, Inv w → ProgOk w ops → run w ops = some w' →
    Inv w' ∧ Ext w w' := by
  intro ops
  induction ops with
  | nil => intro w w' hw _ h; cases h; exact ⟨hw, Ext.refl w⟩
  | cons op ops ih =>
    intro w w' hw hok h
    simp only [run, bind, Option.bind] at h
    cases h1 : step w op with
    | none => rw [h1] at h; cases h
    | some w1 =>
      rw [h1] at h
      obtain ⟨a, b⟩ := step_inv hw hok.1 h1
      obtain ⟨c, d⟩ := ih a (hok.2 w1 h1) h
      exact ⟨c, b.trans d⟩

theorem run_append : ∀ {a b : List Op} {w w' : Writer}, run w (a ++ b) = some w' →
    ∃ w1, run w a = some w1 ∧ run w1 b = some w' := by
  intro a
  induction a with
  | nil => intro b w w' h; exact ⟨w, rfl, h⟩
  | cons op a ih =>
    intro b w w' h
    simp only [List.cons_append, run, bind, Option.bind] at h ⊢
    cases h1 : step w op with
    | none => rw [h1] at h; cases h
    | some w1 =>
      rw [h1] at h
      exact ih h

theorem progOk_append : ∀ {a b : List Op} {w w1 : Writer}, ProgOk w (a ++ b) → run w a = some w1 →
    ProgOk w a ∧ ProgOk w1 b := by
  intro a
  induction a with
  | nil => intro b w w1 h h1; cases h1; exact ⟨trivial, h⟩
  | cons op a ih =>
    intro b w w1 h h1
    simp only [run, bind, Option.bind] at h1
    cases h2 : step w op with
    | none => rw [h2] at h1; cases h1
    | some w2 =>
      rw [h2] at h1
      have := ih (h.2 w2 h2) h1
      exact ⟨⟨h.1, fun w' hw' => by rw [h2] at hw'; cases hw'; exact this.1⟩, this.2⟩

/-- Uses recorded later in `.text` are in bytes written later. -/
theorem step_uses {w w' : Writer} {op : Op} (hok : OpOk w op) (h : step w op = some w') {u : Use}
    (hu : u ∈ w'.uses) : u ∈ w.uses ∨ u.location.section_ ≠ .text ∨ w.text.length ≤ u.location.pos := by
  cases op with
  | issue => cases h; exact .inl hu
  | get name =>
    cases h
    left
    simp only [getLabel] at hu
    split at hu
    · exact hu
    · exact hu
  | define s l g =>
    simp only [step, define] at h
    split at h
    · cases h; exact .inl hu
    · cases h
  | write s bytes => cases s <;> cases h <;> exact .inl hu
  | allocate s n => cases s <;> cases h <;> exact .inl hu
  | align s a =>
    simp only [step, align] at h
    split at h
    · cases h
    · cases h
      split at hu
      · cases s <;> exact .inl hu
      · exact .inl hu
  | use loc l a ty =>
    cases h
    rcases List.mem_append.1 hu with hu | hu
    · exact .inl hu
    · rw [List.mem_singleton] at hu
      subst hu
      exact .inr (.inl hok.2)
  | useRelative s o l a ty =>
    simp only [step, useRelative, bind, Option.bind_eq_some_iff] at h
    obtain ⟨loc, hl, h⟩ := h
    cases h
    rcases List.mem_append.1 hu with hu | hu
    · exact .inl hu
    · rw [List.mem_singleton] at hu
      subst hu
      right; left
      unfold Location.offset at hl
      split at hl
      · cases hl; exact hok.1
      · cases hl
  | inst i =>
    obtain ⟨bs, hb, hle, rfl⟩ := inst_cases h
    have := bytes_shape hb
    rcases List.mem_append.1 hu with hu | hu
    · exact .inl hu
    · rw [List.mem_singleton] at hu
      subst hu
      right; right
      show w.text.length ≤ w.text.length + bs.length - i.width
      omega

theorem run_uses : ∀ {ops : List Op} {w w' : Writer}, Inv w → ProgOk w ops → run w ops = some w' →
    ∀ u ∈ w'.uses, u ∈ w.uses ∨ u.location.section_ ≠ .text ∨ w.text.length ≤ u.location.pos := by
  intro ops
  induction ops with
  | nil => intro w w' _ _ h; cases h; exact fun u hu => .inl hu
  | cons op ops ih =>
    intro w w' hw hok h u hu
    simp only [run, bind, Option.bind] at h
    cases h1 : step w op with
    | none => rw [h1] at h; cases h
    | some w1 =>
      rw [h1] at h
      obtain ⟨hi, he⟩ := step_inv hw hok.1 h1
      have hlen : w.text.length ≤ w1.text.length := he.pos .text
      rcases ih hi (hok.2 w1 h1) h u hu with h2 | h2 | h2
      · exact step_uses hok.1 h1 h2
      · exact .inr (.inl h2)
      · exact .inr (.inr (by omega))

/-- What a program leaves of one of its instructions. -/
theorem inst_in_writer {pre post : List Op} {i : LabelInst} {w : Writer}
    (hok : ProgOk Writer.new (pre ++ .inst i :: post)) (h : run Writer.new (pre ++ .inst i :: post) = some w) :
    Inv w ∧ ∃ w0 bs, run Writer.new pre = some w0 ∧ i.bytes = some bs ∧ i.width ≤ bs.length ∧
      (⟨⟨.text, w0.text.length + (bs.length - i.width)⟩, i.label, i.use.2.1, i.use.2.2⟩ : Use) ∈ w.uses ∧
      w0.text ++ bs <+: w.text ∧
      ∀ u ∈ w.uses, u.location.section_ = .text → u.location.pos + Spec.width u.ty ≤ w0.text.length ∨
        w0.text.length + (bs.length - i.width) ≤ u.location.pos := by
  obtain ⟨w0, h0, h1⟩ := run_append h
  obtain ⟨ok0, ok1⟩ := progOk_append hok h0
  obtain ⟨i0, e0⟩ := run_inv inv_new ok0 h0
  have hi := (run_inv inv_new hok h).1
  simp only [run, bind, Option.bind_eq_some_iff] at h1
  obtain ⟨w1, hs, h1⟩ := h1
  obtain ⟨i1, e1⟩ := step_inv i0 ok1.1 hs
  have ok2 := ok1.2 w1 hs
  obtain ⟨i2, e2⟩ := run_inv i1 ok2 h1
  obtain ⟨bs, hb, hle, hw1⟩ := inst_cases hs
  have hbl := bytes_shape hb
  have hw1' : w1 = useAt { w0 with text := w0.text ++ bs } ⟨.text, w0.text.length + (bs.length - i.width)⟩
      i.label i.use.2.1 i.use.2.2 := by
    rw [hw1]
    congr 2
    omega
  subst hw1'
  refine ⟨hi, w0, bs, h0, hb, hbl, ?_, ?_, ?_⟩
  · exact e2.uses.subset (List.mem_append_right _ (List.mem_singleton.2 rfl))
  · exact e2.buf .text
  · intro u hu ht
    rcases run_uses i1 ok2 h1 u hu with h2 | h2 | h2
    · rcases List.mem_append.1 h2 with h2 | h2
      · left
        have := (i0.inSection u h2).2
        rw [ht] at this
        exact this
      · rw [List.mem_singleton] at h2
        subst h2
        exact .inr (Nat.le_refl _)
    · exact absurd ht h2
    · right
      have : (w0.text ++ bs).length ≤ u.location.pos := h2
      rw [List.length_append] at this
      omega

/-- A definition stays. -/
theorem define_in_writer {pre post : List Op} {s : Section} {l : Nat} {g : Bool} {w : Writer}
    (hok : ProgOk Writer.new (pre ++ .define s l g :: post))
    (h : run Writer.new (pre ++ .define s l g :: post) = some w) :
    ∃ w0, run Writer.new pre = some w0 ∧ w.defs[l]? = some (some ⟨g, ⟨s, w0.pos s⟩⟩) := by
  obtain ⟨w0, h0, h1⟩ := run_append h
  obtain ⟨ok0, ok1⟩ := progOk_append hok h0
  obtain ⟨i0, e0⟩ := run_inv inv_new ok0 h0
  simp only [run, bind, Option.bind_eq_some_iff] at h1
  obtain ⟨w1, hs, h1⟩ := h1
  obtain ⟨i1, e1, hd⟩ := define_inv i0 hs
  obtain ⟨i2, e2⟩ := run_inv i1 (ok1.2 w1 hs) h1
  exact ⟨w0, h0, e2.defs _ _ hd⟩

end Verif.Obj
