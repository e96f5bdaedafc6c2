import Verif.Elf.File
import Mathlib.Data.List.Forall2

/-! # The sections of an object -/

namespace Verif.Elf

/-- The octets of a symbol table and its strings. -/
def Symtab.Octets (t : Symtab) : Prop :=
  (∀ b ∈ t.payload, b < 256) ∧ ∀ b ∈ t.strtab.payload, b < 256

theorem Symtab.add_octets {t t' : Symtab} {s : Symbol} {i : Nat} (h : t.add s = some (i, t'))
    (ho : t.Octets) (hs : ∀ b ∈ s.name, b < 256) : t'.Octets := by
  unfold Symtab.add at h
  split at h
  swap
  · cases h
  rename_i name strtab hg
  simp only [Option.some.injEq, Prod.mk.injEq] at h
  obtain ⟨-, rfl⟩ := h
  refine ⟨?_, Strtab.get_octets hg ho.2 hs⟩
  intro b hb
  simp only [List.mem_append] at hb
  exact hb.elim (ho.1 b) (encs_octets _ b)

/-- The map from names to symbols is right. -/
def MapOk (all : List (Bytes × Binding)) (ix : Sec → Nat) (m : List (Bytes × Nat))
    (l : List Sym) : Prop :=
  l.length < 2 ^ 32 → ∀ s i, m.lookup s = some i →
    ∃ b, (s, b) ∈ all ∧ l[i]? = some (symOf ix (s, b))

theorem MapOk.append {all ix m l} (h : MapOk all ix m l) (y : List Sym) :
    MapOk all ix m (l ++ y) := by
  intro hl s i hs
  obtain ⟨b, h1, h2⟩ := h (by simp only [List.length_append] at hl; omega) s i hs
  refine ⟨b, h1, ?_⟩
  rw [List.getElem?_append_left (List.getElem?_eq_some_iff.mp h2).1, h2]

theorem MapOk.push {all ix m l} (h : MapOk all ix m l) (s : Bytes) (b : Binding)
    (hs : (s, b) ∈ all) :
    MapOk all ix ((s, l.length % 2 ^ 32) :: m) (l ++ [symOf ix (s, b)]) := by
  intro hl s' i hi
  simp only [List.lookup] at hi
  split at hi
  · rename_i heq
    simp only [beq_iff_eq] at heq
    cases hi; subst heq
    refine ⟨b, hs, ?_⟩
    simp only [List.length_append] at hl
    rw [Nat.mod_eq_of_lt (by omega)]
    simp
  · exact h.append _ hl s' i hi

/-- The symbols of an object have the ranges of their types. -/
def SymsTyped (ss : List (Bytes × Binding)) : Prop :=
  ∀ s ∈ ss, (∀ b ∈ s.1, b < 256) ∧
    ∀ l, s.2 = .local l ∨ s.2 = .global (some l) → l.pos < 2 ^ 64

theorem addLocals_spec (ix : Sec → Nat) (hix : ∀ s, ix s < 2 ^ 16) (all : List (Bytes × Binding))
    (hall : SymsTyped all) (ss : List (Bytes × Binding)) (hss : ∀ x ∈ ss, x ∈ all)
    (t t' : Symtab) (m m' : List (Bytes × Nat)) (l : List Sym)
    (h : addLocals ix ss t m = some (t', m')) (hr : t.Reads l) (hf : t.first = none)
    (hm : MapOk all ix m l) (ho : t.Octets) :
    t'.Reads (l ++ (ss.filter isLocal).map (symOf ix)) ∧ t'.first = none ∧
      MapOk all ix m' (l ++ (ss.filter isLocal).map (symOf ix)) ∧ t'.Octets := by
  induction ss generalizing t m l with
  | nil =>
    simp only [addLocals, Option.some.injEq, Prod.mk.injEq] at h
    obtain ⟨rfl, rfl⟩ := h
    simpa using ⟨hr, hf, hm, ho⟩
  | cons x ss ih =>
    obtain ⟨name, b⟩ := x
    have hin := hss _ List.mem_cons_self
    have hss' : ∀ x ∈ ss, x ∈ all := fun x hx => hss x (List.mem_cons_of_mem _ hx)
    cases b with
    | «local» lc =>
      simp only [addLocals] at h
      split at h
      swap
      · cases h
      rename_i i t1 ha
      have hty := hall _ hin
      obtain ⟨r1, f1, hi, -⟩ := Symtab.add_spec ha hr ⟨by simp [Symbol.new], hix _,
        hty.2 lc (Or.inl rfl)⟩
      have o1 := Symtab.add_octets ha ho hty.1
      rw [hf] at r1
      subst hi
      have := ih hss' t1 _ _ h r1 (f1.trans hf) (hm.push name (.local lc) hin) o1
      rw [List.filter_cons_of_pos (by rfl)]
      simpa [symOf, Symbol.read, Symbol.new] using this
    | global lc =>
      simp only [addLocals] at h
      have := ih hss' t _ _ h hr hf hm ho
      simpa [isLocal] using this

theorem addGlobals_spec (ix : Sec → Nat) (hix : ∀ s, ix s < 2 ^ 16) (all : List (Bytes × Binding))
    (hall : SymsTyped all) (ss : List (Bytes × Binding)) (hss : ∀ x ∈ ss, x ∈ all)
    (t t' : Symtab) (m m' : List (Bytes × Nat)) (l : List Sym)
    (h : addGlobals ix ss t m = some (t', m')) (hr : t.Reads l) (hf : t.first.isSome)
    (hm : MapOk all ix m l) (ho : t.Octets) :
    t'.Reads (l ++ (ss.filter fun s => !isLocal s).map (symOf ix)) ∧ t'.first = t.first ∧
      MapOk all ix m' (l ++ (ss.filter fun s => !isLocal s).map (symOf ix)) ∧ t'.Octets := by
  induction ss generalizing t m l with
  | nil =>
    simp only [addGlobals, Option.some.injEq, Prod.mk.injEq] at h
    obtain ⟨rfl, rfl⟩ := h
    simpa using ⟨hr, hm, ho⟩
  | cons x ss ih =>
    obtain ⟨name, b⟩ := x
    have hin := hss _ List.mem_cons_self
    have hss' : ∀ x ∈ ss, x ∈ all := fun x hx => hss x (List.mem_cons_of_mem _ hx)
    cases b with
    | «local» lc =>
      simp only [addGlobals] at h
      have := ih hss' t _ _ h hr hf hm ho
      simpa [isLocal] using this
    | global lc =>
      simp only [addGlobals] at h
      split at h
      swap
      · cases h
      rename_i i t1 ha
      have hty := hall _ hin
      have step : ∀ sym : Symbol, t.add sym = some (i, t1) → sym.Fits → sym.name = name →
          sym.read true = symOf ix (name, .global lc) →
          t'.Reads (l ++ ((((name, Binding.global lc) :: ss).filter fun s => !isLocal s)).map
            (symOf ix)) ∧ t'.first = t.first ∧
          MapOk all ix m' (l ++ ((((name, Binding.global lc) :: ss).filter
            fun s => !isLocal s)).map (symOf ix)) ∧ t'.Octets := by
        intro sym ha hfit hn hread
        obtain ⟨r1, f1, hi, -⟩ := Symtab.add_spec ha hr hfit
        have o1 := Symtab.add_octets ha ho (by rw [hn]; exact hty.1)
        rw [hf, hread] at r1
        subst hi
        have := ih hss' t1 _ _ h r1 (f1 ▸ hf) (hm.push name (.global lc) hin) o1
        rw [f1] at this
        simpa [isLocal] using this
      cases lc with
      | none => exact step _ ha ⟨by simp [Symbol.undef, Symbol.new], by simp [Symbol.undef,
          Symbol.new], by simp [Symbol.undef, Symbol.new]⟩ rfl rfl
      | some lc => exact step _ ha ⟨by simp [Symbol.new], hix _, hty.2 lc (Or.inr rfl)⟩ rfl rfl

/-! ## Relocations -/

def Relas.get (p : Relas) : Sec → Bytes
  | .text => p.text
  | .data => p.data
  | .rodata => p.rodata
  | .bss => []

/-- The payload of a relocation section is read as the relocations so far. -/
def RelaOk (o : Object) (ix : Sec → Nat) (syms : List Sym) (q : Bytes) (done : List Reloc) :
    Prop :=
  (∀ b ∈ q, b < 256) ∧ ∃ rels, Table relAt q rels ∧ List.Forall₂ (SameReloc o ix syms) done rels

theorem relaEntry_length (a b c : Nat) (d : Int) : (relaEntry a b c d).length = 24 := by
  simp [relaEntry, encs_length]

theorem RelaOk.push {o : Object} {ix : Sec → Nat} {syms : List Sym} {q : Bytes}
    {done : List Reloc} {r : Reloc} {sym : Nat} (h : RelaOk o ix syms q done)
    (hr : r.loc.pos < 2 ^ 64 ∧ -2 ^ 63 ≤ r.addend ∧ r.addend < 2 ^ 63) (hsym : sym < 2 ^ 32)
    (hs : SameReloc o ix syms r ⟨r.loc.pos, sym, relType r.ty, r.addend⟩) :
    RelaOk o ix syms (q ++ relaEntry r.loc.pos sym (relocNumber r.ty) r.addend) (done ++ [r]) := by
  obtain ⟨ho, rels, h1, h2⟩ := h
  refine ⟨?_, rels ++ [⟨r.loc.pos, sym, relType r.ty, r.addend⟩], ?_, ?_⟩
  · intro b hb
    simp only [List.mem_append] at hb
    exact hb.elim (ho b) (encs_octets _ b)
  · refine h1.push (fun off ho => relAt_append _ _ _ ho) (relaEntry_length _ _ _ _) ?_
    have : relocNumber r.ty = relType r.ty := by cases r.ty <;> rfl
    rw [relAt_entry _ _ _ _ _ hr.1 hsym (by cases r.ty <;> simp [relocNumber]) hr.2.1 hr.2.2, this]
  · exact List.rel_append h2 (List.Forall₂.cons hs .nil)

theorem addRelocs_spec (o : Object) (ix sx : Sec → Nat) (m : List (Bytes × Nat)) (syms : List Sym)
    (hm : ∀ s i, m.lookup s = some i →
      ∃ b, (s, b) ∈ o.symbols ∧ syms[i]? = some (symOf ix (s, b)))
    (hsx : ∀ s, syms[sx s]? = some (sectionSym ix s)) (hlen : syms.length < 2 ^ 32)
    (rs done : List Reloc) (p p' : Relas)
    (hrs : ∀ r ∈ rs, r.loc.pos < 2 ^ 64 ∧ -2 ^ 63 ≤ r.addend ∧ r.addend < 2 ^ 63)
    (hp : ∀ s, s ≠ .bss → RelaOk o ix syms (p.get s) (done.filter fun r => r.loc.sec = s))
    (h : addRelocs m sx rs p = some p') :
    ∀ s, s ≠ .bss → RelaOk o ix syms (p'.get s) ((done ++ rs).filter fun r => r.loc.sec = s) := by
  induction rs generalizing done p with
  | nil =>
    simp only [addRelocs, Option.some.injEq] at h
    subst h
    simpa using hp
  | cons r rs ih =>
    simp only [addRelocs] at h
    split at h
    swap
    · cases h
    rename_i sym hsym
    have hsame : sym < 2 ^ 32 ∧ SameReloc o ix syms r ⟨r.loc.pos, sym, relType r.ty, r.addend⟩ := by
      cases ht : r.target with
      | symbol s =>
        rw [ht] at hsym
        obtain ⟨b, h1, h2⟩ := hm s sym hsym
        refine ⟨lt_trans (List.getElem?_eq_some_iff.mp h2).1 hlen, rfl, rfl, rfl, ?_⟩
        rw [ht]
        exact ⟨b, h1, h2⟩
      | «section» s =>
        rw [ht] at hsym
        cases hsym
        refine ⟨lt_trans (List.getElem?_eq_some_iff.mp (hsx s)).1 hlen, rfl, rfl, rfl, ?_⟩
        rw [ht]
        exact hsx s
    have step : ∀ p1 : Relas,
        (∀ s, s ≠ .bss → p1.get s = if r.loc.sec = s then
          p.get s ++ relaEntry r.loc.pos sym (relocNumber r.ty) r.addend else p.get s) →
        addRelocs m sx rs p1 = some p' →
        ∀ s, s ≠ .bss →
          RelaOk o ix syms (p'.get s) ((done ++ r :: rs).filter fun r => r.loc.sec = s) := by
      intro p1 hp1 h1
      have := ih (done ++ [r]) p1 (fun r hr => hrs r (List.mem_cons_of_mem _ hr)) ?_ h1
      · simpa using this
      intro s hs
      rw [hp1 s hs, List.filter_append]
      by_cases he : r.loc.sec = s
      · rw [if_pos he, List.filter_cons_of_pos (by simpa using he), List.filter_nil]
        exact (hp s hs).push (hrs r List.mem_cons_self) hsame.1 hsame.2
      · rw [if_neg he, List.filter_cons_of_neg (by simpa using he), List.filter_nil,
          List.append_nil]
        exact hp s hs
    cases hl : r.loc.sec with
    | bss => rw [hl] at h; cases h
    | text =>
      rw [hl] at h
      refine step _ ?_ h
      intro s hs
      cases s <;> simp_all [Relas.get]
    | data =>
      rw [hl] at h
      refine step _ ?_ h
      intro s hs
      cases s <;> simp_all [Relas.get]
    | rodata =>
      rw [hl] at h
      refine step _ ?_ h
      intro s hs
      cases s <;> simp_all [Relas.get]

/-! ## The list of sections -/

/-- The indices of the sections. -/
abbrev secIx : Sec → Nat := shndxOf 1 2 3 4

/-- The indices of the symbols for the sections. -/
abbrev secSym : Sec → Nat := shndxOf 2 3 4 5

/-- All symbols. -/
def allSyms (file : Bytes) (o : Object) : List Sym :=
  [⟨[], 0, 0, 0, 0, 0, 0⟩, ⟨file, 0, 4, 0, 0xfff1, 0, 0⟩,
    sectionSym secIx .text, sectionSym secIx .data, sectionSym secIx .rodata,
    sectionSym secIx .bss] ++
  (o.symbols.filter isLocal).map (symOf secIx) ++
  (o.symbols.filter fun s => !isLocal s).map (symOf secIx)

/-- The sections for an object. -/
def sectionsOf (o : Object) (t : Symtab) (p : Relas) : List Section :=
  [.undef, .text (ascii ".text") o.text, .data (ascii ".data") o.data,
    .rodata (ascii ".rodata") o.rodata, .bss (ascii ".bss") o.bss,
    .new (ascii ".strtab") 3 1 (.bytes t.strtab.payload),
    { Section.new (ascii ".symtab") 2 8 (.bytes t.payload) with
      link := 5, info := t.first.getD t.next, entsize := 24 },
    { Section.new (ascii ".rela.text") 4 8 (.bytes p.text) with
      flags := 0x40, link := 6, info := 1, entsize := 24 },
    { Section.new (ascii ".rela.data") 4 8 (.bytes p.data) with
      flags := 0x40, link := 6, info := 2, entsize := 24 },
    { Section.new (ascii ".rela.rodata") 4 8 (.bytes p.rodata) with
      flags := 0x40, link := 6, info := 3, entsize := 24 }]

theorem secIx_lt (s : Sec) : secIx s < 2 ^ 16 := by cases s <;> decide

theorem intoElf_spec (file : Bytes) (o : Object) (e : List Section) (h : intoElf file o = some e)
    (hsyms : SymsTyped o.symbols) (hfile : ∀ b ∈ file, b < 256) :
    ∃ t p m, e = sectionsOf o t p ∧ t.Reads (allSyms file o) ∧
      t.first = some ((6 + (o.symbols.filter isLocal).length) % 2 ^ 32) ∧ t.Octets ∧
      MapOk o.symbols secIx m (allSyms file o) ∧
      addRelocs m secSym o.relocs ⟨[], [], []⟩ = some p := by
  simp only [intoElf, addSection, addRela, addSymtab, addStrtab, bind, Option.bind_eq_some_iff,
    Prod.exists, pure, Option.some.injEq] at h
  obtain ⟨_, t1, h1, ts, t2, h2, ds, t3, h3, rs, t4, h4, bsy, t5, h5, t6, m6, h6, t7, h7, t8, m8,
    h8, p, hp, he⟩ := h
  have o0 : Symtab.new.Octets := by
    constructor
    · intro b hb
      simp only [Symtab.new, List.mem_replicate] at hb; omega
    · intro b hb
      simp only [Symtab.new, Strtab.new, List.mem_singleton] at hb; omega
  obtain ⟨r1, f1, -, -⟩ := Symtab.add_spec h1 Symtab.new_reads
    ⟨by simp [Symbol.file], by simp [Symbol.file, Symbol.new], by simp [Symbol.file, Symbol.new]⟩
  have o1 := Symtab.add_octets h1 o0 hfile
  obtain ⟨r2, f2, i2, -⟩ := Symtab.add_spec h2 r1
    ⟨by simp [Symbol.section], by simp [Symbol.section, Symbol.new],
      by simp [Symbol.section, Symbol.new]⟩
  have o2 := Symtab.add_octets h2 o1 (by simp [Symbol.section, Symbol.new])
  obtain ⟨r3, f3, i3, -⟩ := Symtab.add_spec h3 r2
    ⟨by simp [Symbol.section], by simp [Symbol.section, Symbol.new],
      by simp [Symbol.section, Symbol.new]⟩
  have o3 := Symtab.add_octets h3 o2 (by simp [Symbol.section, Symbol.new])
  obtain ⟨r4, f4, i4, -⟩ := Symtab.add_spec h4 r3
    ⟨by simp [Symbol.section], by simp [Symbol.section, Symbol.new],
      by simp [Symbol.section, Symbol.new]⟩
  have o4 := Symtab.add_octets h4 o3 (by simp [Symbol.section, Symbol.new])
  obtain ⟨r5, f5, i5, -⟩ := Symtab.add_spec h5 r4
    ⟨by simp [Symbol.section], by simp [Symbol.section, Symbol.new],
      by simp [Symbol.section, Symbol.new]⟩
  have o5 := Symtab.add_octets h5 o4 (by simp [Symbol.section, Symbol.new])
  have f0 : Symtab.new.first = none := rfl
  rw [f0] at f1
  rw [f1] at f2
  rw [f2] at f3
  rw [f3] at f4
  rw [f4] at f5
  rw [f0] at r1 r2 r3 r4 r5
  rw [f1] at r2 r3 r4 r5
  rw [f2] at r3 r4 r5
  rw [f3] at r4 r5
  rw [f4] at r5
  have m0 : ∀ l, MapOk o.symbols secIx [] l := fun l _ s i hs => by simp at hs
  obtain ⟨r6, f6, k6, o6⟩ := addLocals_spec secIx secIx_lt o.symbols hsyms o.symbols
    (fun _ h => h) t5 t6 [] m6 _ h6 r5 f5 (m0 _) o5
  have h7' : t7 = { t6 with first := some t6.next } := by
    unfold Symtab.beginGlobal at h7
    rw [f6] at h7
    simpa using h7.symm
  have keep : ∀ l, t6.Reads l → t7.Reads l := by
    intro l hl
    rw [h7']; exact ⟨hl.ok, hl.reads, hl.length⟩
  have r7 := keep _ r6
  obtain ⟨r8, f8, k8, o8⟩ := addGlobals_spec secIx secIx_lt o.symbols hsyms o.symbols
    (fun _ h => h) t7 t8 m6 m8 _ h8 r7 (by rw [h7']; rfl) k6 (by rw [h7']; exact o6)
  have es : ts = 2 ∧ ds = 3 ∧ rs = 4 ∧ bsy = 5 := by
    refine ⟨i2.trans ?_, i3.trans ?_, i4.trans ?_, i5.trans ?_⟩ <;> simp
  obtain ⟨rfl, rfl, rfl, rfl⟩ := es
  refine ⟨t8, p, m8, ?_, ?_, ?_, o8, ?_, hp⟩
  · rw [← he]; rfl
  · exact r8
  · rw [f8, h7']
    simp only [Symtab.next, r6.length]
    rw [Nat.mul_div_cancel_left _ (by omega)]
    simp only [List.length_append, List.length_map, List.length_singleton]
  · exact k8

end Verif.Elf
