import Verif.Elf.Adapter

/-!
# Object files say what is in the object (C73)
-/

namespace Verif.Elf

theorem names_ok (o : Object) (t : Symtab) (p : Relas) :
    ∀ s ∈ sectionsOf o t p, 0 ∉ s.name ∧ ∀ b ∈ s.name, b < 256 := by
  intro s hs
  simp only [sectionsOf, List.mem_cons, List.not_mem_nil, or_false] at hs
  rcases hs with rfl | rfl | rfl | rfl | rfl | rfl | rfl | rfl | rfl | rfl
  · exact ⟨by simp [Section.undef, Section.new], by simp [Section.undef, Section.new]⟩
  · exact (by decide : 0 ∉ ascii ".text" ∧ ∀ b ∈ ascii ".text", b < 256)
  · exact (by decide : 0 ∉ ascii ".data" ∧ ∀ b ∈ ascii ".data", b < 256)
  · exact (by decide : 0 ∉ ascii ".rodata" ∧ ∀ b ∈ ascii ".rodata", b < 256)
  · exact (by decide : 0 ∉ ascii ".bss" ∧ ∀ b ∈ ascii ".bss", b < 256)
  · exact (by decide : 0 ∉ ascii ".strtab" ∧ ∀ b ∈ ascii ".strtab", b < 256)
  · exact (by decide : 0 ∉ ascii ".symtab" ∧ ∀ b ∈ ascii ".symtab", b < 256)
  · exact (by decide : 0 ∉ ascii ".rela.text" ∧ ∀ b ∈ ascii ".rela.text", b < 256)
  · exact (by decide : 0 ∉ ascii ".rela.data" ∧ ∀ b ∈ ascii ".rela.data", b < 256)
  · exact (by decide : 0 ∉ ascii ".rela.rodata" ∧ ∀ b ∈ ascii ".rela.rodata", b < 256)

theorem fits_of (o : Object) (ho : o.Typed) (t : Symtab) (p : Relas) (i : Nat)
    (hi : t.first = some i) (hi' : i < 2 ^ 32) (ht : t.Octets)
    (hp : ∀ s, ∀ b ∈ p.get s, b < 256) : ∀ s ∈ sectionsOf o t p, s.Fits := by
  intro s hs
  have hb := ho.bytes
  simp only [List.mem_append] at hb
  have mk : ∀ (s : Section), s.ty < 2 ^ 32 → s.flags < 2 ^ 64 → s.link < 2 ^ 32 →
      s.info < 2 ^ 32 → s.align < 2 ^ 64 → s.entsize < 2 ^ 64 →
      (∃ b, s.body = .bytes b ∧ ∀ x ∈ b, x < 256) → s.Fits := by
    intro s h1 h2 h3 h4 h5 h6 ⟨b, h7, h8⟩
    refine ⟨h1, h2, h3, h4, h5, h6, ?_, ?_, ?_⟩
    · intro n hn; rw [h7] at hn; cases hn
    · intro _ n hn; rw [h7] at hn; cases hn
    · intro b' hb'; rw [h7] at hb'; cases hb'; exact h8
  simp only [sectionsOf, List.mem_cons, List.not_mem_nil, or_false] at hs
  rcases hs with rfl | rfl | rfl | rfl | rfl | rfl | rfl | rfl | rfl | rfl
  · refine ⟨?_, ?_, ?_, ?_, ?_, ?_, ?_, ?_, ?_⟩ <;> simp [Section.undef, Section.new]
  · exact mk _ (by simp [Section.text, Section.new]) (by simp [Section.text])
      (by simp [Section.text, Section.new]) (by simp [Section.text, Section.new])
      (by simp [Section.text, Section.new]) (by simp [Section.text, Section.new])
      ⟨_, rfl, fun x hx => hb x (Or.inl (Or.inl hx))⟩
  · exact mk _ (by simp [Section.data, Section.new]) (by simp [Section.data])
      (by simp [Section.data, Section.new]) (by simp [Section.data, Section.new])
      (by simp [Section.data, Section.new]) (by simp [Section.data, Section.new])
      ⟨_, rfl, fun x hx => hb x (Or.inl (Or.inr hx))⟩
  · exact mk _ (by simp [Section.rodata, Section.new]) (by simp [Section.rodata])
      (by simp [Section.rodata, Section.new]) (by simp [Section.rodata, Section.new])
      (by simp [Section.rodata, Section.new]) (by simp [Section.rodata, Section.new])
      ⟨_, rfl, fun x hx => hb x (Or.inr hx)⟩
  · refine ⟨?_, ?_, ?_, ?_, ?_, ?_, ?_, ?_, ?_⟩
    case refine_7 => intro n hn; cases hn; exact ho.bss
    all_goals simp [Section.bss, Section.new]
  · exact mk _ (by simp [Section.new]) (by simp [Section.new]) (by simp [Section.new])
      (by simp [Section.new]) (by simp [Section.new]) (by simp [Section.new]) ⟨_, rfl, ht.2⟩
  · exact mk _ (by simp [Section.new]) (by simp [Section.new]) (by simp)
      (by simpa [hi] using hi') (by simp [Section.new]) (by simp) ⟨_, rfl, ht.1⟩
  · exact mk _ (by simp [Section.new]) (by simp) (by simp) (by simp) (by simp [Section.new])
      (by simp) ⟨_, rfl, hp .text⟩
  · exact mk _ (by simp [Section.new]) (by simp) (by simp) (by simp) (by simp [Section.new])
      (by simp) ⟨_, rfl, hp .data⟩
  · exact mk _ (by simp [Section.new]) (by simp) (by simp) (by simp) (by simp [Section.new])
      (by simp) ⟨_, rfl, hp .rodata⟩

theorem addRelocs_octets (m : List (Bytes × Nat)) (sx : Sec → Nat) (rs : List Reloc)
    (p p' : Relas) (h : addRelocs m sx rs p = some p') (hp : ∀ s, ∀ b ∈ p.get s, b < 256) :
    ∀ s, ∀ b ∈ p'.get s, b < 256 := by
  induction rs generalizing p with
  | nil =>
    simp only [addRelocs, Option.some.injEq] at h
    subst h
    exact hp
  | cons r rs ih =>
    simp only [addRelocs] at h
    split at h
    swap
    · cases h
    rename_i sym _
    have he : ∀ b ∈ relaEntry r.loc.pos sym (relocNumber r.ty) r.addend, b < 256 :=
      encs_octets _
    cases hl : r.loc.sec with
    | bss => rw [hl] at h; cases h
    | text =>
      rw [hl] at h
      refine ih _ h ?_
      intro s b hb
      cases s with
      | text => exact (List.mem_append.mp hb).elim (hp .text b) (he b)
      | data => exact hp .data b hb
      | rodata => exact hp .rodata b hb
      | bss => cases hb
    | data =>
      rw [hl] at h
      refine ih _ h ?_
      intro s b hb
      cases s with
      | data => exact (List.mem_append.mp hb).elim (hp .data b) (he b)
      | text => exact hp .text b hb
      | rodata => exact hp .rodata b hb
      | bss => cases hb
    | rodata =>
      rw [hl] at h
      refine ih _ h ?_
      intro s b hb
      cases s with
      | rodata => exact (List.mem_append.mp hb).elim (hp .rodata b) (he b)
      | text => exact hp .text b hb
      | data => exact hp .data b hb
      | bss => cases hb

/-- The contents of a section are no longer than the file. -/
theorem contents_le (bs : Bytes) (i : Nat) : (contents bs i).length ≤ bs.length := by
  simp only [contents, slice, List.length_take, List.length_drop]
  omega

theorem IsAt.sect {bs : Bytes} {i : Nat} {s : Section} (h : IsAt bs i s) (hi : i < shnum bs)
    (name : String) (type flags align : Nat) (h1 : s.name = ascii name) (h2 : s.ty = type)
    (h3 : s.flags = flags) (h4 : s.align = align) : IsSection bs i name type flags align :=
  ⟨hi, h.name.trans h1, h.type.trans h2, h.flags.trans h3, h.align.trans h4⟩

/-- Whatever is written for an object is an ELF object file that says exactly what is in the
object, as long as it is smaller than 4 GiB. -/
theorem writeObject_represents (file : Bytes) (o : Object) (bs : Bytes)
    (h : writeObject file o = some bs) (ho : o.Typed) (hfile : ∀ b ∈ file, b < 256)
    (hlen : bs.length < 2 ^ 32) : Represents bs file o := by
  simp only [writeObject, bind, Option.bind_eq_some_iff] at h
  obtain ⟨e, he, hw⟩ := h
  obtain ⟨t, p, m, rfl, hr, hf, hoct, hm, hp⟩ := intoElf_spec file o e he
    (fun s hs => ⟨ho.names s hs, ho.pos s hs⟩) hfile
  have hpo : ∀ s, ∀ b ∈ p.get s, b < 256 :=
    addRelocs_octets _ _ _ _ _ hp (by intro s; cases s <;> simp [Relas.get])
  have W := write_spec _ bs hw hlen (by simp [sectionsOf])
    (fits_of o ho t p _ hf (Nat.mod_lt _ (by norm_num)) hoct hpo)
    fun s hs => (names_ok o t p s hs).2
  have num : shnum bs = 11 := W.num
  have a0 := W.sects 0 _ rfl
  have a1 := W.sects 1 _ rfl
  have a2 := W.sects 2 _ rfl
  have a3 := W.sects 3 _ rfl
  have a4 := W.sects 4 _ rfl
  have a5 := W.sects 5 _ rfl
  have a6 := W.sects 6 _ rfl
  have a7 := W.sects 7 _ rfl
  have a8 := W.sects 8 _ rfl
  have a9 := W.sects 9 _ rfl
  have c5 : contents bs 5 = t.strtab.payload := a5.contents _ rfl
  have c6 : contents bs 6 = t.payload := a6.contents _ rfl
  have l5 : t.strtab.payload.length < 2 ^ 32 := by
    rw [← c5]; exact lt_of_le_of_lt (contents_le bs 5) hlen
  have l6 : t.payload.length < 2 ^ 32 := by
    rw [← c6]; exact lt_of_le_of_lt (contents_le bs 6) hlen
  have n6 := hr.length
  have nl : (allSyms file o).length < 2 ^ 32 := by omega
  have syms : symbols bs 6 = allSyms file o := by
    have ht := (hr.reads [] (by simpa using l5)).2
    have hl : shLink bs 6 = 5 := a6.link
    have hs : shSize bs 6 = t.payload.length := a6.size
    rw [List.append_nil] at ht
    simp only [symbols, hl, c5, c6, hs, n6]
    rw [Nat.mul_div_cancel_left _ (by omega)]
    exact ht
  have relas := addRelocs_spec o secIx secSym m (allSyms file o) (hm nl)
    (by intro s; cases s <;> rfl) nl o.relocs [] ⟨[], [], []⟩ p ho.use
    (by
      intro s _
      refine ⟨by cases s <;> simp [Relas.get], [], ?_, .nil⟩
      cases s <;> exact Table.nil _) hp
  have rel : ∀ (s : Sec) (i : Nat), s ≠ .bss → contents bs i = p.get s →
      shSize bs i = (p.get s).length → List.Forall₂ (SameReloc o secIx (symbols bs 6))
        (o.relocs.filter fun r => r.loc.sec = s) (relocations bs i) := by
    intro s i hs hc hz
    obtain ⟨-, rels, ⟨h1, h2⟩, h3⟩ := relas s hs
    rw [syms]
    simp only [relocations, hc, hz, h1]
    rw [Nat.mul_div_cancel_left _ (by omega), h2]
    exact h3
  refine ⟨W.octets, W.ident, W.header, W.headers, ⟨a0.name, a0.type, a0.size⟩, W.inside, W.apart,
    secIx, 6, 5, 7, 8, 9, ⟨a1.sect (by omega) _ _ _ _ rfl rfl rfl rfl, a1.contents _ rfl⟩,
    ⟨a2.sect (by show 2 < _; omega) _ _ _ _ rfl rfl rfl rfl, a2.contents _ rfl⟩,
    ⟨a3.sect (by show 3 < _; omega) _ _ _ _ rfl rfl rfl rfl, a3.contents _ rfl⟩,
    ⟨a4.sect (by show 4 < _; omega) _ _ _ _ rfl rfl rfl rfl, a4.size⟩,
    a5.sect (by omega) _ _ _ _ rfl rfl rfl rfl, a6.sect (by omega) _ _ _ _ rfl rfl rfl rfl,
    a6.link, a6.entsize, syms, ?_,
    ⟨a7.sect (by omega) _ _ _ _ rfl rfl rfl rfl, a7.link, a7.info, a7.entsize,
      rel .text 7 (by decide) (a7.contents _ rfl) a7.size⟩,
    ⟨a8.sect (by omega) _ _ _ _ rfl rfl rfl rfl, a8.link, a8.info, a8.entsize,
      rel .data 8 (by decide) (a8.contents _ rfl) a8.size⟩,
    ⟨a9.sect (by omega) _ _ _ _ rfl rfl rfl rfl, a9.link, a9.info, a9.entsize,
      rel .rodata 9 (by decide) (a9.contents _ rfl) a9.size⟩⟩
  rw [a6.info]
  show t.first.getD t.next = _
  rw [hf, Option.getD_some, Nat.mod_eq_of_lt]
  simp only [allSyms, List.length_append, List.length_map, List.length_cons, List.length_nil] at nl
  omega

/-! ## No panics -/

theorem addLocals_isSome (ix : Sec → Nat) (ss : List (Bytes × Binding)) (t : Symtab)
    (m : List (Bytes × Nat)) (h : ∀ s ∈ ss, 0 ∉ s.1) :
    ∃ t' m', addLocals ix ss t m = some (t', m') ∧
      ∀ s, (m.lookup s).isSome ∨ (∃ l, (s, .local l) ∈ ss) → (m'.lookup s).isSome := by
  induction ss generalizing t m with
  | nil => exact ⟨t, m, rfl, by simp⟩
  | cons x ss ih =>
    obtain ⟨name, b⟩ := x
    have h' : ∀ s ∈ ss, 0 ∉ s.1 := fun s hs => h s (List.mem_cons_of_mem _ hs)
    cases b with
    | «local» lc =>
      obtain ⟨⟨i, t1⟩, e⟩ := Option.isSome_iff_exists.mp
        (t.add_isSome (.new name (ix lc.sec) lc.pos) (h _ List.mem_cons_self))
      obtain ⟨t', m', h1, h2⟩ := ih t1 ((name, i) :: m) h'
      refine ⟨t', m', by simp [addLocals, e, h1], ?_⟩
      intro s hs
      refine h2 s ?_
      by_cases he : s = name
      · subst he
        exact Or.inl (by simp)
      · rcases hs with hs | ⟨l, hs⟩
        · left
          simp only [List.lookup]
          rw [show (s == name) = false by simpa using he]
          exact hs
        · right
          refine ⟨l, ?_⟩
          simpa [he] using hs
    | global lc =>
      obtain ⟨t', m', h1, h2⟩ := ih t m h'
      refine ⟨t', m', by simp [addLocals, h1], ?_⟩
      intro s hs
      refine h2 s (hs.imp id ?_)
      rintro ⟨l, hl⟩
      exact ⟨l, by simpa using hl⟩

theorem addGlobals_isSome (ix : Sec → Nat) (ss : List (Bytes × Binding)) (t : Symtab)
    (m : List (Bytes × Nat)) (h : ∀ s ∈ ss, 0 ∉ s.1) :
    ∃ t' m', addGlobals ix ss t m = some (t', m') ∧
      ∀ s, (m.lookup s).isSome ∨ (∃ l, (s, .global l) ∈ ss) → (m'.lookup s).isSome := by
  induction ss generalizing t m with
  | nil => exact ⟨t, m, rfl, by simp⟩
  | cons x ss ih =>
    obtain ⟨name, b⟩ := x
    have h' : ∀ s ∈ ss, 0 ∉ s.1 := fun s hs => h s (List.mem_cons_of_mem _ hs)
    cases b with
    | global lc =>
      obtain ⟨⟨i, t1⟩, e⟩ := Option.isSome_iff_exists.mp
        (t.add_isSome (match lc with
          | some l => Symbol.new name (ix l.sec) l.pos
          | none => .undef name) (by
            have := h _ List.mem_cons_self
            cases lc <;> exact this))
      obtain ⟨t', m', h1, h2⟩ := ih t1 ((name, i) :: m) h'
      refine ⟨t', m', by cases lc <;> simp only [addGlobals, e, h1], ?_⟩
      intro s hs
      refine h2 s ?_
      by_cases he : s = name
      · subst he
        exact Or.inl (by simp)
      · rcases hs with hs | ⟨l, hs⟩
        · left
          simp only [List.lookup]
          rw [show (s == name) = false by simpa using he]
          exact hs
        · right
          refine ⟨l, ?_⟩
          simpa [he] using hs
    | «local» lc =>
      obtain ⟨t', m', h1, h2⟩ := ih t m h'
      refine ⟨t', m', by simp [addGlobals, h1], ?_⟩
      intro s hs
      refine h2 s (hs.imp id ?_)
      rintro ⟨l, hl⟩
      exact ⟨l, by simpa using hl⟩

theorem addRelocs_isSome (m : List (Bytes × Nat)) (sx : Sec → Nat) (rs : List Reloc) (p : Relas)
    (h : ∀ r ∈ rs, r.loc.sec ≠ .bss ∧ ∀ s, r.target = .symbol s → (m.lookup s).isSome) :
    (addRelocs m sx rs p).isSome := by
  induction rs generalizing p with
  | nil => rfl
  | cons r rs ih =>
    have ih' := fun p => ih p fun r hr => h r (List.mem_cons_of_mem _ hr)
    obtain ⟨h1, h2⟩ := h r List.mem_cons_self
    simp only [addRelocs]
    split
    · cases hl : r.loc.sec with
      | bss => exact absurd hl h1
      | text => exact ih' _
      | data => exact ih' _
      | rodata => exact ih' _
    · rename_i hs
      cases ht : r.target with
      | symbol s =>
        rw [ht] at hs
        have hn : m.lookup s = none := hs
        simpa [hn] using h2 s ht
      | «section» s => rw [ht] at hs; cases hs

/-- An object is written without a panic when no name contains a zero byte, every relocation
against a symbol names a symbol of the object, and nothing is relocated in `.bss`. -/
theorem writeObject_isSome (file : Bytes) (o : Object) (hfile : 0 ∉ file)
    (hnames : ∀ s ∈ o.symbols, 0 ∉ s.1)
    (hrel : ∀ r ∈ o.relocs, r.loc.sec ≠ .bss ∧
      ∀ s, r.target = .symbol s → ∃ b, (s, b) ∈ o.symbols) :
    (writeObject file o).isSome := by
  have hsec : ∀ (t : Symtab) (i : Nat), (t.add (.section i)).isSome := fun t i =>
    t.add_isSome _ (by simp [Symbol.section, Symbol.new])
  obtain ⟨⟨_, t1⟩, h1⟩ := Option.isSome_iff_exists.mp (Symtab.new.add_isSome (.file file) hfile)
  obtain ⟨⟨ts, t2⟩, h2⟩ := Option.isSome_iff_exists.mp (hsec t1 1)
  obtain ⟨⟨ds, t3⟩, h3⟩ := Option.isSome_iff_exists.mp (hsec t2 2)
  obtain ⟨⟨rs, t4⟩, h4⟩ := Option.isSome_iff_exists.mp (hsec t3 3)
  obtain ⟨⟨bss, t5⟩, h5⟩ := Option.isSome_iff_exists.mp (hsec t4 4)
  obtain ⟨t6, m6, h6, k6⟩ := addLocals_isSome secIx o.symbols t5 [] hnames
  have f1 : t6.first = none := by
    have key : ∀ (ss : List (Bytes × Binding)) (t t' : Symtab) (m m' : List (Bytes × Nat)),
        addLocals secIx ss t m = some (t', m') → t'.first = t.first := by
      intro ss
      induction ss with
      | nil =>
        intro t t' m m' h
        simp only [addLocals, Option.some.injEq, Prod.mk.injEq] at h
        rw [h.1]
      | cons x ss ih =>
        intro t t' m m' h
        obtain ⟨name, b⟩ := x
        cases b with
        | «local» lc =>
          simp only [addLocals] at h
          split at h
          swap
          · cases h
          rename_i i t1 ha
          rw [ih _ _ _ _ h]
          unfold Symtab.add at ha
          split at ha
          · simp only [Option.some.injEq, Prod.mk.injEq] at ha
            rw [← ha.2]
          · cases ha
        | global lc =>
          simp only [addLocals] at h
          exact ih _ _ _ _ h
    have add : ∀ (t t' : Symtab) (s : Symbol) (i : Nat), t.add s = some (i, t') →
        t'.first = t.first := by
      intro t t' s i ha
      unfold Symtab.add at ha
      split at ha
      · simp only [Option.some.injEq, Prod.mk.injEq] at ha
        rw [← ha.2]
      · cases ha
    rw [key _ _ _ _ _ h6, add _ _ _ _ h5, add _ _ _ _ h4, add _ _ _ _ h3, add _ _ _ _ h2,
      add _ _ _ _ h1]
    rfl
  obtain ⟨t8, m8, h8, k8⟩ := addGlobals_isSome secIx o.symbols { t6 with first := some t6.next } m6
    hnames
  obtain ⟨p, hp⟩ := Option.isSome_iff_exists.mp (addRelocs_isSome m8 (shndxOf ts ds rs bss)
    o.relocs ⟨[], [], []⟩ (by
      intro r hr
      refine ⟨(hrel r hr).1, ?_⟩
      intro s hs
      obtain ⟨b, hb⟩ := (hrel r hr).2 s hs
      cases b with
      | «local» l => exact k8 s (Or.inl (k6 s (Or.inr ⟨l, hb⟩)))
      | global l => exact k8 s (Or.inr ⟨l, hb⟩)))
  have hinto : intoElf file o = some (sectionsOf o t8 p) := by
    have h7 : t6.beginGlobal = some { t6 with first := some t6.next } := by
      simp [Symtab.beginGlobal, f1]
    simp only [intoElf, addSection, addRela, addSymtab, addStrtab, bind, pure,
      Option.bind_eq_some_iff, Prod.exists, Option.some.injEq]
    exact ⟨_, t1, h1, ts, t2, h2, ds, t3, h3, rs, t4, h4, bss, t5, h5, t6, m6, h6, _, h7, t8, m8,
      h8, p, hp, rfl⟩
  obtain ⟨⟨names, t9⟩, h9⟩ := Option.isSome_iff_exists.mp (sectionNames_isSome (sectionsOf o t8 p)
    .new fun s hs => (names_ok o t8 p s hs).1)
  obtain ⟨⟨i, t10⟩, h10⟩ := Option.isSome_iff_exists.mp (t9.get_isSome _ ascii_shstrtab.1)
  simp [writeObject, hinto, write, addShstrtab, h9, h10]

/-! ## An example -/

/-- A program that calls `puts` with a string: a local function, a global function, an undefined
one, and relocations in code and data. -/
def hello : Object where
  text := [0x48, 0x8d, 0x3d, 0, 0, 0, 0, 0xff, 0x15, 0, 0, 0, 0, 0xc3, 0xc3]
  data := List.replicate 8 0
  rodata := [104, 105, 0]
  bss := 32
  symbols := [(ascii "main", .global (some ⟨.text, 0⟩)), (ascii "helper", .local ⟨.text, 14⟩),
    (ascii "puts", .global none), (ascii "", .local ⟨.data, 0⟩)]
  relocs := [⟨⟨.text, 3⟩, .section .rodata, -4, .pcRel32⟩,
    ⟨⟨.data, 0⟩, .symbol (ascii "helper"), 1, .abs64⟩,
    ⟨⟨.text, 9⟩, .symbol (ascii "puts"), -4, .pcRelToAddressTable32⟩]

theorem hello_typed : hello.Typed := by
  refine ⟨by decide, by decide, by decide, ?_, by decide⟩
  intro s hs l hl
  simp only [hello, List.mem_cons, List.not_mem_nil, or_false] at hs
  rcases hs with rfl | rfl | rfl | rfl <;> simp_all <;> subst hl <;> decide

/-- It is written in 1216 bytes, and this is what a linker reads. -/
example : (writeObject (ascii "a.o") hello).any (fun bs =>
    bs.length = 1216 ∧ (List.range 11).map (fun i => shName bs i) =
      ["", ".text", ".data", ".rodata", ".bss", ".strtab", ".symtab", ".rela.text", ".rela.data",
        ".rela.rodata", ".shstrtab"].map ascii ∧
    (symbols bs 6).map (fun s => (s.name, s.bind, s.shndx, s.value)) =
      [([], 0, 0, 0), (ascii "a.o", 0, 0xfff1, 0), ([], 0, 1, 0), ([], 0, 2, 0), ([], 0, 3, 0),
        ([], 0, 4, 0), (ascii "helper", 0, 1, 14), ([], 0, 2, 0), (ascii "main", 1, 1, 0),
        (ascii "puts", 1, 0, 0)] ∧
    relocations bs 7 = [⟨3, 4, 2, -4⟩, ⟨9, 9, 9, -4⟩] ∧
    relocations bs 8 = [⟨0, 6, 1, 1⟩] ∧ relocations bs 9 = []) = true := by decide +kernel

/-- The theorems say so too. -/
example : ∃ bs, writeObject (ascii "a.o") hello = some bs ∧
    (bs.length < 2 ^ 32 → Represents bs (ascii "a.o") hello) := by
  obtain ⟨bs, h⟩ := Option.isSome_iff_exists.mp (writeObject_isSome (ascii "a.o") hello
    (by decide) (by decide) (by
      intro r hr
      simp only [hello, List.mem_cons, List.not_mem_nil, or_false] at hr
      rcases hr with rfl | rfl | rfl
      · exact ⟨by decide, by simp⟩
      · refine ⟨by decide, ?_⟩
        rintro s ⟨⟩
        exact ⟨_, by simp [hello]; right; left; rfl⟩
      · refine ⟨by decide, ?_⟩
        rintro s ⟨⟩
        exact ⟨_, by simp [hello]; right; right; left; rfl⟩))
  exact ⟨bs, h, fun hl => writeObject_represents _ _ _ h hello_typed (by decide) hl⟩

/-- The assumptions about names are needed: a zero byte in a name is a panic, and so are a
relocation against a symbol that the object does not have and one in `.bss`. -/
example : (writeObject [0x61, 0] hello).isNone ∧
    (writeObject (ascii "a.o") { hello with symbols := [] }).isNone ∧
    (writeObject (ascii "a.o") { hello with
      relocs := [⟨⟨.bss, 0⟩, .section .text, 0, .abs64⟩] }).isNone := by decide +kernel

end Verif.Elf
