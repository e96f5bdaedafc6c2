import Verif.Elf.Read

/-! # The file as a whole -/

namespace Verif.Elf

/-! ## Section headers -/

theorem header_length (s : Section) (o n : Nat) : (header s o n).length = 64 := by
  simp [header, encs_length]

theorem headers_at (ss : List Section) (offs names : List Nat) (i : Nat) (s : Section) (o n : Nat)
    (hs : ss[i]? = some s) (ho : offs[i]? = some o) (hn : names[i]? = some n) :
    ∃ pre post, headers ss offs names = pre ++ header s o n ++ post ∧ pre.length = 64 * i := by
  induction ss generalizing offs names i with
  | nil => simp at hs
  | cons s' ss ih =>
    cases offs with
    | nil => simp at ho
    | cons o' offs =>
      cases names with
      | nil => simp at hn
      | cons n' names =>
        cases i with
        | zero =>
          simp only [List.getElem?_cons_zero, Option.some.injEq] at hs ho hn
          subst hs ho hn
          exact ⟨[], headers ss offs names, by simp [headers], rfl⟩
        | succ i =>
          simp only [List.getElem?_cons_succ] at hs ho hn
          obtain ⟨pre, post, he, hl⟩ := ih offs names i hs ho hn
          refine ⟨header s' o' n' ++ pre, post, by simp [headers, he], ?_⟩
          simp [header_length, hl]; omega

theorem headers_length (ss : List Section) (offs names : List Nat) (ho : offs.length = ss.length)
    (hn : names.length = ss.length) : (headers ss offs names).length = 64 * ss.length := by
  induction ss generalizing offs names with
  | nil => rfl
  | cons s ss ih =>
    match offs, names, ho, hn with
    | o :: offs, n :: names, ho, hn =>
      simp only [headers, List.length_append, header_length]
      rw [ih _ _ (by simpa using ho) (by simpa using hn)]
      simp; omega

theorem headers_octets (ss : List Section) (offs names : List Nat) :
    ∀ b ∈ headers ss offs names, b < 256 := by
  induction ss generalizing offs names with
  | nil => simp [headers]
  | cons s ss ih =>
    match offs, names with
    | [], _ => simp [headers]
    | _ :: _, [] => simp [headers]
    | o :: offs, n :: names =>
      intro b hb
      simp only [headers, List.mem_append] at hb
      exact hb.elim (encs_octets _ b) (ih _ _ b)

/-! ## Bodies -/

theorem bodies_length (ss : List Section) (off : Nat) :
    (bodies off ss).2.length = ss.length ∧
      (bodies off ss).1.length = (ss.map (·.body.length true)).sum := by
  induction ss generalizing off with
  | nil => exact ⟨rfl, rfl⟩
  | cons s ss ih =>
    cases hb : s.body with
    | bytes b => simp [bodies, hb, ih, Body.length]
    | size n => simp [bodies, hb, ih, Body.length]

/-- Where the bytes of a section are. -/
theorem bodies_at (ss : List Section) (off i : Nat) (s : Section) (hs : ss[i]? = some s) :
    ∃ pre post, (bodies off ss).1 = pre ++ post ∧
      (bodies off ss).2[i]? = some (off + pre.length) ∧ s.body.length true ≤ post.length ∧
      ∀ b, s.body = .bytes b → ∃ post', post = b ++ post' := by
  induction ss generalizing off i with
  | nil => simp at hs
  | cons s' ss ih =>
    cases i with
    | zero =>
      simp only [List.getElem?_cons_zero, Option.some.injEq] at hs
      subst hs
      cases hb : s'.body with
      | bytes b =>
        refine ⟨[], b ++ (bodies (off + b.length) ss).1, by simp [bodies, hb], by simp [bodies, hb],
          by simp [Body.length], ?_⟩
        rintro b' ⟨⟩
        exact ⟨_, rfl⟩
      | size n =>
        refine ⟨[], (bodies off ss).1, by simp [bodies, hb], by simp [bodies, hb],
          by simp [Body.length], ?_⟩
        rintro b' ⟨⟩
    | succ i =>
      simp only [List.getElem?_cons_succ] at hs
      cases hb : s'.body with
      | bytes b =>
        obtain ⟨pre, post, h1, h2, h3, h4⟩ := ih (off + b.length) i hs
        refine ⟨b ++ pre, post, by simp [bodies, hb, h1], ?_, h3, h4⟩
        simp only [bodies, hb, List.getElem?_cons_succ, h2, List.length_append]
        congr 1; omega
      | size n =>
        obtain ⟨pre, post, h1, h2, h3, h4⟩ := ih off i hs
        exact ⟨pre, post, by simp [bodies, hb, h1], by simp [bodies, hb, h2], h3, h4⟩

/-- The offsets grow. -/
theorem bodies_apart (ss : List Section) (off i j : Nat) (s : Section) (o o' : Nat)
    (hij : i < j) (hs : ss[i]? = some s) (ho : (bodies off ss).2[i]? = some o)
    (ho' : (bodies off ss).2[j]? = some o') : o + s.body.length true ≤ o' := by
  induction ss generalizing off i j with
  | nil => simp at hs
  | cons s' ss ih =>
    cases j with
    | zero => omega
    | succ j =>
      have low : ∀ (ss : List Section) (off j o' : Nat), (bodies off ss).2[j]? = some o' →
          off ≤ o' := by
        intro ss off j o' h
        have hj : j < ss.length := by
          rw [← (bodies_length ss off).1]
          exact (List.getElem?_eq_some_iff.mp h).1
        obtain ⟨pre, post, -, h2, -⟩ := bodies_at ss off j _ (List.getElem?_eq_getElem hj)
        rw [h2] at h
        cases h; omega
      cases i with
      | zero =>
        simp only [List.getElem?_cons_zero, Option.some.injEq] at hs
        subst hs
        cases hb : s'.body with
        | bytes b =>
          simp only [bodies, hb, List.getElem?_cons_zero, Option.some.injEq,
            List.getElem?_cons_succ] at ho ho'
          subst ho
          simpa [Body.length] using low _ _ _ _ ho'
        | size n =>
          simp only [bodies, hb, List.getElem?_cons_zero, Option.some.injEq,
            List.getElem?_cons_succ] at ho ho'
          subst ho
          simpa [Body.length] using low _ _ _ _ ho'
      | succ i =>
        simp only [List.getElem?_cons_succ] at hs
        cases hb : s'.body with
        | bytes b =>
          simp only [bodies, hb, List.getElem?_cons_succ] at ho ho'
          exact ih _ i j (by omega) hs ho ho'
        | size n =>
          simp only [bodies, hb, List.getElem?_cons_succ] at ho ho'
          exact ih _ i j (by omega) hs ho ho'

theorem bodies_octets (ss : List Section) (off : Nat)
    (h : ∀ s ∈ ss, ∀ b, s.body = .bytes b → ∀ x ∈ b, x < 256) :
    ∀ x ∈ (bodies off ss).1, x < 256 := by
  induction ss generalizing off with
  | nil => simp [bodies]
  | cons s ss ih =>
    have h' := fun off => ih off fun s hs => h s (List.mem_cons_of_mem _ hs)
    cases hb : s.body with
    | bytes b =>
      intro x hx
      simp only [bodies, hb, List.mem_append] at hx
      exact hx.elim (h s List.mem_cons_self b hb x) (h' _ x)
    | size n =>
      intro x hx
      simp only [bodies, hb] at hx
      exact h' _ x hx

/-! ## Names of sections -/

theorem sectionNames_spec (ss : List Section) (t t' : Strtab) (is : List Nat)
    (h : sectionNames ss t = some (is, t')) (ok : t.Ok) :
    t'.Ok ∧ is.length = ss.length ∧ (∃ x, t'.payload = t.payload ++ x) ∧
      (t'.payload.length < 2 ^ 32 → ∀ (i : Nat) (s : Section), ss[i]? = some s →
        ∃ n, is[i]? = some n ∧ Holds t'.payload n s.name) := by
  induction ss generalizing t is with
  | nil =>
    simp only [sectionNames, Option.some.injEq, Prod.mk.injEq] at h
    obtain ⟨rfl, rfl⟩ := h
    exact ⟨ok, rfl, ⟨[], by simp⟩, by simp⟩
  | cons s ss ih =>
    simp only [sectionNames] at h
    split at h
    swap
    · cases h
    rename_i i t1 hg
    split at h
    swap
    · cases h
    rename_i is' t2 hr
    simp only [Option.some.injEq, Prod.mk.injEq] at h
    obtain ⟨rfl, rfl⟩ := h
    obtain ⟨⟨x, hx⟩, ok1, hh⟩ := Strtab.get_spec hg ok
    obtain ⟨ok2, hl, ⟨y, hy⟩, hi⟩ := ih _ _ hr ok1
    refine ⟨ok2, by simp [hl], ⟨x ++ y, by rw [hy, hx]; simp⟩, ?_⟩
    intro hlt j s' hs
    cases j with
    | zero =>
      simp only [List.getElem?_cons_zero, Option.some.injEq] at hs
      subst hs
      refine ⟨i, by simp, ?_⟩
      rw [hy]
      refine (hh ?_).append y
      rw [hy, List.length_append] at hlt; omega
    | succ j =>
      simp only [List.getElem?_cons_succ] at hs ⊢
      exact hi hlt j s' hs

theorem sectionNames_isSome (ss : List Section) (t : Strtab) (h : ∀ s ∈ ss, 0 ∉ s.name) :
    (sectionNames ss t).isSome := by
  induction ss generalizing t with
  | nil => rfl
  | cons s ss ih =>
    obtain ⟨⟨i, t1⟩, e⟩ := Option.isSome_iff_exists.mp (t.get_isSome s.name (h s (by simp)))
    obtain ⟨⟨is, t2⟩, e'⟩ := Option.isSome_iff_exists.mp
      (ih t1 fun s hs => h s (List.mem_cons_of_mem _ hs))
    simp [sectionNames, e, e']

theorem sectionNames_octets (ss : List Section) (t t' : Strtab) (is : List Nat)
    (h : sectionNames ss t = some (is, t')) (ho : ∀ b ∈ t.payload, b < 256)
    (hs : ∀ s ∈ ss, ∀ b ∈ s.name, b < 256) : ∀ b ∈ t'.payload, b < 256 := by
  induction ss generalizing t is with
  | nil =>
    simp only [sectionNames, Option.some.injEq, Prod.mk.injEq] at h
    obtain ⟨rfl, rfl⟩ := h
    exact ho
  | cons s ss ih =>
    simp only [sectionNames] at h
    split at h
    swap
    · cases h
    rename_i i t1 hg
    split at h
    swap
    · cases h
    rename_i is' t2 hr
    simp only [Option.some.injEq, Prod.mk.injEq] at h
    obtain ⟨rfl, rfl⟩ := h
    exact ih _ _ hr (Strtab.get_octets hg ho (hs s (by simp)))
      fun s h => hs s (List.mem_cons_of_mem _ h)

/-! ## Everything -/

/-- The fields of a section can be written. -/
structure Section.Fits (s : Section) : Prop where
  ty : s.ty < 2 ^ 32
  flags : s.flags < 2 ^ 64
  link : s.link < 2 ^ 32
  info : s.info < 2 ^ 32
  align : s.align < 2 ^ 64
  entsize : s.entsize < 2 ^ 64
  size : ∀ n, s.body = .size n → n < 2 ^ 64
  nobits : s.ty ≠ 8 → ∀ n, s.body = .size n → n = 0
  octets : ∀ b, s.body = .bytes b → ∀ x ∈ b, x < 256

/-- The section `i` of a file is `s`. -/
structure IsAt (bs : Bytes) (i : Nat) (s : Section) : Prop where
  type : shType bs i = s.ty
  flags : shFlags bs i = s.flags
  size : shSize bs i = s.body.length false
  link : shLink bs i = s.link
  info : shInfo bs i = s.info
  align : shAlign bs i = s.align
  entsize : shEntsize bs i = s.entsize
  name : shName bs i = s.name
  contents : ∀ b, s.body = .bytes b → contents bs i = b

/-- What is known about a file. -/
structure Written (bs : Bytes) (e : List Section) : Prop where
  octets : ∀ b ∈ bs, b < 256
  ident : bs.take 16 = [0x7f, 0x45, 0x4c, 0x46, 2, 1, 1, 0, 0, 0, 0, 0, 0, 0, 0, 0]
  header : ehdr bs = [1, 62, 1, 0, 0, shoff bs, 0, 64, 0, 0, 64, shnum bs, shstrndx bs]
  headers : shoff bs + 64 * shnum bs = bs.length ∧ 8 ∣ shoff bs
  num : shnum bs = e.length + 1
  sects : ∀ (i : Nat) (s : Section), e[i]? = some s → IsAt bs i s
  inside : ∀ i < shnum bs, shType bs i ≠ 8 →
    64 ≤ shOffset bs i ∧ shOffset bs i + shSize bs i ≤ shoff bs
  apart : ∀ i j, i < j → j < shnum bs → shType bs i ≠ 8 →
    shOffset bs i + shSize bs i ≤ shOffset bs j

theorem ascii_shstrtab : 0 ∉ ascii ".shstrtab" ∧ ∀ b ∈ ascii ".shstrtab", b < 256 := by decide

theorem length_false {s : Section} (h : s.Fits) (ht : s.ty ≠ 8) :
    s.body.length false = s.body.length true := by
  cases hb : s.body with
  | bytes b => rfl
  | size n => simp [Body.length, h.nobits ht n hb]

theorem write_spec (e : List Section) (bs : Bytes) (h : write e = some bs)
    (hlen : bs.length < 2 ^ 32) (hnum : e.length < 2 ^ 16 - 1) (hfit : ∀ s ∈ e, s.Fits)
    (hname : ∀ s ∈ e, ∀ b ∈ s.name, b < 256) : Written bs e := by
  unfold write addShstrtab at h
  cases hs : sectionNames e .new with
  | none => simp [hs] at h
  | some r =>
  obtain ⟨names, t⟩ := r
  cases hg : t.get (ascii ".shstrtab") with
  | none => simp [hs, hg] at h
  | some r =>
  obtain ⟨ni, t'⟩ := r
  simp only [hs, hg, addStrtab, addSection] at h
  set sh : Section := .new (ascii ".shstrtab") 3 1 (.bytes t'.payload) with hsh
  set ss := e ++ [sh] with hss
  set len := 0x40 + (ss.map (·.body.length true)).sum with hlenDef
  set pad := (8 - len % 8) % 8 with hpad
  obtain ⟨body, offs, hbo⟩ : ∃ body offs, bodies 0x40 ss = (body, offs) := ⟨_, _, rfl⟩
  rw [hbo] at h
  simp only [Option.some.injEq] at h
  obtain ⟨okt, hnl, -, hnames⟩ := sectionNames_spec _ _ _ _ hs Strtab.new_ok
  obtain ⟨⟨x, hx⟩, -, hni⟩ := Strtab.get_spec hg okt
  have hbl := bodies_length ss 0x40
  have hat := bodies_at ss 0x40
  have hap := bodies_apart ss 0x40
  rw [hbo] at hbl hat hap
  simp only at hbl hat hap
  obtain ⟨hol, hbl⟩ := hbl
  have hssl : ss.length = e.length + 1 := by simp [hss]
  have hhl : (headers ss offs (names ++ [ni])).length = 64 * ss.length :=
    headers_length _ _ _ hol (by simp [hnl, hssl])
  set ident : Bytes := [0x7f, 0x45, 0x4c, 0x46, 2, 1, 1, 0, 0, 0, 0, 0, 0, 0, 0, 0] with hid
  set eh := [(2, 1), (2, 62), (4, 1), (8, 0), (8, 0), (8, len + pad), (4, 0), (2, 0x40), (2, 0),
    (2, 0), (2, 0x40), (2, ss.length % 2 ^ 16), (2, e.length % 2 ^ 16)] with heh
  have hehl : (encs eh).length = 48 := by rw [encs_length]; rfl
  have hidl : ident.length = 16 := rfl
  have hlen' : bs.length = len + pad + 64 * ss.length := by
    rw [← h]
    simp only [List.length_append, hehl, hidl, hbl, hhl, List.length_replicate]
    omega
  have hsum : (ss.map (·.body.length true)).sum = body.length := hbl.symm
  -- the header
  have hE : ehdr bs = [1, 62, 1, 0, 0, len + pad, 0, 64, 0, 0, 64, ss.length, e.length] := by
    have hr := record_encs ident (body ++ (List.replicate pad 0 ++
      headers ss offs (names ++ [ni]))) eh
    rw [show ident ++ encs eh ++ (body ++ (List.replicate pad 0 ++
      headers ss offs (names ++ [ni]))) = bs by rw [← h]; simp] at hr
    unfold ehdr
    rw [show (16 : Nat) = ident.length from rfl,
      show [2, 2, 4, 8, 8, 8, 4, 2, 2, 2, 2, 2, 2] = eh.map Prod.fst from rfl, hr]
    simp only [heh, List.map_cons, List.map_nil]
    have a1 : (len + pad) % 256 ^ 8 = len + pad := Nat.mod_eq_of_lt (by omega)
    have a2 : ss.length % 2 ^ 16 % 256 ^ 2 = ss.length := by omega
    have a3 : e.length % 2 ^ 16 % 256 ^ 2 = e.length := by omega
    rw [a1, a2, a3]
    norm_num
  have hoff : shoff bs = len + pad := by simp [shoff, hE]
  have hnum' : shnum bs = ss.length := by simp [shnum, hE]
  have hstr : shstrndx bs = e.length := by simp [shstrndx, hE]
  -- string table
  have hsslast : ss[e.length]? = some sh := by simp [hss]
  have htl : t'.payload.length ≤ body.length := by
    obtain ⟨pre, post, h1, -, h3, -⟩ := hat e.length sh hsslast
    rw [h1]
    simp only [hsh, Section.new, Body.length] at h3
    simp; omega
  have htl' : t'.payload.length < 2 ^ 32 := by omega
  have hfits : ∀ s ∈ ss, s.Fits := by
    intro s hs'
    simp only [hss, List.mem_append, List.mem_singleton] at hs'
    rcases hs' with hs' | rfl
    · exact hfit s hs'
    · refine ⟨show 3 < 2 ^ 32 by norm_num, show 0 < 2 ^ 64 by norm_num,
        show 0 < 2 ^ 32 by norm_num, show 0 < 2 ^ 32 by norm_num, show 1 < 2 ^ 64 by norm_num,
        show 0 < 2 ^ 64 by norm_num, ?_, ?_, ?_⟩
      · intro n hn; cases hn
      · intro _ n hn; cases hn
      · intro b hb
        cases hb
        exact Strtab.get_octets hg
          (sectionNames_octets _ _ _ _ hs (by simp [Strtab.new]) hname) ascii_shstrtab.2
  have hnm : ∀ (i : Nat) (s : Section), ss[i]? = some s →
      ∃ n, (names ++ [ni])[i]? = some n ∧ Holds t'.payload n s.name := by
    intro i s hi
    rcases Nat.lt_or_ge i e.length with hl | hl
    · rw [hss, List.getElem?_append_left hl] at hi
      rw [List.getElem?_append_left (by omega)]
      obtain ⟨n, h1, h2⟩ := hnames (by rw [hx] at htl'; simp only [List.length_append] at htl'
                                       omega) i s hi
      exact ⟨n, h1, by rw [hx]; exact h2.append x⟩
    · have hi' : i = e.length := by
        have := (List.getElem?_eq_some_iff.mp hi).1
        omega
      subst hi'
      rw [hsslast] at hi
      cases hi
      refine ⟨ni, by simp [hnl], hni htl'⟩
  -- section headers
  have hH : ∀ (i : Nat) (s : Section), ss[i]? = some s → ∃ n o, offs[i]? = some o ∧ Holds t'.payload n s.name ∧
      o + s.body.length true ≤ len ∧ 64 ≤ o ∧
      (∀ b, s.body = .bytes b → slice bs o b.length = b) ∧
      shdr bs i = [n, s.ty, s.flags, 0, o, s.body.length false, s.link, s.info, s.align,
        s.entsize] := by
    intro i s hi
    obtain ⟨n, hn, hhold⟩ := hnm i s hi
    obtain ⟨pre, post, h1, h2, h3, h4⟩ := hat i s hi
    have hf := hfits s (List.mem_of_getElem? hi)
    have hbl' : body.length = pre.length + post.length := by rw [h1]; simp
    refine ⟨n, _, h2, hhold, by omega, by omega, ?_, ?_⟩
    · intro b hb
      obtain ⟨post', rfl⟩ := h4 b hb
      rw [← h, h1]
      have := slice_mid (ident ++ encs eh ++ pre) b (post' ++ (List.replicate pad 0 ++
        headers ss offs (names ++ [ni])))
      simp only [List.length_append, hidl, hehl] at this
      rw [show 64 + pre.length = 16 + 48 + pre.length by omega]
      simpa [List.append_assoc] using this
    · obtain ⟨hp, hq, h5, h6⟩ := headers_at ss offs (names ++ [ni]) i s _ n hi h2 hn
      have hr := record_encs (ident ++ encs eh ++ body ++ List.replicate pad 0 ++ hp) hq
        [(4, n), (4, s.ty), (8, s.flags), (8, 0), (8, 64 + pre.length), (8, s.body.length false),
          (4, s.link), (4, s.info), (8, s.align), (8, s.entsize)]
      rw [show ident ++ encs eh ++ body ++ List.replicate pad 0 ++ hp ++ encs
        [(4, n), (4, s.ty), (8, s.flags), (8, 0), (8, 64 + pre.length), (8, s.body.length false),
          (4, s.link), (4, s.info), (8, s.align), (8, s.entsize)] ++ hq = bs by
          rw [← h, h5]; simp [header]] at hr
      simp only [List.length_append, hidl, hehl, List.length_replicate, h6] at hr
      unfold shdr
      rw [hoff, show len + pad + 64 * i = 16 + 48 + body.length + pad + 64 * i by omega]
      simp only [List.map_cons, List.map_nil] at hr
      rw [hr]
      have hsz : s.body.length false < 2 ^ 64 := by
        cases hb : s.body with
        | bytes b =>
          rw [hb] at h3
          simp only [Body.length] at h3 ⊢
          omega
        | size k => simpa [Body.length] using hf.size k hb
      have := hhold.lt
      have := hf.ty
      have := hf.flags
      have := hf.link
      have := hf.info
      have := hf.align
      have := hf.entsize
      simp only [List.cons.injEq, and_true]
      refine ⟨?_, ?_, ?_, rfl, ?_, ?_, ?_, ?_, ?_, ?_⟩ <;> exact Nat.mod_eq_of_lt (by omega)
  have hAt : ∀ (i : Nat) (s : Section), ss[i]? = some s → IsAt bs i s := by
    intro i s hi
    obtain ⟨n, o, ho, hhold, -, -, hsl, hd⟩ := hH i s hi
    have hcont : ∀ b, s.body = .bytes b → contents bs i = b := by
      intro b hb
      simp only [contents, shOffset, shSize, hd, hb, List.getD_cons_zero, List.getD_cons_succ]
      exact hsl b hb
    refine ⟨by simp [shType, hd], by simp [shFlags, hd], by simp [shSize, hd], by simp [shLink, hd],
      by simp [shInfo, hd], by simp [shAlign, hd], by simp [shEntsize, hd], ?_, hcont⟩
    obtain ⟨n', o', ho', -, -, -, hsl', hd'⟩ := hH e.length sh hsslast
    have hc : contents bs e.length = t'.payload := by
      simp only [contents, shOffset, shSize, hd', List.getD_cons_zero, List.getD_cons_succ]
      exact hsl' _ rfl
    simp only [shName, hstr, hc, hd, List.getD_cons_zero]
    exact hhold.cstr
  refine ⟨?_, ?_, ?_, ?_, by rw [hnum', hssl], ?_, ?_, ?_⟩
  · intro b hb
    rw [← h] at hb
    simp only [List.mem_append] at hb
    rcases hb with (((hb | hb) | hb) | hb) | hb
    · revert b; decide
    · exact encs_octets _ b hb
    · have := bodies_octets ss 0x40 (fun s hs => (hfits s hs).octets) b
      rw [hbo] at this
      exact this hb
    · rw [List.mem_replicate] at hb; omega
    · exact headers_octets _ _ _ b hb
  · rw [← h]; simp [hid]
  · rw [hE, hoff, hnum', hstr]
  · rw [hoff, hnum']
    exact ⟨hlen'.symm, by omega⟩
  · intro i s hi
    refine hAt i s ?_
    rw [hss, List.getElem?_append_left (List.getElem?_eq_some_iff.mp hi).1, hi]
  · intro i hi ht
    have hi' := List.getElem?_eq_getElem (hnum' ▸ hi)
    obtain ⟨n, o, ho, -, hle, hge, -, hd⟩ := hH i _ hi'
    have ht' := hAt i _ hi'
    simp only [shOffset, shSize, hd, List.getD_cons_zero, List.getD_cons_succ]
    rw [ht'.type] at ht
    rw [length_false (hfits _ (List.getElem_mem _)) ht, hoff]
    omega
  · intro i j hij hj ht
    have hi' := List.getElem?_eq_getElem (l := ss) (i := i) (by omega)
    have hj' := List.getElem?_eq_getElem (l := ss) (i := j) (by omega)
    obtain ⟨n, o, ho, -, -, -, -, hd⟩ := hH i _ hi'
    obtain ⟨n', o', ho', -, -, -, -, hd'⟩ := hH j _ hj'
    have ht' := hAt i _ hi'
    simp only [shOffset, shSize, hd, hd', List.getD_cons_zero, List.getD_cons_succ]
    rw [ht'.type] at ht
    rw [length_false (hfits _ (List.getElem_mem _)) ht]
    exact hap i j _ o o' hij hi' ho ho'

end Verif.Elf
