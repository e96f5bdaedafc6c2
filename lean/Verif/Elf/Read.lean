import Verif.Elf.Model
import Mathlib.Tactic.Ring
import Mathlib.Tactic.IntervalCases

/-! # Reading what was written -/

namespace Verif.Elf

theorem enc_length (k v : Nat) : (enc k v).length = k := by
  induction k generalizing v with
  | zero => rfl
  | succ k ih => simp [enc, ih]

theorem number_enc (k v : Nat) : number (enc k v) = v % 256 ^ k := by
  induction k generalizing v with
  | zero => simp [enc, number, Nat.mod_one]
  | succ k ih =>
    simp only [enc, number, ih]
    rw [Nat.pow_succ, Nat.mul_comm (256 ^ k) 256, Nat.mod_mul]

theorem enc_octets (k v : Nat) : ∀ b ∈ enc k v, b < 256 := by
  induction k generalizing v with
  | zero => simp [enc]
  | succ k ih =>
    intro b hb
    simp only [enc, List.mem_cons] at hb
    rcases hb with rfl | hb
    · omega
    · exact ih _ b hb

theorem encs_octets (fs : List (Nat × Nat)) : ∀ b ∈ encs fs, b < 256 := by
  induction fs with
  | nil => simp [encs]
  | cons f fs ih =>
    intro b hb
    simp only [encs, List.mem_append] at hb
    exact hb.elim (enc_octets _ _ b) (ih b)

theorem encs_length (fs : List (Nat × Nat)) : (encs fs).length = (fs.map Prod.fst).sum := by
  induction fs with
  | nil => rfl
  | cons f fs ih => simp [encs, enc_length, ih]

theorem slice_mid (pre x post : Bytes) : slice (pre ++ x ++ post) pre.length x.length = x := by
  simp [slice]

theorem record_encs (pre post : Bytes) (fs : List (Nat × Nat)) :
    record (pre ++ encs fs ++ post) pre.length (fs.map Prod.fst) =
      fs.map fun f => f.2 % 256 ^ f.1 := by
  induction fs generalizing pre with
  | nil => rfl
  | cons f fs ih =>
    simp only [List.map_cons, record, encs]
    refine List.cons_eq_cons.mpr ⟨?_, ?_⟩
    · have h := slice_mid pre (enc f.1 f.2) (encs fs ++ post)
      rw [enc_length] at h
      rw [show pre ++ (enc f.1 f.2 ++ encs fs) ++ post = pre ++ enc f.1 f.2 ++ (encs fs ++ post) by
        simp, h, number_enc]
    · have h := ih (pre ++ enc f.1 f.2)
      simp only [List.length_append, enc_length] at h
      rw [← h]
      simp

/-- Reading looks only at the bytes it needs. -/
theorem record_append (p e : Bytes) (ws : List Nat) (off : Nat) (h : off + ws.sum ≤ p.length) :
    record (p ++ e) off ws = record p off ws := by
  induction ws generalizing off with
  | nil => rfl
  | cons w ws ih =>
    simp only [List.sum_cons] at h
    simp only [record]
    rw [ih _ (by omega)]
    congr 2
    simp only [slice]
    rw [List.drop_append_of_le_length (by omega), List.take_append_of_le_length (by simp; omega)]

/-! ## Strings -/

/-- There is a string at an offset. -/
def Holds (p : Bytes) (i : Nat) (s : Bytes) : Prop :=
  0 ∉ s ∧ ∃ pre post, p = pre ++ s ++ 0 :: post ∧ pre.length = i

theorem Holds.append {p : Bytes} {i : Nat} {s : Bytes} (h : Holds p i s) (x : Bytes) :
    Holds (p ++ x) i s := by
  obtain ⟨h0, pre, post, rfl, hi⟩ := h
  exact ⟨h0, pre, post ++ x, by simp, hi⟩

theorem Holds.lt {p : Bytes} {i : Nat} {s : Bytes} (h : Holds p i s) : i < p.length := by
  obtain ⟨-, pre, post, rfl, rfl⟩ := h
  simp

theorem Holds.cstr {p : Bytes} {i : Nat} {s : Bytes} (h : Holds p i s) : cstr p i = s := by
  obtain ⟨h0, pre, post, rfl, rfl⟩ := h
  simp only [Elf.cstr, List.append_assoc, List.drop_left]
  rw [List.takeWhile_append_of_pos]
  · simp
  · intro a ha
    have : a ≠ 0 := fun h => h0 (h ▸ ha)
    simpa using this

/-- The map of a string table is right. -/
def Strtab.Ok (t : Strtab) : Prop :=
  t.payload.length < 2 ^ 32 → ∀ s i, t.map.lookup s = some i → Holds t.payload i s

theorem Strtab.new_ok : Strtab.new.Ok := by
  intro _ s i h
  simp only [Strtab.new, List.lookup] at h
  split at h
  · rename_i hs
    simp only [beq_iff_eq] at hs
    cases h; subst hs
    exact ⟨by simp, [], [], rfl, rfl⟩
  · simp at h

theorem Strtab.get_spec {t t' : Strtab} {s : Bytes} {i : Nat} (h : t.get s = some (i, t'))
    (ok : t.Ok) : (∃ x, t'.payload = t.payload ++ x) ∧ t'.Ok ∧
      (t'.payload.length < 2 ^ 32 → Holds t'.payload i s) := by
  unfold Strtab.get at h
  split at h
  · rename_i j hj
    cases h
    exact ⟨⟨[], by simp⟩, ok, fun hl => ok hl _ _ hj⟩
  · split at h
    · cases h
    · rename_i hn h0
      have h0' : 0 ∉ s := by simpa using h0
      cases h
      have key : (t.payload ++ (s ++ [0])).length < 2 ^ 32 →
          Holds (t.payload ++ (s ++ [0])) (t.payload.length % 2 ^ 32) s := by
        intro hl
        refine ⟨h0', t.payload, [], by simp, ?_⟩
        rw [Nat.mod_eq_of_lt]
        simp only [List.length_append] at hl; omega
      refine ⟨⟨_, rfl⟩, ?_, key⟩
      intro hl s' i' hs
      simp only [List.lookup] at hs
      split at hs
      · rename_i heq
        simp only [beq_iff_eq] at heq
        cases hs; subst heq
        exact key hl
      · refine (ok ?_ _ _ hs).append _
        simp only [List.length_append] at hl; omega

/-- Entering a string fails only for a zero byte. -/
theorem Strtab.get_isSome (t : Strtab) (s : Bytes) (h : 0 ∉ s) : (t.get s).isSome := by
  unfold Strtab.get
  split
  · rfl
  · simpa using h

theorem Strtab.get_octets {t t' : Strtab} {s : Bytes} {i : Nat} (h : t.get s = some (i, t'))
    (ho : ∀ b ∈ t.payload, b < 256) (hs : ∀ b ∈ s, b < 256) : ∀ b ∈ t'.payload, b < 256 := by
  unfold Strtab.get at h
  split at h
  · cases h; exact ho
  · split at h
    · cases h
    · cases h
      intro b hb
      simp only [List.mem_append, List.mem_singleton] at hb
      rcases hb with hb | hb | rfl
      · exact ho b hb
      · exact hs b hb
      · omega

/-! ## Tables -/

/-- A table of entries of 24 bytes is read as a list. -/
def Table {β : Type} (f : Bytes → Nat → β) (p : Bytes) (l : List β) : Prop :=
  p.length = 24 * l.length ∧ (List.range l.length).map (fun j => f p (24 * j)) = l

theorem Table.nil {β : Type} (f : Bytes → Nat → β) : Table f [] [] := ⟨rfl, rfl⟩

theorem Table.push {β : Type} {f : Bytes → Nat → β} {p e : Bytes} {l : List β} {x : β}
    (h : Table f p l) (hf : ∀ off, off + 24 ≤ p.length → f (p ++ e) off = f p off)
    (he : e.length = 24) (hx : f (p ++ e) p.length = x) : Table f (p ++ e) (l ++ [x]) := by
  obtain ⟨hl, hm⟩ := h
  refine ⟨by simp [hl, he]; omega, ?_⟩
  simp only [List.length_append, List.length_singleton, List.range_succ, List.map_append,
    List.map_singleton]
  refine congrArg₂ _ ?_ ?_
  · conv_rhs => rw [← hm]
    refine List.map_congr_left fun j hj => hf _ ?_
    have := List.mem_range.mp hj
    omega
  · rw [← hl, hx]

theorem symAt_append (p e str : Bytes) (off : Nat) (h : off + 24 ≤ p.length) :
    symAt (p ++ e) str off = symAt p str off := by
  unfold symAt
  rw [record_append _ _ _ _ (by simpa using h)]

theorem relAt_append (p e : Bytes) (off : Nat) (h : off + 24 ≤ p.length) :
    relAt (p ++ e) off = relAt p off := by
  unfold relAt
  rw [record_append _ _ _ _ (by simpa using h)]

/-! ## Symbols -/

/-- How a symbol is read. -/
def Symbol.read (g : Bool) (s : Symbol) : Sym :=
  ⟨s.name, if g then 1 else 0, s.ty, 0, s.shndx, s.value, 0⟩

structure Symbol.Fits (s : Symbol) : Prop where
  ty : s.ty < 16
  shndx : s.shndx < 2 ^ 16
  value : s.value < 2 ^ 64

/-- The symbol table is read as `l`, whatever is entered into its string table later. -/
structure Symtab.Reads (t : Symtab) (l : List Sym) : Prop where
  ok : t.strtab.Ok
  reads : ∀ y, (t.strtab.payload ++ y).length < 2 ^ 32 →
    Table (fun p => symAt p (t.strtab.payload ++ y)) t.payload l
  length : t.payload.length = 24 * l.length

theorem Symtab.new_reads : Symtab.new.Reads [⟨[], 0, 0, 0, 0, 0, 0⟩] := by
  refine ⟨Strtab.new_ok, ?_, rfl⟩
  intro y _
  refine ⟨rfl, ?_⟩
  simp only [List.length_singleton, List.range_one, List.map_singleton]
  have h : cstr (Strtab.new.payload ++ y) 0 = [] := by simp [cstr, Strtab.new]
  have e : record Symtab.new.payload (24 * 0) [4, 1, 1, 2, 8, 8] = [0, 0, 0, 0, 0, 0] := by
    decide
  simp only [symAt, e]
  simp [Symtab.new, h]

theorem bind_or (g : Bool) (ty : Nat) (h : ty < 16) :
    ((if g then 1 else 0) <<< 4 ||| ty) = (if g then 1 else 0) * 16 + ty := by
  cases g <;> interval_cases ty <;> rfl

theorem Symtab.add_spec {t t' : Symtab} {l : List Sym} {s : Symbol} {i : Nat}
    (h : t.add s = some (i, t')) (hl : t.Reads l) (hs : s.Fits) :
    t'.Reads (l ++ [s.read t.first.isSome]) ∧ t'.first = t.first ∧ i = l.length % 2 ^ 32 ∧
      ∃ e, t'.payload = t.payload ++ e := by
  unfold Symtab.add at h
  split at h
  swap
  · cases h
  rename_i name strtab hg
  simp only [Option.some.injEq, Prod.mk.injEq] at h
  obtain ⟨hi, rfl⟩ := h
  obtain ⟨⟨x, hx⟩, hok, hh⟩ := Strtab.get_spec hg hl.ok
  refine ⟨⟨hok, ?_, ?_⟩, rfl, ?_, _, rfl⟩
  · intro y hy
    simp only at hy ⊢
    have hlt : strtab.payload.length < 2 ^ 32 := by
      simp only [List.length_append] at hy; omega
    have hold := (hh hlt)
    have ht := hl.reads (x ++ y) (by rw [← List.append_assoc, ← hx]; exact hy)
    rw [← List.append_assoc, ← hx] at ht
    refine ht.push (fun off ho => symAt_append _ _ _ _ ho) (by rw [encs_length]; rfl) ?_
    have hr := record_encs t.payload [] [(4, name),
      (1, (if t.first.isSome then 1 else 0) <<< 4 ||| s.ty), (1, 0), (2, s.shndx), (8, s.value),
      (8, 0)]
    simp only [List.append_nil, List.map_cons, List.map_nil] at hr
    simp only [symAt, hr]
    have h1 : name < 2 ^ 32 := lt_trans hold.lt hlt
    have h2 := hs.ty
    have h3 := hs.shndx
    have h4 := hs.value
    simp only [List.getD_cons_zero, List.getD_cons_succ, Symbol.read, Sym.mk.injEq]
    rw [bind_or _ _ hs.ty]
    refine ⟨?_, ?_, ?_, ?_, ?_, ?_, ?_⟩
    · rw [Nat.mod_eq_of_lt (by omega), (hold.append y).cstr]
    · cases t.first.isSome <;> simp <;> omega
    · cases t.first.isSome <;> simp <;> omega
    · rfl
    · omega
    · omega
    · rfl
  · simp [hl.length, encs_length]; omega
  · rw [← hi, Symtab.next, hl.length]; simp

theorem Symtab.add_isSome (t : Symtab) (s : Symbol) (h : 0 ∉ s.name) : (t.add s).isSome := by
  obtain ⟨⟨i, t'⟩, e⟩ := Option.isSome_iff_exists.mp (t.strtab.get_isSome s.name h)
  simp [Symtab.add, e]

/-! ## Relocations -/

theorem signed_unsigned (a : Int) (h1 : -2 ^ 63 ≤ a) (h2 : a < 2 ^ 63) :
    signed (unsigned a % 256 ^ 8) = a := by
  unfold signed unsigned
  split <;> omega

theorem relAt_entry (p : Bytes) (off sym ty : Nat) (a : Int) (h1 : off < 2 ^ 64)
    (h2 : sym < 2 ^ 32) (h3 : ty < 2 ^ 32) (h4 : -2 ^ 63 ≤ a) (h5 : a < 2 ^ 63) :
    relAt (p ++ relaEntry off sym ty a) p.length = ⟨off, sym, ty, a⟩ := by
  have hr := record_encs p [] [(8, off), (8, sym <<< 32 ||| ty), (8, unsigned a)]
  simp only [List.append_nil, List.map_cons, List.map_nil] at hr
  simp only [relAt, relaEntry, hr]
  rw [← Nat.shiftLeft_add_eq_or_of_lt h3, Nat.shiftLeft_eq]
  simp only [List.getD_cons_zero, List.getD_cons_succ, Rel.mk.injEq]
  refine ⟨by omega, by omega, by omega, signed_unsigned a h4 h5⟩

end Verif.Elf
