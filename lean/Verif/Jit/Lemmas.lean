import Verif.Jit.Spec
import Verif.Obj.Props

/-! # Lemmas on segments and memory -/

namespace Verif.Jit

open Verif.Asm Verif.Obj Verif.Obj.Spec Spec

/-- Two mappings do not overlap. -/
def Mmap.Apart (m m' : Mmap) : Prop := m.ptr + m.size ≤ m'.ptr ∨ m'.ptr + m'.size ≤ m.ptr

/-- Address `a` is in the unallocated rest of the last chunk of a segment. -/
def Free (w : World) (a : Nat) : Prop :=
  ∃ id m rest, (w.seg id).chunks = m :: rest ∧ m.ptr + (w.seg id).offset ≤ a ∧ a < m.ptr + m.size

/-- Address `a` is in a mapping. -/
def Mapped (w : World) (a : Nat) : Prop := ∃ m ∈ w.maps, m.ptr ≤ a ∧ a < m.ptr + m.size

/-- Address `a` is never given out again. -/
def Used (w : World) (a : Nat) : Prop := Mapped w a ∧ ¬ Free w a

/-- Invariant of the segments. -/
structure WInv (w : World) : Prop where
  bounds : ∀ m ∈ w.maps, 0 < m.ptr ∧ m.ptr % 4096 = 0 ∧ m.ptr + m.size ≤ 2147483648
  disj : w.maps.Pairwise Mmap.Apart
  last : ∀ id m rest, (w.seg id).chunks = m :: rest → m ∈ w.maps ∧ (w.seg id).offset ≤ m.size
  apart : ∀ id id' m rest m' rest', id ≠ id' → (w.seg id).chunks = m :: rest →
    (w.seg id').chunks = m' :: rest' → m.Apart m'

/-- The engine only allocates multiples of 16 bytes, and of 8 bytes for the address table. -/
structure Aligned (w : World) : Prop where
  al8 : ∀ id, (w.seg id).offset % 8 = 0
  al16 : ∀ id, id ≠ .table → (w.seg id).offset % 16 = 0

/-- Nothing in use changes. -/
structure Keeps (w w' : World) : Prop where
  used : ∀ a, Used w a → Used w' a
  mem : ∀ a, Used w a → w'.mem a = w.mem a
  maps : ∀ m ∈ w.maps, m ∈ w'.maps

theorem Keeps.refl (w : World) : Keeps w w := ⟨fun _ h => h, fun _ _ => rfl, fun _ h => h⟩

theorem Keeps.trans {a b c : World} (h : Keeps a b) (k : Keeps b c) : Keeps a c :=
  ⟨fun x hx => k.used x (h.used x hx), fun x hx => (k.mem x (h.used x hx)).trans (h.mem x hx),
    fun m hm => k.maps m (h.maps m hm)⟩

theorem winv_new (mem : Nat → Nat) : WInv (Engine.new mem).world := by
  refine ⟨fun m h => (by cases h), List.Pairwise.nil, fun id m rest h => (by cases h),
    fun id id' m rest m' rest' _ h => (by cases h)⟩

theorem setSeg_same (w : World) (id : SegId) (s : Segment) : (w.setSeg id s).seg id = s := if_pos rfl

theorem setSeg_other (w : World) {id i : SegId} (s : Segment) (h : i ≠ id) : (w.setSeg id s).seg i = w.seg i :=
  if_neg h

theorem ensure_spec {os : Os} (hos : OsOk os) {w w' : World} (hw : WInv w) {id : SegId} {size : Nat}
    (h : ensure os w id size = some w') :
    WInv w' ∧ Keeps w w' ∧ size ≤ (w'.seg id).lastCapacity ∧ (Aligned w → Aligned w') := by
  unfold ensure at h
  split at h
  case isFalse hc => cases h; exact ⟨hw, Keeps.refl w, by omega, fun h => h⟩
  case isTrue hc =>
    unfold mmap at h
    cases hp : os w.maps ((size + 4096 - 1) / 4096) with
    | none => rw [hp] at h; cases h
    | some p =>
      rw [hp] at h
      simp only [Option.some.injEq] at h
      obtain ⟨h1, h2, h3, h4⟩ := hos _ _ _ hp
      generalize hpg : (size + 4096 - 1) / 4096 = pages at *
      have hsz : size ≤ pages * 4096 := by omega
      have hmaps : w'.maps = ⟨p, pages⟩ :: w.maps := by rw [← h]; rfl
      have hmem : ∀ a, w'.mem a = if p ≤ a ∧ a < p + pages * 4096 then 0 else w.mem a := by rw [← h]; exact fun _ => rfl
      have hid : w'.seg id = ⟨⟨p, pages⟩ :: (w.seg id).chunks, 0⟩ := by rw [← h]; exact setSeg_same ..
      have hot : ∀ i, i ≠ id → w'.seg i = w.seg i := by rw [← h]; exact fun i hi => setSeg_other _ _ hi
      clear h
      refine ⟨⟨?_, ?_, ?_, ?_⟩, ⟨?_, ?_, ?_⟩, ?_, fun hal => ⟨?_, ?_⟩⟩
      · intro m hm
        rw [hmaps] at hm
        rcases List.mem_cons.1 hm with e | hm
        · rw [e]; exact ⟨h1, h2, h3⟩
        · exact hw.bounds m hm
      · rw [hmaps]
        exact List.pairwise_cons.2 ⟨fun m hm => h4 m hm, hw.disj⟩
      · intro i m rest hi
        rw [hmaps]
        by_cases e : i = id
        · subst e
          rw [hid] at hi ⊢
          cases hi
          exact ⟨List.mem_cons_self .., Nat.zero_le _⟩
        · rw [hot i e] at hi ⊢
          obtain ⟨a, b⟩ := hw.last i m rest hi
          exact ⟨List.mem_cons_of_mem _ a, b⟩
      · intro i i' m rest m' rest' hne hi hi'
        by_cases e : i = id
        · subst e
          rw [hid] at hi
          cases hi
          rw [hot i' (fun x => hne x.symm)] at hi'
          exact h4 m' (hw.last i' m' rest' hi').1
        · rw [hot i e] at hi
          by_cases e' : i' = id
          · subst e'
            rw [hid] at hi'
            cases hi'
            exact (h4 m (hw.last i m rest hi).1).symm
          · rw [hot i' e'] at hi'
            exact hw.apart i i' m rest m' rest' hne hi hi'
      · rintro a ⟨⟨m, hm, hma⟩, hnf⟩
        refine ⟨⟨m, by rw [hmaps]; exact List.mem_cons_of_mem _ hm, hma⟩, ?_⟩
        rintro ⟨i, m', rest, hi, hfa, hfb⟩
        by_cases e : i = id
        · subst e
          rw [hid] at hi hfa
          cases hi
          have h4' := h4 m hm
          simp only [Mmap.size] at hma hfa hfb
          omega
        · rw [hot i e] at hi hfa
          exact hnf ⟨i, m', rest, hi, hfa, hfb⟩
      · rintro a ⟨⟨m, hm, hma⟩, hnf⟩
        rw [hmem, if_neg]
        have h4' := h4 m hm
        simp only [Mmap.size] at hma
        omega
      · intro m hm
        rw [hmaps]
        exact List.mem_cons_of_mem _ hm
      · rw [hid]
        exact hsz
      · intro i
        by_cases e : i = id
        · subst e; rw [hid]; exact Nat.zero_mod _
        · rw [hot i e]; exact hal.al8 i
      · intro i hi
        by_cases e : i = id
        · subst e; rw [hid]; exact Nat.zero_mod _
        · rw [hot i e]; exact hal.al16 i hi

/-- `allocate` gives a new block inside a mapping. -/
theorem allocate_spec {os : Os} (hos : OsOk os) {w w' : World} (hw : WInv w) {id : SegId} {size p : Nat}
    (h : allocate os w id size = some (p, w')) :
    WInv w' ∧ Keeps w w' ∧ (∀ a, p ≤ a → a < p + size → ¬ Used w a ∧ Used w' a) ∧
      (p = 0 ∧ size = 0 ∨ 0 < p ∧ p + size ≤ 2147483648 ∧
        ∃ m ∈ w'.maps, m.ptr ≤ p ∧ p + size ≤ m.ptr + m.size) ∧
      (Aligned w → size % 8 = 0 → (id ≠ .table → size % 16 = 0) →
        Aligned w' ∧ p % 8 = 0 ∧ (id ≠ .table → p % 16 = 0)) := by
  unfold allocate at h
  cases he : ensure os w id size with
  | none => rw [he] at h; cases h
  | some w1 =>
    rw [he] at h
    simp only [Option.some.injEq, Prod.mk.injEq] at h
    obtain ⟨hp, h⟩ := h
    obtain ⟨hw1, hk, hcap, hal⟩ := ensure_spec hos hw he
    have hmaps : w'.maps = w1.maps := by rw [← h]; rfl
    have hmem : w'.mem = w1.mem := by rw [← h]; rfl
    have hid : w'.seg id = ⟨(w1.seg id).chunks, (w1.seg id).offset + size⟩ := by rw [← h]; exact setSeg_same ..
    have hot : ∀ i, i ≠ id → w'.seg i = w1.seg i := by rw [← h]; exact fun i hi => setSeg_other _ _ hi
    have hin : ∀ m rest, (w1.seg id).chunks = m :: rest → p = m.ptr + (w1.seg id).offset ∧
        (w1.seg id).offset + size ≤ m.size ∧ m ∈ w1.maps := by
      intro m rest hc
      obtain ⟨hm, ho⟩ := hw1.last id m rest hc
      simp only [Segment.ptr, hc] at hp
      simp only [Segment.lastCapacity, hc] at hcap
      exact ⟨hp.symm, by omega, hm⟩
    have hnil : (w1.seg id).chunks = [] → p = 0 ∧ size = 0 := by
      intro hc
      simp only [Segment.ptr, hc] at hp
      simp only [Segment.lastCapacity, hc] at hcap
      exact ⟨hp.symm, by omega⟩
    clear h hp
    have hkeep : Keeps w1 w' := by
      refine ⟨?_, fun a _ => by rw [hmem], fun m hm => by rw [hmaps]; exact hm⟩
      rintro a ⟨⟨m, hm, hma⟩, hnf⟩
      refine ⟨⟨m, by rw [hmaps]; exact hm, hma⟩, ?_⟩
      rintro ⟨i, m', rest, hi, hfa, hfb⟩
      by_cases e : i = id
      · subst e
        rw [hid] at hi hfa
        simp only at hi hfa
        exact hnf ⟨i, m', rest, hi, by omega, hfb⟩
      · rw [hot i e] at hi hfa
        exact hnf ⟨i, m', rest, hi, hfa, hfb⟩
    refine ⟨⟨?_, ?_, ?_, ?_⟩, hk.trans hkeep, ?_, ?_, fun hali hs8 hs16 => ?_⟩
    · rw [hmaps]; exact hw1.bounds
    · rw [hmaps]; exact hw1.disj
    · intro i m rest hi
      rw [hmaps]
      by_cases e : i = id
      · subst e
        rw [hid] at hi ⊢
        obtain ⟨_, b, c⟩ := hin m rest hi
        exact ⟨c, b⟩
      · rw [hot i e] at hi ⊢
        exact hw1.last i m rest hi
    · intro i i' m rest m' rest' hne hi hi'
      have e1 : ∀ i, (w'.seg i).chunks = (w1.seg i).chunks := by
        intro i
        by_cases e : i = id
        · subst e; rw [hid]
        · rw [hot i e]
      rw [e1] at hi hi'
      exact hw1.apart i i' m rest m' rest' hne hi hi'
    · intro a ha hb
      cases hc : (w1.seg id).chunks with
      | nil => have := (hnil hc).2; omega
      | cons m rest =>
        obtain ⟨c1, c2, c3⟩ := hin m rest hc
        constructor
        · intro hu
          exact (hk.used a hu).2 ⟨id, m, rest, hc, by omega, by omega⟩
        · refine ⟨⟨m, by rw [hmaps]; exact c3, by omega, by omega⟩, ?_⟩
          rintro ⟨i, m', rest', hi, hfa, hfb⟩
          by_cases e : i = id
          · subst e
            rw [hid] at hi hfa
            simp only at hi hfa
            rw [hc] at hi
            cases hi
            omega
          · rw [hot i e] at hi hfa
            have := hw1.apart i id m' rest' m rest e hi hc
            unfold Mmap.Apart at this
            omega
    · cases hc : (w1.seg id).chunks with
      | nil => exact .inl (hnil hc)
      | cons m rest =>
        obtain ⟨c1, c2, c3⟩ := hin m rest hc
        have := hw1.bounds m c3
        exact .inr ⟨by omega, by omega, m, by rw [hmaps]; exact c3, by omega, by omega⟩
    · have hal1 := hal hali
      have hal8 := hal1.al8 id
      have hal16 := hal1.al16 id
      refine ⟨⟨fun i => ?_, fun i hi => ?_⟩, ?_, fun hi => ?_⟩
      · by_cases e : i = id
        · subst e; rw [hid]; simp only; omega
        · rw [hot i e]; exact hal1.al8 i
      · by_cases e : i = id
        · subst e
          rw [hid]
          simp only
          have := hal16 hi
          have := hs16 hi
          omega
        · rw [hot i e]; exact hal1.al16 i hi
      · cases hc : (w1.seg id).chunks with
        | nil => rw [(hnil hc).1]
        | cons m rest =>
          obtain ⟨c1, c2, c3⟩ := hin m rest hc
          have := (hw1.bounds m c3).2.1
          omega
      · cases hc : (w1.seg id).chunks with
        | nil => rw [(hnil hc).1]
        | cons m rest =>
          obtain ⟨c1, c2, c3⟩ := hin m rest hc
          have := (hw1.bounds m c3).2.1
          have := hal16 hi
          omega

/-! ## Memory -/

theorem poke_out {mem : Nat → Nat} {p : Nat} {bs : List Nat} {a : Nat} (h : ¬ (p ≤ a ∧ a < p + bs.length)) :
    poke mem p bs a = mem a := if_neg h

theorem poke_in {mem : Nat → Nat} {p : Nat} {bs : List Nat} {i : Nat} (h : i < bs.length) :
    some (poke mem p bs (p + i)) = bs[i]? := by
  unfold poke
  rw [if_pos ⟨Nat.le_add_right .., by omega⟩, Nat.add_sub_cancel_left, List.getD_eq_getElem?_getD,
    List.getElem?_eq_getElem h]
  rfl

theorem readMem_length (mem : Nat → Nat) (p n : Nat) : (readMem mem p n).length = n := by
  simp [readMem]

theorem readMem_get {mem : Nat → Nat} {p n i : Nat} (h : i < n) : (readMem mem p n)[i]? = some (mem (p + i)) := by
  simp [readMem, h]

theorem readMem_eq {mem : Nat → Nat} {p n : Nat} {bs : List Nat} (hl : bs.length = n)
    (h : ∀ i, i < n → some (mem (p + i)) = bs[i]?) : readMem mem p n = bs := by
  apply List.ext_getElem?
  intro i
  by_cases hi : i < n
  · rw [readMem_get hi, h i hi]
  · rw [List.getElem?_eq_none (by rw [readMem_length]; omega), List.getElem?_eq_none (by omega)]

theorem readMem_congr {mem mem' : Nat → Nat} {p n : Nat} (h : ∀ i, i < n → mem (p + i) = mem' (p + i)) :
    readMem mem p n = readMem mem' p n :=
  readMem_eq (readMem_length ..) (fun i hi => by rw [readMem_get hi, h i hi])

theorem readMem_poke (mem : Nat → Nat) (p : Nat) (bs : List Nat) : readMem (poke mem p bs) p bs.length = bs :=
  readMem_eq rfl (fun _ hi => poke_in hi)

theorem readField_readMem {mem : Nat → Nat} {p n pos k : Nat} (h : pos + k ≤ n) :
    readField (readMem mem p n) pos k = readMem mem (p + pos) k := by
  apply List.ext_getElem?
  intro i
  unfold readField
  by_cases hi : i < k
  · rw [List.getElem?_take, if_pos hi, List.getElem?_drop, readMem_get (by omega), readMem_get hi, Nat.add_assoc]
  · rw [List.getElem?_take, if_neg hi, List.getElem?_eq_none (by rw [readMem_length]; omega)]

/-! ## The engine -/

/-- Invariant of an engine. -/
structure EInv (e : Engine) : Prop where
  winv : WInv e.world
  al : Aligned e.world
  entry : ∀ n a, HMap.get e.entries n = some a → ∃ v, HMap.get e.symbols n = some v ∧
    readMem e.world.mem a 8 = leBytes 8 (v : Int) ∧ (∀ i, i < 8 → Used e.world (a + i)) ∧ 0 < a ∧ a + 8 ≤ 2147483648 ∧
    a % 8 = 0
  apart : ∀ n n' a a', n ≠ n' → HMap.get e.entries n = some a → HMap.get e.entries n' = some a' →
    a + 8 ≤ a' ∨ a' + 8 ≤ a

/-- The later engine knows everything the earlier one did. -/
structure EKeeps (e e' : Engine) : Prop where
  used : ∀ a, Used e.world a → Used e'.world a
  maps : ∀ m ∈ e.world.maps, m ∈ e'.world.maps
  symbols : ∀ n p, HMap.get e.symbols n = some p → HMap.get e'.symbols n = some p
  entries : ∀ n p, HMap.get e.entries n = some p → HMap.get e'.entries n = some p

theorem EKeeps.refl (e : Engine) : EKeeps e e := ⟨fun _ h => h, fun _ h => h, fun _ _ h => h, fun _ _ h => h⟩

theorem EKeeps.trans {a b c : Engine} (h : EKeeps a b) (k : EKeeps b c) : EKeeps a c :=
  ⟨fun x hx => k.used x (h.used x hx), fun m hm => k.maps m (h.maps m hm), fun n p hp => k.symbols n p (h.symbols n p hp),
    fun n p hp => k.entries n p (h.entries n p hp)⟩

/-- A byte given out, not of the address table. -/
def Owned (e : Engine) (a : Nat) : Prop :=
  Used e.world a ∧ ∀ n p, HMap.get e.entries n = some p → ¬ (p ≤ a ∧ a < p + 8)

theorem einv_new (mem : Nat → Nat) : EInv (Engine.new mem) :=
  ⟨winv_new mem, ⟨fun _ => rfl, fun _ _ => rfl⟩, fun n a h => (by cases h), fun n n' a a' _ h => (by cases h)⟩

theorem winv_mem {w : World} (h : WInv w) (mem : Nat → Nat) : WInv { w with mem := mem } :=
  ⟨h.bounds, h.disj, h.last, h.apart⟩

/-- Writing to own bytes keeps the invariant. -/
theorem poke_einv {e : Engine} (he : EInv e) {p : Nat} {bs : List Nat}
    (ho : ∀ i, i < bs.length → Owned e (p + i)) : EInv { e with world := e.world.poke p bs } := by
  refine ⟨winv_mem he.winv _, ⟨he.al.al8, he.al.al16⟩, fun n a h => ?_, he.apart⟩
  obtain ⟨v, h1, h2, h3, h4⟩ := he.entry n a h
  refine ⟨v, h1, ?_, h3, h4⟩
  rw [← h2]
  refine readMem_congr (fun i hi => poke_out ?_)
  rintro ⟨ha, hb⟩
  have := (ho (a + i - p) (by omega)).2 n a h
  omega

theorem bindSymbol_spec {rs : String → Nat} {t t' : HMap String Nat} {n : String} {ptr : Option Nat}
    (h : bindSymbol rs t n ptr = .ok t') :
    (∀ m p, HMap.get t m = some p → HMap.get t' m = some p) ∧ (∃ p, HMap.get t' n = some p) ∧
      ∀ p, ptr = some p → HMap.get t n = none ∧ HMap.get t' n = some p := by
  unfold bindSymbol at h
  have key : ∀ q, HMap.get t n = none → (∀ m p, HMap.get t m = some p → HMap.get (HMap.insert t n q) m = some p) ∧
      HMap.get (HMap.insert t n q) n = some q := by
    intro q hn
    refine ⟨fun m p hm => ?_, by rw [HMap.get_insert, if_pos rfl]⟩
    rw [HMap.get_insert]
    by_cases e : m = n
    · subst e; rw [hn] at hm; cases hm
    · rw [if_neg]
      · exact hm
      · first | exact e | exact fun x => e x.symm
  split at h
  · rename_i hn
    cases h
    obtain ⟨k1, k2⟩ := key _ hn
    exact ⟨k1, ⟨_, k2⟩, fun p hp => by cases hp; exact ⟨hn, k2⟩⟩
  · rename_i hn
    split at h
    · cases h
      obtain ⟨k1, k2⟩ := key _ hn
      exact ⟨k1, ⟨_, k2⟩, fun p hp => by cases hp⟩
    · cases h
  · cases h
  · rename_i p hn
    cases h
    exact ⟨fun _ _ h => h, ⟨_, hn⟩, fun p hp => by cases hp⟩

/-- Binding only extends the symbols. -/
theorem symbols_einv {e : Engine} (he : EInv e) {t : HMap String Nat}
    (h : ∀ m p, HMap.get e.symbols m = some p → HMap.get t m = some p) : EInv { e with symbols := t } := by
  refine ⟨he.winv, he.al, fun n a hn => ?_, he.apart⟩
  obtain ⟨v, h1, h2⟩ := he.entry n a hn
  exact ⟨v, h n v h1, h2⟩

/-- A state of linking an object: the addresses of the sections stay. -/
structure LinkKeeps (k k' : Linker) : Prop where
  base : k'.base = k.base
  keeps : EKeeps k.engine k'.engine
  owned : ∀ a, Owned k.engine a → Owned k'.engine a

theorem LinkKeeps.refl (k : Linker) : LinkKeeps k k := ⟨rfl, EKeeps.refl _, fun _ h => h⟩

theorem LinkKeeps.trans {a b c : Linker} (h : LinkKeeps a b) (k : LinkKeeps b c) : LinkKeeps a c :=
  ⟨k.base.trans h.base, h.keeps.trans k.keeps, fun x hx => k.owned x (h.owned x hx)⟩

theorem bind_spec {rs : String → Nat} {k k' : Linker} {n : String} {b : Binding} (he : EInv k.engine)
    (h : k.bind rs n b = .ok k') :
    EInv k'.engine ∧ LinkKeeps k k' ∧ k'.engine.world = k.engine.world ∧ k'.engine.entries = k.engine.entries ∧
      (∀ m p, HMap.get k.locals_ m = some p → HMap.get k'.locals_ m = some p) ∧
      (∀ m, m ≠ n → HMap.get k'.locals_ m = HMap.get k.locals_ m) ∧
      (match b with
        | .loc l => HMap.get k.locals_ n = none ∧ HMap.get k'.locals_ n = some (locate k.base l)
        | .global l => k'.locals_ = k.locals_ ∧ (∃ p, HMap.get k'.engine.symbols n = some p) ∧
          ∀ q, l = some q → HMap.get k.engine.symbols n = none ∧ HMap.get k'.engine.symbols n = some (locate k.base q)) := by
  unfold Linker.bind at h
  cases b with
  | loc l =>
    simp only at h
    cases hn : HMap.get k.locals_ n with
    | some p => rw [hn] at h; cases h
    | none =>
      rw [hn] at h
      cases h
      refine ⟨he, ⟨rfl, EKeeps.refl _, fun _ h => h⟩, rfl, rfl, fun m p hm => ?_, fun m hm => ?_, rfl, ?_⟩
      · show HMap.get (HMap.insert k.locals_ n _) m = some p
        rw [HMap.get_insert, if_neg]
        · exact hm
        · rintro rfl; rw [hn] at hm; cases hm
      · show HMap.get (HMap.insert k.locals_ n _) m = _
        rw [HMap.get_insert, if_neg]
        exact fun e => hm (by first | exact e | exact e.symm)
      · show HMap.get (HMap.insert k.locals_ n _) n = _
        rw [HMap.get_insert, if_pos rfl]
  | global l =>
    simp only at h
    cases hb : bindSymbol rs k.engine.symbols n (l.map (locate k.base)) with
    | error err => rw [hb] at h; cases h
    | ok t =>
      rw [hb] at h
      cases h
      obtain ⟨h1, h2, h3⟩ := bindSymbol_spec hb
      refine ⟨symbols_einv he h1, ⟨rfl, ⟨fun _ h => h, fun _ h => h, h1, fun _ _ h => h⟩, fun _ h => h⟩, rfl, rfl,
        fun _ _ h => h, fun _ _ => rfl, rfl, h2, fun q hq => ?_⟩
      subst hq
      exact h3 _ rfl

theorem bindAll_inv {rs : String → Nat} {k k' : Linker} {l : List (String × Binding)} {err : Option Error}
    (he : EInv k.engine) (h : bindAll rs k l = (k', err)) :
    EInv k'.engine ∧ LinkKeeps k k' ∧ k'.engine.world = k.engine.world ∧ k'.engine.entries = k.engine.entries ∧
      (∀ m p, HMap.get k.locals_ m = some p → HMap.get k'.locals_ m = some p) := by
  induction l generalizing k with
  | nil => cases h; exact ⟨he, LinkKeeps.refl _, rfl, rfl, fun _ _ h => h⟩
  | cons q l ih =>
    obtain ⟨n, b⟩ := q
    simp only [bindAll] at h
    cases hb : k.bind rs n b with
    | error e => rw [hb] at h; cases h; exact ⟨he, LinkKeeps.refl _, rfl, rfl, fun _ _ h => h⟩
    | ok k1 =>
      rw [hb] at h
      obtain ⟨h1, h2, h3, h4, h5, _⟩ := bind_spec he hb
      obtain ⟨i1, i2, i3, i4, i5⟩ := ih h1 h
      exact ⟨i1, h2.trans i2, i3.trans h3, i4.trans h4, fun m p hm => i5 m p (h5 m p hm)⟩

/-- After a successful binding of all symbols, each is bound to its place. -/
theorem bindAll_ok {rs : String → Nat} {k k' : Linker} {l : List (String × Binding)} (he : EInv k.engine)
    (hnd : (l.map (·.1)).Nodup) (h : bindAll rs k l = (k', none)) :
    (∀ m, m ∉ l.map (·.1) → HMap.get k'.locals_ m = HMap.get k.locals_ m) ∧
    ∀ n b, (n, b) ∈ l →
      match b with
      | .loc q => HMap.get k'.locals_ n = some (locate k.base q)
      | .global q => HMap.get k'.locals_ n = HMap.get k.locals_ n ∧ (∃ p, HMap.get k'.engine.symbols n = some p) ∧
        ∀ z, q = some z → HMap.get k.engine.symbols n = none ∧ HMap.get k'.engine.symbols n = some (locate k.base z) := by
  induction l generalizing k with
  | nil => cases h; exact ⟨fun _ _ => rfl, fun n b hm => (by cases hm)⟩
  | cons q l ih =>
    obtain ⟨n, b⟩ := q
    simp only [bindAll] at h
    rw [List.map_cons, List.nodup_cons] at hnd
    cases hb : k.bind rs n b with
    | error e => rw [hb] at h; cases h
    | ok k1 =>
      rw [hb] at h
      obtain ⟨h1, h2, h3, h4, h5, h6, h7⟩ := bind_spec he hb
      obtain ⟨_, i2, _, _, i5⟩ := bindAll_inv h1 h
      obtain ⟨j1, j2⟩ := ih h1 hnd.2 h
      have hb1 := h2.base
      refine ⟨fun m hm => ?_, fun m b' hm => ?_⟩
      · simp only [List.map_cons, List.mem_cons, not_or] at hm
        rw [j1 m hm.2, h6 m hm.1]
      · rcases List.mem_cons.1 hm with e | hm1
        · cases e
          cases b with
          | loc q => exact i5 _ _ h7.2
          | global q =>
            obtain ⟨e1, ⟨p, e2⟩, e3⟩ := h7
            refine ⟨by rw [j1 _ hnd.1, e1], ⟨p, i2.keeps.symbols _ _ e2⟩, fun z hz => ?_⟩
            obtain ⟨e4, e5⟩ := e3 z hz
            exact ⟨e4, i2.keeps.symbols _ _ e5⟩
        · have hne : m ≠ n := by
            rintro rfl
            exact hnd.1 (List.mem_map_of_mem (f := (·.1)) hm1)
          have := j2 m b' hm1
          cases b' with
          | loc q => simp only at this ⊢; rw [this, hb1]
          | global q =>
            simp only at this ⊢
            obtain ⟨e1, e2, e3⟩ := this
            refine ⟨by rw [e1, h6 m hne], e2, fun z hz => ?_⟩
            obtain ⟨e4, e5⟩ := e3 z hz
            rw [hb1] at e5
            refine ⟨?_, e5⟩
            cases hx : HMap.get k.engine.symbols m with
            | none => rfl
            | some p => rw [h2.keeps.symbols m p hx] at e4; cases e4

/-! ## Relocations -/

/-- The address a direct relocation refers to. -/
def Linker.sym (k : Linker) (n : String) : Option Nat :=
  match HMap.get k.locals_ n with
  | some p => some p
  | none => HMap.get k.engine.symbols n

theorem direct_ok {k : Linker} {t : Target} {p : Nat} (h : k.direct t = .ok p) : targetAddr k.base k.sym t = some p := by
  cases t with
  | symbol n =>
    simp only [Linker.direct] at h
    simp only [targetAddr, Linker.sym]
    cases hl : HMap.get k.locals_ n with
    | some q => rw [hl] at h; cases h; rfl
    | none =>
      rw [hl] at h
      cases hs : HMap.get k.engine.symbols n with
      | some q => simp only [hs] at h; cases h; rfl
      | none => simp only [hs] at h; cases h
  | sect s =>
    cases h
    rfl

theorem prepare_spec {os : Os} (hos : OsOk os) {e e' : Engine} {n : String} {a : Nat} (he : EInv e)
    (h : prepare os e n = .ok (some (a, e'))) :
    EInv e' ∧ EKeeps e e' ∧ e'.symbols = e.symbols ∧ HMap.get e'.entries n = some a ∧
      (∀ x, Owned e x → Owned e' x) ∧ ∀ x, Used e.world x → e'.world.mem x = e.world.mem x := by
  unfold prepare at h
  cases hn : HMap.get e.entries n with
  | some p =>
    rw [hn] at h
    cases h
    exact ⟨he, EKeeps.refl _, rfl, hn, fun _ h => h, fun _ _ => rfl⟩
  | none =>
    rw [hn] at h
    cases hs : HMap.get e.symbols n with
    | none => rw [hs] at h; cases h
    | some v =>
      simp only [hs] at h
      cases hp : put os e.world v with
      | none => rw [hp] at h; cases h
      | some r =>
        obtain ⟨b, w⟩ := r
        rw [hp] at h
        cases h
        unfold put at hp
        cases ha : allocate os e.world .table 8 with
        | none => rw [ha] at hp; cases hp
        | some r =>
          obtain ⟨b, w1⟩ := r
          rw [ha] at hp
          cases hp
          obtain ⟨hw1, hk, hblk, hpos, hali⟩ := allocate_spec hos he.winv ha
          obtain ⟨hal1, hal, _⟩ := hali he.al (by decide) (fun h => absurd rfl h)
          have hpos : 0 < a ∧ a + 8 ≤ 2147483648 := by
            rcases hpos with ⟨_, h⟩ | ⟨h1, h2, _⟩
            · cases h
            · exact ⟨h1, h2⟩
          have hlen : (leBytes 8 (v : Int)).length = 8 := leBytes_length 8 _
          have hmem : ∀ x, Used e.world x → (w1.poke a (leBytes 8 (v : Int))).mem x = e.world.mem x := by
            intro x hx
            have : (w1.poke a (leBytes 8 (v : Int))).mem x = w1.mem x := by
              refine poke_out ?_
              rw [hlen]
              rintro ⟨h1, h2⟩
              exact (hblk x h1 h2).1 hx
            rw [this, hk.mem x hx]
          have hget : ∀ m, HMap.get (HMap.insert e.entries n a) m = if m = n then some a else HMap.get e.entries m := by
            intro m
            rw [HMap.get_insert]
          have hused : ∀ x, Used w1 x → Used (w1.poke a (leBytes 8 (v : Int))) x := fun x hx => hx
          refine ⟨⟨winv_mem hw1 _, ⟨hal1.al8, hal1.al16⟩, fun m p hm => ?_, fun m m' p p' hne hm hm' => ?_⟩,
            ⟨fun x hx => hused x (hk.used x hx), hk.maps, fun _ _ h => h, fun m p hm => ?_⟩, rfl, ?_, fun x hx => ?_, hmem⟩
          · rw [hget] at hm
            split at hm
            · rename_i e
              cases hm
              subst e
              refine ⟨v, hs, ?_, fun i hi => hused _ (hblk (a + i) (by omega) (by omega)).2, hpos.1, hpos.2, hal⟩
              have := readMem_poke w1.mem a (leBytes 8 (v : Int))
              rw [hlen] at this
              exact this
            · obtain ⟨v', k1, k2, k3, k4⟩ := he.entry m p hm
              refine ⟨v', k1, ?_, fun i hi => hused _ (hk.used _ (k3 i hi)), k4⟩
              rw [← k2]
              exact readMem_congr (fun i hi => hmem _ (k3 i hi))
          · have hdisj : ∀ m p, HMap.get e.entries m = some p → a + 8 ≤ p ∨ p + 8 ≤ a := by
              intro m p hm
              obtain ⟨_, _, _, k3, _, _, k6⟩ := he.entry m p hm
              by_cases hc : a + 8 ≤ p ∨ p + 8 ≤ a
              · exact hc
              · have e : p = a := by omega
                exact absurd (k3 0 (by omega)) (hblk (p + 0) (by omega) (by omega)).1
            rw [hget] at hm hm'
            split at hm <;> split at hm'
            · rename_i e1 e2; exact absurd (e1.trans e2.symm) hne
            · cases hm; exact hdisj m' p' hm'
            · cases hm'; exact (hdisj m p hm).symm
            · exact he.apart m m' p p' hne hm hm'
          · rw [hget, if_neg]
            · exact hm
            · rintro rfl; rw [hn] at hm; cases hm
          · rw [hget, if_pos rfl]
          · refine ⟨hused x (hk.used x hx.1), fun m p hm => ?_⟩
            rw [hget] at hm
            split at hm
            · cases hm
              rintro ⟨h1, h2⟩
              exact (hblk x h1 h2).1 hx.1
            · exact hx.2 m p hm

/-- The number a relocation puts into its field. -/
def RelocValue (k : Linker) (r : Reloc) (v : Int) : Prop :=
  match r.ty with
  | .pcRel8 | .pcRel32 => ∃ a, targetAddr k.base k.sym r.target = some a ∧
    v = (a : Int) + r.addend - (locate k.base r.location : Int)
  | .table32 => ∃ n a, r.target = .symbol n ∧ HMap.get k.engine.entries n = some a ∧
    v = (a : Int) + r.addend - (locate k.base r.location : Int)
  | .abs64 => ∃ a, targetAddr k.base k.sym r.target = some a ∧ v = (a : Int) + r.addend

theorem writeRel_ok {k k' : Linker} {ty : RelocType} {lo hi : Int} {n dest : Nat} {v : Int}
    (h : k.writeRel ty lo hi n dest v = .ok k') : k' = k.poke dest (leBytes n v) := by
  unfold Linker.writeRel at h
  split at h
  · cases h
  · cases h; rfl

/-- The write at the end of `relocate`. -/
theorem poke_spec {k : Linker} (he : EInv k.engine) {dest n : Nat} (v : Int)
    (ho : ∀ i, i < n → Owned k.engine (dest + i)) :
    EInv (k.poke dest (leBytes n v)).engine ∧ LinkKeeps k (k.poke dest (leBytes n v)) ∧
      (∀ a, ¬ (dest ≤ a ∧ a < dest + n) → (k.poke dest (leBytes n v)).engine.world.mem a = k.engine.world.mem a) ∧
      readMem (k.poke dest (leBytes n v)).engine.world.mem dest n = leBytes n v := by
  have hlen : (leBytes n v).length = n := leBytes_length n v
  refine ⟨poke_einv he (by rw [hlen]; exact ho),
    ⟨rfl, ⟨fun _ h => h, fun _ h => h, fun _ _ h => h, fun _ _ h => h⟩, fun _ h => h⟩,
    fun a ha => poke_out (by rw [hlen]; exact ha), ?_⟩
  have := readMem_poke k.engine.world.mem dest (leBytes n v)
  rw [hlen] at this
  exact this

theorem relocate_spec {os : Os} (hos : OsOk os) {k k' : Linker} {r : Reloc} (he : EInv k.engine)
    (ho : ∀ i, i < width r.ty → Owned k.engine (locate k.base r.location + i)) (h : k.relocate os r = .ok k') :
    EInv k'.engine ∧ LinkKeeps k k' ∧ k'.locals_ = k.locals_ ∧ k'.engine.symbols = k.engine.symbols ∧
      (∀ a, Used k.engine.world a → ¬ (locate k.base r.location ≤ a ∧ a < locate k.base r.location + width r.ty) →
        k'.engine.world.mem a = k.engine.world.mem a) ∧
      ∃ v, RelocValue k' r v ∧
        readMem k'.engine.world.mem (locate k.base r.location) (width r.ty) = leBytes (width r.ty) v := by
  unfold Linker.relocate at h
  cases hty : r.ty with
  | pcRel8 =>
    rw [hty] at ho
    simp only [hty] at h
    cases hd : k.direct r.target with
    | error e => rw [hd] at h; cases h
    | ok src =>
      rw [hd] at h
      have e := writeRel_ok h
      subst e
      obtain ⟨p1, p2, p3, p4⟩ := poke_spec he _ ho
      refine ⟨p1, p2, rfl, rfl, fun a _ => p3 a, _, ?_, p4⟩
      simp only [RelocValue, hty]
      exact ⟨src, direct_ok hd, rfl⟩
  | pcRel32 =>
    rw [hty] at ho
    simp only [hty] at h
    cases hd : k.direct r.target with
    | error e => rw [hd] at h; cases h
    | ok src =>
      rw [hd] at h
      have e := writeRel_ok h
      subst e
      obtain ⟨p1, p2, p3, p4⟩ := poke_spec he _ ho
      refine ⟨p1, p2, rfl, rfl, fun a _ => p3 a, _, ?_, p4⟩
      simp only [RelocValue, hty]
      exact ⟨src, direct_ok hd, rfl⟩
  | abs64 =>
    rw [hty] at ho
    simp only [hty] at h
    cases hd : k.direct r.target with
    | error e => rw [hd] at h; cases h
    | ok src =>
      rw [hd] at h
      cases h
      obtain ⟨p1, p2, p3, p4⟩ := poke_spec he _ ho
      refine ⟨p1, p2, rfl, rfl, fun a _ => p3 a, _, ?_, p4⟩
      simp only [RelocValue, hty]
      exact ⟨src, direct_ok hd, rfl⟩
  | table32 =>
    rw [hty] at ho
    simp only [hty] at h
    cases hd : k.viaTable os .table32 r.target with
    | error e => rw [hd] at h; cases h
    | ok q =>
      obtain ⟨src, k1⟩ := q
      rw [hd] at h
      have e := writeRel_ok h
      subst e
      unfold Linker.viaTable at hd
      cases ht : r.target with
      | sect s => rw [ht] at hd; cases hd
      | symbol n =>
        rw [ht] at hd
        simp only at hd
        cases hp : prepare os k.engine n with
        | error e => rw [hp] at hd; cases hd
        | ok x =>
          cases x with
          | none => rw [hp] at hd; cases hd
          | some x =>
            obtain ⟨a, e'⟩ := x
            rw [hp] at hd
            cases hd
            obtain ⟨q1, q2, q3, q4, q5, q6⟩ := prepare_spec hos he hp
            have ho' : ∀ i, i < width .table32 → Owned e' (locate k.base r.location + i) := fun i hi => q5 _ (ho i hi)
            obtain ⟨p1, p2, p3, p4⟩ := poke_spec (k := { k with engine := e' }) q1
              ((src : Int) + r.addend - (locate k.base r.location : Int)) ho'
            refine ⟨p1, LinkKeeps.trans (b := { k with engine := e' }) ⟨rfl, q2, q5⟩ p2, rfl, q3, fun a ha hb => ?_, _, ?_, p4⟩
            · exact (p3 a hb).trans (q6 a ha)
            · simp only [RelocValue, hty]
              exact ⟨n, src, ht, q4, rfl⟩

/-- The values stay when linking goes on. -/
theorem relocValue_mono {k k' : Linker} (h : LinkKeeps k k') (hl : k'.locals_ = k.locals_)
    (hs : k'.engine.symbols = k.engine.symbols) {r : Reloc} {v : Int} (hv : RelocValue k r v) : RelocValue k' r v := by
  have e : k'.sym = k.sym := by
    funext n
    simp only [Linker.sym, hl, hs]
  unfold RelocValue at hv ⊢
  rw [h.base, e]
  split
  · rename_i hty; rw [hty] at hv; exact hv
  · rename_i hty; rw [hty] at hv; exact hv
  · rename_i hty
    rw [hty] at hv
    obtain ⟨n, a, h1, h2, h3⟩ := hv
    exact ⟨n, a, h1, h.keeps.entries n a h2, h3⟩
  · rename_i hty; rw [hty] at hv; exact hv

/-- Two addresses in the fields of relocations that are apart. -/
def FieldsApart (base : Section → Nat) (r q : Reloc) : Prop :=
  locate base r.location + width r.ty ≤ locate base q.location ∨
    locate base q.location + width q.ty ≤ locate base r.location

/-- All relocations: the invariant also holds when it fails. -/
theorem relocateAll_spec {os : Os} (hos : OsOk os) {k k' : Linker} {rs : List Reloc} {err : Option Error}
    (he : EInv k.engine)
    (ho : ∀ r ∈ rs, ∀ i, i < width r.ty → Owned k.engine (locate k.base r.location + i))
    (hap : rs.Pairwise (FieldsApart k.base)) (h : relocateAll os k rs = (k', err)) :
    EInv k'.engine ∧ LinkKeeps k k' ∧ k'.locals_ = k.locals_ ∧ k'.engine.symbols = k.engine.symbols ∧
      (∀ a, Used k.engine.world a →
        (∀ r ∈ rs, ¬ (locate k.base r.location ≤ a ∧ a < locate k.base r.location + width r.ty)) →
        k'.engine.world.mem a = k.engine.world.mem a) ∧
      (err = none → ∀ r ∈ rs, ∃ v, RelocValue k' r v ∧
        readMem k'.engine.world.mem (locate k.base r.location) (width r.ty) = leBytes (width r.ty) v) := by
  induction rs generalizing k with
  | nil => cases h; exact ⟨he, LinkKeeps.refl _, rfl, rfl, fun _ _ _ => rfl, fun _ r hr => (by cases hr)⟩
  | cons r rs ih =>
    simp only [relocateAll] at h
    cases hr : k.relocate os r with
    | error e =>
      rw [hr] at h
      cases h
      exact ⟨he, LinkKeeps.refl _, rfl, rfl, fun _ _ _ => rfl, fun h => (by cases h)⟩
    | ok k1 =>
      rw [hr] at h
      have ho1 := ho r (List.mem_cons_self ..)
      obtain ⟨h1, h2, h3, h4, h5, v, h6, h7⟩ := relocate_spec hos he ho1 hr
      have hb := h2.base
      obtain ⟨hap1, hap2⟩ := List.pairwise_cons.1 hap
      obtain ⟨i1, i2, i3, i4, i5, i6⟩ := ih h1
        (fun q hq i hi => by rw [hb]; exact h2.owned _ (ho q (List.mem_cons_of_mem _ hq) i hi))
        (by rw [hb]; exact hap2) h
      rw [hb] at i5 i6
      refine ⟨i1, h2.trans i2, i3.trans h3, i4.trans h4, fun a ha hn => ?_, fun hnone q hq => ?_⟩
      · rw [i5 a (h2.keeps.used a ha) (fun q hq => hn q (List.mem_cons_of_mem _ hq)),
          h5 a ha (hn r (List.mem_cons_self ..))]
      · rcases List.mem_cons.1 hq with e | hq
        · subst e
          refine ⟨v, relocValue_mono i2 i3 i4 h6, ?_⟩
          rw [← h7]
          refine readMem_congr (fun i hi => i5 _ (h2.keeps.used _ (ho1 i hi).1) (fun x hx => ?_))
          have := hap1 x hx
          unfold FieldsApart at this
          omega
        · exact i6 hnone q hq

/-! ## Loading an object -/

/-- Number of bytes of a section. -/
def sectSize (o : Object) : Section → Nat
  | .text => o.text.length
  | .data => o.data.length
  | .rodata => o.rodata.length
  | .bss => o.bss

/-- Address `a` is in section `s`. -/
def InSect (o : Object) (base : Section → Nat) (s : Section) (a : Nat) : Prop := base s ≤ a ∧ a < base s + sectSize o s

theorem align16_spec (n : Nat) : n ≤ align16 n ∧ align16 n % 16 = 0 ∧ align16 n % 8 = 0 := by
  unfold align16
  omega

/-- Where the sections of an object are. -/
structure PlacedIn (w w' : World) (o : Object) (base : Section → Nat) : Prop where
  fresh : ∀ s a, InSect o base s a → ¬ Used w a
  used : ∀ s a, InSect o base s a → Used w' a
  apart : ∀ s s' a, InSect o base s a → InSect o base s' a → s = s'
  aligned : ∀ s, base s % 16 = 0
  low : ∀ s, sectSize o s ≠ 0 → 0 < base s ∧ base s + sectSize o s ≤ 2147483648

theorem allocateAll_inv {os : Os} (hos : OsOk os) {w w' : World} (hw : WInv w) (hal : Aligned w) {o : Object}
    {x : Option (Nat × Nat × Nat)} (h : allocateAll os w o = (x, w')) : WInv w' ∧ Keeps w w' ∧ Aligned w' := by
  obtain ⟨_, t16, t8⟩ := align16_spec o.text.length
  obtain ⟨_, d16, d8⟩ := align16_spec o.data.length
  obtain ⟨_, b16, b8⟩ := align16_spec o.bss
  obtain ⟨_, r16, r8⟩ := align16_spec o.rodata.length
  unfold allocateAll at h
  split at h
  · cases h; exact ⟨hw, Keeps.refl _, hal⟩
  · rename_i text w1 h1
    obtain ⟨hw1, k1, _, _, a1⟩ := allocate_spec hos hw h1
    have a1 := (a1 hal t8 (fun _ => t16)).1
    split at h
    · cases h; exact ⟨hw1, k1, a1⟩
    · rename_i data w2 h2
      obtain ⟨hw2, k2, _, _, a2⟩ := allocate_spec hos hw1 h2
      have a2 := (a2 a1 (by omega) (fun _ => by omega)).1
      split at h
      · cases h; exact ⟨hw2, k1.trans k2, a2⟩
      · rename_i rodata w3 h3
        obtain ⟨hw3, k3, _, _, a3⟩ := allocate_spec hos hw2 h3
        have a3 := (a3 a2 r8 (fun _ => r16)).1
        cases h
        exact ⟨hw3, (k1.trans k2).trans k3, a3⟩

theorem allocateAll_spec {os : Os} (hos : OsOk os) {w w' : World} (hw : WInv w) (hal : Aligned w) {o : Object} {text data rodata : Nat}
    (h : allocateAll os w o = (some (text, data, rodata), w')) :
    PlacedIn w w' o (locator text data rodata (data + align16 o.data.length)) := by
  obtain ⟨tl, t16, t8⟩ := align16_spec o.text.length
  obtain ⟨dl, d16, d8⟩ := align16_spec o.data.length
  obtain ⟨bl, b16, b8⟩ := align16_spec o.bss
  obtain ⟨rl, r16, r8⟩ := align16_spec o.rodata.length
  unfold allocateAll at h
  split at h
  · cases h
  · rename_i text w1 h1
    obtain ⟨hw1, k1, n1, p1, a1⟩ := allocate_spec hos hw h1
    obtain ⟨l1, _, a1⟩ := a1 hal t8 (fun _ => t16)
    split at h
    · cases h
    · rename_i data w2 h2
      obtain ⟨hw2, k2, n2, p2, a2⟩ := allocate_spec hos hw1 h2
      obtain ⟨l2, _, a2⟩ := a2 l1 (by omega) (fun _ => by omega)
      split at h
      · cases h
      · rename_i rodata w3 h3
        obtain ⟨hw3, k3, n3, p3, a3⟩ := allocate_spec hos hw2 h3
        obtain ⟨_, _, q3⟩ := a3 l2 r8 (fun _ => r16)
        cases h
        have a1 := a1 (by decide)
        have a2 := a2 (by decide)
        have a3 := q3 (by decide)
        have inText : ∀ a, InSect o (locator text data rodata (data + align16 o.data.length)) .text a →
            text ≤ a ∧ a < text + align16 o.text.length := by
          rintro a ⟨h1, h2⟩
          simp only [locator, sectSize] at h1 h2
          omega
        have inRo : ∀ a, InSect o (locator text data rodata (data + align16 o.data.length)) .rodata a →
            rodata ≤ a ∧ a < rodata + align16 o.rodata.length := by
          rintro a ⟨h1, h2⟩
          simp only [locator, sectSize] at h1 h2
          omega
        have inData : ∀ a, InSect o (locator text data rodata (data + align16 o.data.length)) .data a →
            data ≤ a ∧ a < data + align16 o.data.length := by
          rintro a ⟨h1, h2⟩
          simp only [locator, sectSize] at h1 h2
          omega
        have inBss : ∀ a, InSect o (locator text data rodata (data + align16 o.data.length)) .bss a →
            data + align16 o.data.length ≤ a ∧ a < data + (align16 o.data.length + align16 o.bss) := by
          rintro a ⟨h1, h2⟩
          simp only [locator, sectSize] at h1 h2
          omega
        have td : ∀ a, text ≤ a → a < text + align16 o.text.length → data ≤ a →
            a < data + (align16 o.data.length + align16 o.bss) → False :=
          fun a h1 h2 h3 h4 => (n2 a h3 h4).1 (n1 a h1 h2).2
        have tr : ∀ a, text ≤ a → a < text + align16 o.text.length → rodata ≤ a →
            a < rodata + align16 o.rodata.length → False :=
          fun a h1 h2 h3 h4 => (n3 a h3 h4).1 (k2.used a (n1 a h1 h2).2)
        have dr : ∀ a, data ≤ a → a < data + (align16 o.data.length + align16 o.bss) → rodata ≤ a →
            a < rodata + align16 o.rodata.length → False :=
          fun a h1 h2 h3 h4 => (n3 a h3 h4).1 (n2 a h1 h2).2
        refine ⟨fun s a hs => ?_, fun s a hs => ?_, fun s s' a hs hs' => ?_, fun s => ?_, fun s hs => ?_⟩
        · cases s with
          | text => have := inText a hs; exact (n1 a this.1 this.2).1
          | data => have := inData a hs; exact fun hu => (n2 a (by omega) (by omega)).1 (k1.used a hu)
          | rodata => have := inRo a hs; exact fun hu => (n3 a (by omega) (by omega)).1 (k2.used a (k1.used a hu))
          | bss => have := inBss a hs; exact fun hu => (n2 a (by omega) (by omega)).1 (k1.used a hu)
        · cases s with
          | text => have := inText a hs; exact k3.used a (k2.used a (n1 a this.1 this.2).2)
          | data => have := inData a hs; exact k3.used a (n2 a (by omega) (by omega)).2
          | rodata => have := inRo a hs; exact (n3 a (by omega) (by omega)).2
          | bss => have := inBss a hs; exact k3.used a (n2 a (by omega) (by omega)).2
        · cases s <;> cases s' <;> first
            | rfl
            | (exfalso
               first
                 | have x := inText a hs
                 | have x := inData a hs
                 | have x := inRo a hs
                 | have x := inBss a hs
               first
                 | have y := inText a hs'
                 | have y := inData a hs'
                 | have y := inRo a hs'
                 | have y := inBss a hs'
               first
                 | omega
                 | exact td a (by omega) (by omega) (by omega) (by omega)
                 | exact tr a (by omega) (by omega) (by omega) (by omega)
                 | exact dr a (by omega) (by omega) (by omega) (by omega))
        · cases s <;> simp only [locator] <;> omega
        · cases s <;> simp only [locator, sectSize] at hs ⊢
          · rcases p1 with h | h <;> omega
          · rcases p2 with h | h <;> omega
          · rcases p3 with h | h <;> omega
          · rcases p2 with h | h <;> omega

/-- Loading writes the sections and nothing else. -/
theorem load_out {w : World} {o : Object} {base : Section → Nat} {a : Nat} (h : ∀ s, ¬ InSect o base s a) :
    (load w o base).mem a = w.mem a := by
  have h1 := h .text
  have h2 := h .data
  have h3 := h .bss
  have h4 := h .rodata
  unfold InSect at h1 h2 h3 h4
  simp only [sectSize] at h1 h2 h3 h4
  unfold load World.poke
  simp only
  rw [poke_out h4, poke_out (by rw [List.length_replicate]; exact h3), poke_out h2, poke_out h1]

theorem load_in {w w0 : World} {o : Object} {base : Section → Nat} (hp : PlacedIn w0 w o base) :
    (∀ s, s ≠ .bss → readMem (load w o base).mem (base s) (sectSize o s) = o.buf s) ∧
    readMem (load w o base).mem (base .bss) o.bss = List.replicate o.bss 0 := by
  have key : ∀ s i, i < sectSize o s → ∀ s', s' ≠ s → ¬ InSect o base s' (base s + i) := by
    intro s i hi s' hne hs'
    exact hne (hp.apart s' s _ hs' ⟨Nat.le_add_right .., by omega⟩)
  have out : ∀ mem s' p (bs : List Nat), p = base s' → bs.length = sectSize o s' → ∀ s i, i < sectSize o s → s' ≠ s →
      poke mem p bs (base s + i) = mem (base s + i) := by
    intro mem s' p bs hp hl s i hi hne
    subst hp
    refine poke_out ?_
    rw [hl]
    exact key s i hi s' hne
  refine ⟨fun s hs => ?_, ?_⟩
  · refine readMem_eq (by cases s <;> first | rfl | exact absurd rfl hs) (fun i hi => ?_)
    unfold load World.poke
    simp only
    cases s with
    | text =>
      rw [out _ .rodata _ _ rfl rfl .text i hi (by decide),
        out _ .bss _ (List.replicate o.bss 0) rfl (List.length_replicate ..) .text i hi (by decide),
        out _ .data _ _ rfl rfl .text i hi (by decide)]
      exact poke_in hi
    | data =>
      rw [out _ .rodata _ _ rfl rfl .data i hi (by decide),
        out _ .bss _ (List.replicate o.bss 0) rfl (List.length_replicate ..) .data i hi (by decide)]
      exact poke_in hi
    | rodata => exact poke_in hi
    | bss => exact absurd rfl hs
  · refine readMem_eq (List.length_replicate ..) (fun i hi => ?_)
    unfold load World.poke
    simp only
    rw [out _ .rodata _ _ rfl rfl .bss i hi (by decide)]
    exact poke_in (by rw [List.length_replicate]; exact hi)

theorem buf_length (o : Object) {s : Section} (hs : s ≠ .bss) : (o.buf s).length = sectSize o s := by
  cases s <;> first | rfl | exact absurd rfl hs

/-- What `add_object` does before linking. -/
theorem loaded_spec {os : Os} (hos : OsOk os) {e : Engine} (he : EInv e) {o : Object} {text data rodata : Nat} {w : World}
    (h : allocateAll os e.world o = (some (text, data, rodata), w)) {base : Section → Nat}
    (hb : base = locator text data rodata (data + align16 o.data.length)) :
    EInv { e with world := load w o base } ∧ EKeeps e { e with world := load w o base } ∧
      (∀ a, Used e.world a → (load w o base).mem a = e.world.mem a) ∧ PlacedIn e.world (load w o base) o base ∧
      (∀ s a, InSect o base s a → Owned { e with world := load w o base } a) ∧
      (∀ s, s ≠ .bss → readMem (load w o base).mem (base s) (sectSize o s) = o.buf s) ∧
      readMem (load w o base).mem (base .bss) o.bss = List.replicate o.bss 0 := by
  obtain ⟨hw, hk, hal⟩ := allocateAll_inv hos he.winv he.al h
  have hp : PlacedIn e.world w o base := hb ▸ allocateAll_spec hos he.winv he.al h
  have hmem : ∀ a, Used e.world a → (load w o base).mem a = e.world.mem a := by
    intro a ha
    rw [load_out (fun s hs => hp.fresh s a hs ha), hk.mem a ha]
  have hused : ∀ a, Used w a → Used (load w o base) a := fun a h => h
  have hwi : WInv (load w o base) := ⟨hw.bounds, hw.disj, hw.last, hw.apart⟩
  obtain ⟨l1, l2⟩ := load_in hp
  refine ⟨⟨hwi, ⟨hal.al8, hal.al16⟩, fun n a hn => ?_, he.apart⟩, ⟨fun a ha => hused a (hk.used a ha), hk.maps, fun _ _ h => h, fun _ _ h => h⟩,
    hmem, ⟨hp.fresh, hp.used, hp.apart, hp.aligned, hp.low⟩, fun s a hs => ⟨hp.used s a hs, fun n p hn => ?_⟩, l1, l2⟩
  · obtain ⟨v, h1, h2, h3, h4⟩ := he.entry n a hn
    refine ⟨v, h1, ?_, fun i hi => hused _ (hk.used _ (h3 i hi)), h4⟩
    rw [← h2]
    exact readMem_congr (fun i hi => hmem _ (h3 i hi))
  · rintro ⟨h1, h2⟩
    obtain ⟨v, _, _, h3, _⟩ := he.entry n p hn
    have := h3 (a - p) (by omega)
    rw [show p + (a - p) = a by omega] at this
    exact hp.fresh s a hs this

theorem fields_owned {o : Object} (hok : ObjOk o) {base : Section → Nat} {r : Reloc} (hr : r ∈ o.relocs) {i : Nat}
    (hi : i < width r.ty) : InSect o base r.location.section_ (locate base r.location + i) := by
  obtain ⟨h1, h2⟩ := hok.inside r hr
  rw [buf_length o h1] at h2
  unfold InSect locate
  omega

theorem fields_apart {o : Object} (hok : ObjOk o) {w w' : World} {base : Section → Nat} (hp : PlacedIn w w' o base) :
    o.relocs.Pairwise (FieldsApart base) := by
  refine List.Pairwise.imp_of_mem ?_ hok.apart
  intro r q hr hq hap
  unfold FieldsApart
  by_cases e : r.location.section_ = q.location.section_
  · have := hap e
    unfold locate
    rw [e]
    omega
  · have wpos : ∀ ty : RelocType, 0 < width ty := by intro ty; cases ty <;> decide
    by_cases hc : locate base r.location + width r.ty ≤ locate base q.location ∨
        locate base q.location + width q.ty ≤ locate base r.location
    · exact hc
    · exfalso
      have w1 := wpos r.ty
      have w2 := wpos q.ty
      by_cases hle : locate base r.location ≤ locate base q.location
      · have i1 := fields_owned (base := base) hok hr (i := locate base q.location - locate base r.location) (by omega)
        have i2 := fields_owned (base := base) hok hq (i := 0) w2
        rw [show locate base r.location + (locate base q.location - locate base r.location) = locate base q.location + 0
          by omega] at i1
        exact e (hp.apart _ _ _ i1 i2)
      · have i1 := fields_owned (base := base) hok hq (i := locate base r.location - locate base q.location) (by omega)
        have i2 := fields_owned (base := base) hok hr (i := 0) w1
        rw [show locate base q.location + (locate base r.location - locate base q.location) = locate base r.location + 0
          by omega] at i1
        exact e (hp.apart _ _ _ i2 i1)

/-- Linking keeps the invariant, whether or not it succeeds. -/
theorem link_inv {os : Os} (hos : OsOk os) {rs : String → Nat} {k k' : Linker} {o : Object} {err : Option Error}
    (he : EInv k.engine) (hok : ObjOk o) (hap : o.relocs.Pairwise (FieldsApart k.base))
    (ho : ∀ s a, InSect o k.base s a → Owned k.engine a) (h : link os rs k o = (k', err)) :
    EInv k'.engine ∧ LinkKeeps k k' ∧
      (∀ a, Used k.engine.world a → (∀ s, ¬ InSect o k.base s a) → k'.engine.world.mem a = k.engine.world.mem a) := by
  unfold link at h
  cases hb : bindAll rs k o.symbols with
  | mk k1 e1 =>
    rw [hb] at h
    obtain ⟨b1, b2, b3, b4, b5⟩ := bindAll_inv he hb
    cases e1 with
    | some e1 =>
      cases h
      exact ⟨b1, b2, fun a _ _ => by rw [b3]⟩
    | none =>
      have hbase := b2.base
      obtain ⟨r1, r2, r3, r4, r5, _⟩ := relocateAll_spec hos b1
        (fun r hr i hi => b2.owned _ (ho _ _ (by rw [hbase]; exact fields_owned hok hr hi)))
        (by rw [hbase]; exact hap) h
      refine ⟨r1, b2.trans r2, fun a ha hn => ?_⟩
      rw [r5 a (b2.keeps.used a ha) (fun r hr hc => ?_), b3]
      rw [hbase] at hc
      have := fields_owned (base := k.base) hok hr (i := a - locate k.base r.location) (by omega)
      rw [show locate k.base r.location + (a - locate k.base r.location) = a by omega] at this
      exact hn _ this

theorem addObject_inv {os : Os} (hos : OsOk os) {rs : String → Nat} {e : Engine} (he : EInv e) {o : Object}
    (hok : ObjOk o) {k : Linker} {err : Option Error} (h : addObject os rs e o = (k, err)) :
    EInv k.engine ∧ EKeeps e k.engine ∧ ∀ a, Used e.world a → k.engine.world.mem a = e.world.mem a := by
  unfold addObject at h
  cases ha : allocateAll os e.world o with
  | mk x w =>
    rw [ha] at h
    cases x with
    | none =>
      cases h
      obtain ⟨hw, hk, hal⟩ := allocateAll_inv hos he.winv he.al ha
      refine ⟨⟨hw, hal, fun n a hn => ?_, he.apart⟩, ⟨hk.used, hk.maps, fun _ _ h => h, fun _ _ h => h⟩, hk.mem⟩
      obtain ⟨v, h1, h2, h3, h4⟩ := he.entry n a hn
      refine ⟨v, h1, ?_, fun i hi => hk.used _ (h3 i hi), h4⟩
      rw [← h2]
      exact readMem_congr (fun i hi => hk.mem _ (h3 i hi))
    | some x =>
      obtain ⟨text, data, rodata⟩ := x
      simp only at h
      obtain ⟨l1, l2, l3, l4, l5, l6, l7⟩ := loaded_spec hos he ha rfl
      obtain ⟨m1, m2, m3⟩ := link_inv hos l1 hok (fields_apart hok l4) l5 h
      refine ⟨m1, l2.trans m2.keeps, fun a hu => ?_⟩
      rw [m3 a (l2.used a hu) (fun s hs => l4.fresh s a hs hu)]
      exact l3 a hu

end Verif.Jit
