import Verif.Jit.Lemmas

/-! # Properties of the JIT engine (C26, C27, C28) -/

namespace Verif.Jit

open Verif.Asm Verif.Asm.Spec Verif.Obj Verif.Obj.Spec Spec

/-! ## C27: blocks -/

/-- A sequence of allocations from the four segments; a failed one is skipped.  The result is the list of
blocks (address and size), newest first. -/
def allocs (os : Os) : World → List (SegId × Nat) → List (Nat × Nat) → List (Nat × Nat) × World
  | w, [], blocks => (blocks, w)
  | w, (id, size) :: rest, blocks =>
    match allocate os w id size with
    | none => allocs os w rest blocks
    | some (p, w) => allocs os w rest ((p, size) :: blocks)

/-- The block contains the address. -/
def InBlock (b : Nat × Nat) (a : Nat) : Prop := b.1 ≤ a ∧ a < b.1 + b.2

theorem allocs_spec {os : Os} (hos : OsOk os) {reqs : List (SegId × Nat)} {w : World} {blocks : List (Nat × Nat)}
    (hw : WInv w) (hd : blocks.Pairwise fun b c => ∀ a, ¬ (InBlock b a ∧ InBlock c a))
    (hu : ∀ b ∈ blocks, ∀ a, InBlock b a → Used w a)
    (hm : ∀ b ∈ blocks, b.2 ≠ 0 → ∃ m ∈ w.maps, m.ptr ≤ b.1 ∧ b.1 + b.2 ≤ m.ptr + m.size) :
    let r := allocs os w reqs blocks
    (r.1.Pairwise fun b c => ∀ a, ¬ (InBlock b a ∧ InBlock c a)) ∧
      (∀ b ∈ r.1, b.2 ≠ 0 → ∃ m ∈ r.2.maps, m.ptr ≤ b.1 ∧ b.1 + b.2 ≤ m.ptr + m.size) ∧
      r.2.maps.Pairwise Mmap.Apart ∧ (∀ a, Used w a → r.2.mem a = w.mem a) := by
  induction reqs generalizing w blocks with
  | nil => exact ⟨hd, hm, hw.disj, fun _ _ => rfl⟩
  | cons q reqs ih =>
    obtain ⟨id, size⟩ := q
    simp only [allocs]
    cases h : allocate os w id size with
    | none => exact ih hw hd hu hm
    | some r =>
      obtain ⟨p, w'⟩ := r
      obtain ⟨hw', hk, hblk, hpos, _⟩ := allocate_spec hos hw h
      have := ih (w := w') (blocks := (p, size) :: blocks) hw'
        (List.pairwise_cons.2 ⟨fun b hb a hc => (hblk a hc.1.1 hc.1.2).1 (hu b hb a hc.2), hd⟩)
        (fun b hb a ha => by
          rcases List.mem_cons.1 hb with e | hb
          · subst e; exact (hblk a ha.1 ha.2).2
          · exact hk.used a (hu b hb a ha))
        (fun b hb hn => by
          rcases List.mem_cons.1 hb with e | hb
          · subst e
            rcases hpos with ⟨_, hz⟩ | ⟨_, _, hin⟩
            · exact absurd hz hn
            · exact hin
          · obtain ⟨m, h1, h2⟩ := hm b hb hn
            exact ⟨m, hk.maps m h1, h2⟩)
      obtain ⟨i1, i2, i3, i4⟩ := this
      exact ⟨i1, i2, i3, fun a ha => (i4 a (hk.used a ha)).trans (hk.mem a ha)⟩

/-- C27: over any sequence of allocations, in any order from the segments of an engine, no two blocks share a
byte and every (non-empty) block lies inside one of the mappings, which do not overlap either. -/
theorem blocks_disjoint {os : Os} (hos : OsOk os) (mem : Nat → Nat) (reqs : List (SegId × Nat)) :
    let r := allocs os (Engine.new mem).world reqs []
    (r.1.Pairwise fun b c => ∀ a, ¬ (InBlock b a ∧ InBlock c a)) ∧
      (∀ b ∈ r.1, b.2 ≠ 0 → ∃ m ∈ r.2.maps, m.ptr ≤ b.1 ∧ b.1 + b.2 ≤ m.ptr + m.size) ∧
      r.2.maps.Pairwise Mmap.Apart := by
  obtain ⟨h1, h2, h3, _⟩ := allocs_spec hos (reqs := reqs) (winv_new mem) List.Pairwise.nil
    (fun b hb => by cases hb) (fun b hb => by cases hb)
  exact ⟨h1, h2, h3⟩

/-- C27: an allocation fails only when the operating system has no memory. -/
theorem allocate_fails_iff (os : Os) (w : World) (id : SegId) (size : Nat) :
    allocate os w id size = none ↔
      (w.seg id).lastCapacity < size ∧ os w.maps ((size + 4096 - 1) / 4096) = none := by
  unfold allocate ensure mmap
  by_cases hc : (w.seg id).lastCapacity < size
  · rw [if_pos hc]
    cases os w.maps ((size + 4096 - 1) / 4096) with
    | none => exact ⟨fun _ => ⟨hc, rfl⟩, fun _ => rfl⟩
    | some p => exact ⟨fun h => (by cases h), fun h => (by cases h.2)⟩
  · rw [if_neg hc]
    exact ⟨fun h => (by cases h), fun h => absurd h.1 hc⟩

/-! ## Reachable engines -/

/-- Correct operations: objects are well formed. -/
def OpOk : Op → Prop
  | .register _ _ => True
  | .addObject o => ObjOk o

/-- Engines reached by correct operations, successful or not. -/
def Reach (os : Os) (rs : String → Nat) (e : Engine) : Prop :=
  ∃ mem ops, (∀ op ∈ ops, OpOk op) ∧ e = run os rs (Engine.new mem) ops

theorem register_spec {e e' : Engine} {n : String} {p : Nat} (he : EInv e) (h : register e n p = .ok e') :
    EInv e' ∧ EKeeps e e' ∧ e'.world = e.world ∧ HMap.get e.symbols n = none ∧ HMap.get e'.symbols n = some p := by
  unfold register at h
  cases hb : bindSymbol (fun _ => 0) e.symbols n (some p) with
  | error err => rw [hb] at h; cases h
  | ok t =>
    rw [hb] at h
    cases h
    obtain ⟨h1, h2, h3⟩ := bindSymbol_spec hb
    obtain ⟨h4, h5⟩ := h3 p rfl
    exact ⟨symbols_einv he h1, ⟨fun _ h => h, fun _ h => h, h1, fun _ _ h => h⟩, rfl, h4, h5⟩

theorem step_inv {os : Os} (hos : OsOk os) {rs : String → Nat} {e : Engine} (he : EInv e) {op : Op} (hok : OpOk op) :
    EInv (step os rs e op) ∧ EKeeps e (step os rs e op) ∧
      ∀ a, Used e.world a → (step os rs e op).world.mem a = e.world.mem a := by
  cases op with
  | register n p =>
    simp only [step]
    cases h : register e n p with
    | error err => exact ⟨he, EKeeps.refl _, fun _ _ => rfl⟩
    | ok e' =>
      obtain ⟨h1, h2, h3, _⟩ := register_spec he h
      exact ⟨h1, h2, fun a _ => by rw [h3]⟩
  | addObject o => exact addObject_inv hos he hok rfl

theorem run_inv {os : Os} (hos : OsOk os) {rs : String → Nat} {e : Engine} (he : EInv e) {ops : List Op}
    (hok : ∀ op ∈ ops, OpOk op) :
    EInv (run os rs e ops) ∧ EKeeps e (run os rs e ops) ∧
      ∀ a, Used e.world a → (run os rs e ops).world.mem a = e.world.mem a := by
  induction ops generalizing e with
  | nil => exact ⟨he, EKeeps.refl _, fun _ _ => rfl⟩
  | cons op ops ih =>
    obtain ⟨h1, h2, h3⟩ := step_inv hos he (rs := rs) (hok op (List.mem_cons_self ..))
    obtain ⟨i1, i2, i3⟩ := ih h1 (fun o ho => hok o (List.mem_cons_of_mem _ ho))
    exact ⟨i1, h2.trans i2, fun a ha => (i3 a (h2.used a ha)).trans (h3 a ha)⟩

theorem reach_inv {os : Os} (hos : OsOk os) {rs : String → Nat} {e : Engine} (h : Reach os rs e) : EInv e := by
  obtain ⟨mem, ops, hok, rfl⟩ := h
  exact (run_inv hos (einv_new mem) hok).1

/-! ## C28: symbols and the address table -/

/-- C28: a symbol that was bound keeps its address, and an address table entry its place, whatever is added
later, successfully or not. -/
theorem symbol_kept {os : Os} (hos : OsOk os) {rs : String → Nat} {e : Engine} (hr : Reach os rs e) {ops : List Op}
    (hok : ∀ op ∈ ops, OpOk op) {n : String} {p : Nat} :
    (e.get n = some p → (run os rs e ops).get n = some p) ∧
      (HMap.get e.entries n = some p → HMap.get (run os rs e ops).entries n = some p) := by
  obtain ⟨_, h, _⟩ := run_inv hos (reach_inv hos hr) (rs := rs) hok
  exact ⟨h.symbols n p, h.entries n p⟩

/-- C28: `register` binds a new symbol and refuses a bound one. -/
theorem register_iff (e : Engine) (n : String) (p : Nat) :
    (e.get n = none → ∃ e', register e n p = .ok e' ∧ e'.get n = some p ∧ ∀ m, m ≠ n → e'.get m = e.get m) ∧
      (∀ q, e.get n = some q → register e n p = .error (.duplicateSymbol n)) := by
  unfold Engine.get register bindSymbol
  refine ⟨fun h => ?_, fun q h => ?_⟩
  · rw [h]
    refine ⟨_, rfl, ?_, fun m hm => ?_⟩
    · show HMap.get (HMap.insert e.symbols n p) n = some p
      rw [HMap.get_insert, if_pos rfl]
    · show HMap.get (HMap.insert e.symbols n p) m = _
      rw [HMap.get_insert, if_neg]
      exact hm
  · rw [h]

/-- What a successful `add_object` went through. -/
theorem addObject_ok {os : Os} {rs : String → Nat} {e : Engine} {o : Object} {k : Linker}
    (h : addObject os rs e o = (k, none)) :
    ∃ text data rodata w base k1, allocateAll os e.world o = (some (text, data, rodata), w) ∧
      base = locator text data rodata (data + align16 o.data.length) ∧
      bindAll rs ⟨{ e with world := load w o base }, base, []⟩ o.symbols = (k1, none) ∧
      relocateAll os k1 o.relocs = (k, none) := by
  unfold addObject at h
  cases ha : allocateAll os e.world o with
  | mk x w =>
    rw [ha] at h
    cases x with
    | none => cases h
    | some x =>
      obtain ⟨text, data, rodata⟩ := x
      simp only [link] at h
      cases hb : bindAll rs ⟨{ e with world := load w o (locator text data rodata (data + align16 o.data.length)) },
          locator text data rodata (data + align16 o.data.length), []⟩ o.symbols with
      | mk k1 e1 =>
        rw [hb] at h
        cases e1 with
        | some e1 => cases h
        | none => exact ⟨text, data, rodata, w, _, k1, rfl, rfl, hb, h⟩

/-- Everything known about a successful `add_object`. -/
structure Added (e : Engine) (rs : String → Nat) (o : Object) (k : Linker) : Prop where
  inv : EInv k.engine
  keeps : EKeeps e k.engine
  placed : PlacedIn e.world k.engine.world o k.base
  bss : readMem k.engine.world.mem (k.base .bss) o.bss = List.replicate o.bss 0
  same : ∀ s i, s ≠ .bss → i < sectSize o s → (∀ r ∈ o.relocs, ¬ RelocCovers r s i) →
    some (k.engine.world.mem (k.base s + i)) = (o.buf s)[i]?
  field : ∀ r ∈ o.relocs, ∃ v, RelocValue k r v ∧
    readMem k.engine.world.mem (locate k.base r.location) (width r.ty) = leBytes (width r.ty) v
  locals_ : ∀ n q, (n, .loc q) ∈ o.symbols → HMap.get k.locals_ n = some (locate k.base q)
  onlyLocals : ∀ n p, HMap.get k.locals_ n = some p → ∃ q, (n, .loc q) ∈ o.symbols
  globals : ∀ n q, (n, .global q) ∈ o.symbols → (∃ p, HMap.get k.engine.symbols n = some p) ∧
    ∀ z, q = some z → HMap.get e.symbols n = none ∧ HMap.get k.engine.symbols n = some (locate k.base z)

theorem added {os : Os} (hos : OsOk os) {rs : String → Nat} {e : Engine} (he : EInv e) {o : Object} (hok : ObjOk o)
    {k : Linker} (h : addObject os rs e o = (k, none)) : Added e rs o k := by
  obtain ⟨text, data, rodata, w, base, k1, ha, hb, hbind, hrel⟩ := addObject_ok h
  obtain ⟨l1, l2, l3, l4, l5, l6, l7⟩ := loaded_spec hos he ha hb
  obtain ⟨b1, b2, b3, b4, b5⟩ := bindAll_inv l1 hbind
  obtain ⟨c1, c2⟩ := bindAll_ok l1 hok.names hbind
  have hbase : k1.base = base := b2.base
  obtain ⟨r1, r2, r3, r4, r5, r6⟩ := relocateAll_spec hos b1
    (fun r hr i hi => b2.owned _ (l5 _ _ (by rw [hbase]; exact fields_owned hok hr hi)))
    (by rw [hbase]; exact fields_apart hok l4) hrel
  have hbase' : k.base = base := r2.base.trans hbase
  have hus : ∀ s a, InSect o base s a → Used k1.engine.world a := fun s a hs => by
    rw [b3]; exact (l5 s a hs).1
  have hrest : ∀ s i, s ≠ .bss → i < sectSize o s → (∀ r ∈ o.relocs, ¬ RelocCovers r s i) →
      k.engine.world.mem (base s + i) = (load w o base).mem (base s + i) := by
    intro s i hs hi hn
    have hin : InSect o base s (base s + i) := ⟨Nat.le_add_right .., by omega⟩
    rw [r5 _ (hus s _ hin) (fun r hr hc => ?_), b3]
    rw [hbase] at hc
    have h2 := fields_owned (base := base) hok hr (i := base s + i - locate base r.location) (by omega)
    rw [show locate base r.location + (base s + i - locate base r.location) = base s + i by omega] at h2
    have e := l4.apart _ _ _ h2 hin
    refine hn r hr ⟨e, ?_⟩
    unfold locate at hc
    rw [e] at hc
    omega
  refine ⟨r1, (l2.trans b2.keeps).trans r2.keeps, ?_, ?_, ?_, ?_, ?_, ?_, ?_⟩
  · rw [hbase']
    exact ⟨l4.fresh, fun s a hs => (b2.trans r2).keeps.used a (l4.used s a hs), l4.apart, l4.aligned, l4.low⟩
  · rw [hbase', ← l7]
    refine readMem_congr (fun i hi => ?_)
    have hin : InSect o base .bss (base .bss + i) := ⟨Nat.le_add_right .., by simp only [sectSize]; omega⟩
    rw [r5 _ (hus .bss _ hin) (fun r hr hc => ?_), b3]
    rw [hbase] at hc
    have h2 := fields_owned (base := base) hok hr (i := base .bss + i - locate base r.location) (by omega)
    rw [show locate base r.location + (base .bss + i - locate base r.location) = base .bss + i by omega] at h2
    exact (hok.inside r hr).1 (l4.apart _ _ _ h2 hin)
  · intro s i hs hi hn
    rw [hbase', hrest s i hs hi hn, ← l6 s hs, readMem_get hi]
  · intro r hr
    obtain ⟨v, h1, h2⟩ := r6 rfl r hr
    rw [hbase] at h2
    exact ⟨v, h1, by rw [hbase']; exact h2⟩
  · intro n q hm
    have := c2 n _ hm
    rw [r3, hbase']
    exact this
  · intro n p hn
    rw [r3] at hn
    by_cases hm : n ∈ o.symbols.map (·.1)
    · obtain ⟨⟨n', b⟩, hmem, e⟩ := List.mem_map.1 hm
      have e : n' = n := e
      subst e
      cases b with
      | loc q => exact ⟨q, hmem⟩
      | global q =>
        have := (c2 n' _ hmem).1
        rw [hn] at this
        cases this
    · rw [c1 n hm] at hn
      cases hn
  · intro n q hm
    obtain ⟨_, h2, h3⟩ := c2 n _ hm
    rw [r4, hbase']
    exact ⟨h2, h3⟩

/-- C28: adding an object that defines a symbol already bound fails. -/
theorem add_duplicate_fails {os : Os} (hos : OsOk os) {rs : String → Nat} {e : Engine} (hr : Reach os rs e) {o : Object}
    (hok : ObjOk o) {n : String} {z : Location} (hn : (n, .global (some z)) ∈ o.symbols) {p : Nat}
    (hp : e.get n = some p) : (addObject os rs e o).2.isSome = true := by
  cases h : addObject os rs e o with
  | mk k err =>
    cases err with
    | some err => rfl
    | none =>
      have := ((added hos (reach_inv hos hr) hok h).globals n _ hn).2 z rfl
      rw [show HMap.get e.symbols n = some p from hp] at this
      cases this.1

/-- C28: when adding an object succeeds, its global definitions are bound to their places, every symbol it
mentions is bound, and every relocation against a symbol refers to a bound one. -/
theorem add_defined {os : Os} (hos : OsOk os) {rs : String → Nat} {e : Engine} (hr : Reach os rs e) {o : Object}
    (hok : ObjOk o) {k : Linker} (h : addObject os rs e o = (k, none)) :
    (∀ n z, (n, .global (some z)) ∈ o.symbols → k.engine.get n = some (k.base z.section_ + z.pos)) ∧
    (∀ n z, (n, .global z) ∈ o.symbols → ∃ p, k.engine.get n = some p) ∧
    (∀ r ∈ o.relocs, ∀ n, r.target = .symbol n → ∃ p, k.sym n = some p) := by
  have ha := added hos (reach_inv hos hr) hok h
  refine ⟨fun n z hn => ((ha.globals n _ hn).2 z rfl).2, fun n z hn => (ha.globals n _ hn).1, fun r hr n hn => ?_⟩
  obtain ⟨v, hv, _⟩ := ha.field r hr
  unfold RelocValue at hv
  split at hv
  · obtain ⟨a, h1, _⟩ := hv; rw [hn] at h1; exact ⟨a, h1⟩
  · obtain ⟨a, h1, _⟩ := hv; rw [hn] at h1; exact ⟨a, h1⟩
  · obtain ⟨m, a, h1, h2, _⟩ := hv
    rw [hn] at h1
    cases h1
    obtain ⟨p, h3, _⟩ := ha.inv.entry n a h2
    unfold Linker.sym
    split
    · rename_i q hq; exact ⟨q, rfl⟩
    · exact ⟨p, h3⟩
  · obtain ⟨a, h1, _⟩ := hv; rw [hn] at h1; exact ⟨a, h1⟩

/-- Where the symbols bound by `bindAll` come from. -/
theorem bindAll_origin {rs : String → Nat} {k k' : Linker} {l : List (String × Binding)} {err : Option Error}
    (he : EInv k.engine) (h : bindAll rs k l = (k', err)) {n : String} {p : Nat}
    (hn : HMap.get k'.engine.symbols n = some p) :
    HMap.get k.engine.symbols n = some p ∨ (∃ z, (n, .global (some z)) ∈ l ∧ p = locate k.base z) ∨
      ((n, .global none) ∈ l ∧ p = rs n ∧ p ≠ 0) := by
  induction l generalizing k with
  | nil => cases h; exact .inl hn
  | cons q l ih =>
    obtain ⟨m, b⟩ := q
    simp only [bindAll] at h
    cases hb : k.bind rs m b with
    | error e => rw [hb] at h; cases h; exact .inl hn
    | ok k1 =>
      rw [hb] at h
      obtain ⟨h1, h2, _⟩ := bind_spec he hb
      have hbase := h2.base
      rcases ih h1 h with hc | ⟨z, hz, hp⟩ | ⟨hz, hp⟩
      · unfold Linker.bind at hb
        cases b with
        | loc q =>
          simp only at hb
          split at hb
          · cases hb; exact .inl hc
          · cases hb
        | global q =>
          simp only at hb
          cases hx : bindSymbol rs k.engine.symbols m (q.map (locate k.base)) with
          | error e => rw [hx] at hb; cases hb
          | ok t =>
            rw [hx] at hb
            cases hb
            unfold bindSymbol at hx
            split at hx
            · rename_i a hn0 hq
              cases hx
              have hc : HMap.get (HMap.insert k.engine.symbols m a) n = some p := hc
              rw [HMap.get_insert] at hc
              split at hc
              · rename_i e
                cases hc
                cases q with
                | none => cases hq
                | some z =>
                  cases hq
                  subst e
                  exact .inr (.inl ⟨z, List.mem_cons_self .., rfl⟩)
              · exact .inl hc
            · rename_i hq
              split at hx
              · rename_i hnz
                cases hx
                have hc : HMap.get (HMap.insert k.engine.symbols m (rs m)) n = some p := hc
                rw [HMap.get_insert] at hc
                split at hc
                · rename_i e
                  cases hc
                  cases q with
                  | some z => cases hq
                  | none => subst e; exact .inr (.inr ⟨List.mem_cons_self .., rfl, hnz⟩)
                · exact .inl hc
              · cases hx
            · cases hx
            · cases hx
              exact .inl hc
      · exact .inr (.inl ⟨z, List.mem_cons_of_mem _ hz, by rw [hp, hbase]⟩)
      · exact .inr (.inr ⟨List.mem_cons_of_mem _ hz, hp⟩)

/-- C28: a symbol bound by adding an object was bound before, or is defined by the object, or was found by the
resolver. -/
theorem add_origin {os : Os} (hos : OsOk os) {rs : String → Nat} {e : Engine} (hr : Reach os rs e) {o : Object}
    (hok : ObjOk o) {k : Linker} (h : addObject os rs e o = (k, none)) {n : String} {p : Nat}
    (hn : k.engine.get n = some p) :
    e.get n = some p ∨ (∃ z, (n, .global (some z)) ∈ o.symbols ∧ p = k.base z.section_ + z.pos) ∨
      ((n, .global none) ∈ o.symbols ∧ p = rs n ∧ p ≠ 0) := by
  obtain ⟨text, data, rodata, w, base, k1, ha, hb, hbind, hrel⟩ := addObject_ok h
  obtain ⟨l1, l2, l3, l4, l5, l6, l7⟩ := loaded_spec hos (reach_inv hos hr) ha hb
  obtain ⟨b1, b2, b3, b4, b5⟩ := bindAll_inv l1 hbind
  have hbase : k1.base = base := b2.base
  obtain ⟨r1, r2, r3, r4, r5, r6⟩ := relocateAll_spec hos b1
    (fun r hr i hi => b2.owned _ (l5 _ _ (by rw [hbase]; exact fields_owned hok hr hi)))
    (by rw [hbase]; exact fields_apart hok l4) hrel
  have hbase' : k.base = base := r2.base.trans hbase
  rw [hbase']
  exact bindAll_origin l1 hbind (by rw [← r4]; exact hn)

/-- C28: an address table entry holds the address of the symbol of its name, and keeps holding it. -/
theorem table_entry {os : Os} (hos : OsOk os) {rs : String → Nat} {e : Engine} (hr : Reach os rs e) {n : String} {a : Nat}
    (hn : HMap.get e.entries n = some a) {ops : List Op} (hok : ∀ op ∈ ops, OpOk op) :
    ∃ p, e.get n = some p ∧ readMem e.world.mem a 8 = leBytes 8 (p : Int) ∧
      readMem (run os rs e ops).world.mem a 8 = leBytes 8 (p : Int) := by
  have hi := reach_inv hos hr
  obtain ⟨p, h1, h2, h3, _⟩ := hi.entry n a hn
  obtain ⟨_, _, hm⟩ := run_inv hos hi (rs := rs) hok
  exact ⟨p, h1, h2, by rw [← h2]; exact readMem_congr (fun i hi => hm _ (h3 i hi))⟩

/-- C28: entries of different symbols do not overlap; a symbol has one entry by construction. -/
theorem table_entries_apart {os : Os} (hos : OsOk os) {rs : String → Nat} {e : Engine} (hr : Reach os rs e)
    {n n' : String} {a a' : Nat} (hne : n ≠ n') (hn : HMap.get e.entries n = some a)
    (hn' : HMap.get e.entries n' = some a') : a + 8 ≤ a' ∨ a' + 8 ≤ a :=
  (reach_inv hos hr).apart n n' a a' hne hn hn'

/-! ## C27 for objects: sections are placed in fresh memory and stay -/

/-- C27: the sections of an added object do not share a byte with each other, are aligned to 16 bytes, lie in
the first two gigabytes and outside everything in use before. -/
theorem add_placed {os : Os} (hos : OsOk os) {rs : String → Nat} {e : Engine} (hr : Reach os rs e) {o : Object}
    (hok : ObjOk o) {k : Linker} (h : addObject os rs e o = (k, none)) : PlacedIn e.world k.engine.world o k.base :=
  (added hos (reach_inv hos hr) hok h).placed

/-- The uninitialised data of an added object is zero. -/
theorem add_bss_zero {os : Os} (hos : OsOk os) {rs : String → Nat} {e : Engine} (hr : Reach os rs e) {o : Object}
    (hok : ObjOk o) {k : Linker} (h : addObject os rs e o = (k, none)) :
    readMem k.engine.world.mem (k.base .bss) o.bss = List.replicate o.bss 0 :=
  (added hos (reach_inv hos hr) hok h).bss

/-- C27: whatever is added later, the sections of an added object keep their contents; the engine does not
touch them again. -/
theorem loaded_stay {os : Os} (hos : OsOk os) {rs : String → Nat} {e : Engine} (hr : Reach os rs e) {o : Object}
    (hok : ObjOk o) {k : Linker} (h : addObject os rs e o = (k, none)) {ops : List Op} (hops : ∀ op ∈ ops, OpOk op)
    (s : Section) :
    readMem (run os rs k.engine ops).world.mem (k.base s) (sectSize o s) =
      readMem k.engine.world.mem (k.base s) (sectSize o s) := by
  have ha := added hos (reach_inv hos hr) hok h
  obtain ⟨_, _, hm⟩ := run_inv hos ha.inv (rs := rs) hops
  exact readMem_congr (fun i hi => hm _ (ha.placed.used s _ ⟨Nat.le_add_right .., by omega⟩))

/-! ## C26: linking -/

theorem nodup_key {l : List (String × Binding)} (h : (l.map (·.1)).Nodup) {n : String} {b b' : Binding}
    (h1 : (n, b) ∈ l) (h2 : (n, b') ∈ l) : b = b' := by
  induction l with
  | nil => cases h1
  | cons p l ih =>
    rw [List.map_cons, List.nodup_cons] at h
    rcases List.mem_cons.1 h1 with e1 | k1 <;> rcases List.mem_cons.1 h2 with e2 | k2
    · rw [← e1] at e2; cases e2; rfl
    · exact absurd (e1 ▸ List.mem_map_of_mem (f := (·.1)) k2) h.1
    · exact absurd (e2 ▸ List.mem_map_of_mem (f := (·.1)) k1) h.1
    · exact ih h.2 k1 k2


/-- The target of a relocation is within reach of its field. -/
def InReach (base : Section → Nat) (sym table : String → Option Nat) (r : Reloc) : Prop :=
  match r.ty with
  | .pcRel8 | .pcRel32 => ∀ a, targetAddr base sym r.target = some a →
    InRange r.ty ((a : Int) + r.addend - ((base r.location.section_ : Int) + (r.location.pos : Int)))
  | .table32 => ∀ n a, r.target = .symbol n → table n = some a →
    InRange r.ty ((a : Int) + r.addend - ((base r.location.section_ : Int) + (r.location.pos : Int)))
  | .abs64 => True

/-- C26 (partial: assumes that every target is within reach, because out of range targets are not reported,
see `far_refuted`): a successful `add_object` links the object. -/
theorem add_linked_partial {os : Os} (hos : OsOk os) {rs : String → Nat} {e : Engine} (hr : Reach os rs e) {o : Object}
    (hok : ObjOk o) {k : Linker} (h : addObject os rs e o = (k, none))
    (hreach : ∀ r ∈ o.relocs, InReach k.base k.sym (fun n => HMap.get k.engine.entries n) r) :
    Linked o k.base k.sym (fun n => HMap.get k.engine.entries n) (image k.engine.world.mem o k.base) := by
  have ha := added hos (reach_inv hos hr) hok h
  have hfield : ∀ r ∈ o.relocs, readField (image k.engine.world.mem o k.base r.location.section_) r.location.pos
      (width r.ty) = readMem k.engine.world.mem (locate k.base r.location) (width r.ty) :=
    fun r hr => readField_readMem (hok.inside r hr).2
  have hloc : ∀ r : Reloc, (locate k.base r.location : Int) = (k.base r.location.section_ : Int) + (r.location.pos : Int) :=
    fun r => Int.natCast_add ..
  refine ⟨fun s hs => readMem_length .., ?_, ?_, ?_, ?_⟩
  · intro s b hb
    unfold image readMem at hb
    obtain ⟨i, hi, rfl⟩ := List.mem_map.1 hb
    have hi : i < (o.buf s).length := List.mem_range.1 hi
    have hs : s ≠ .bss := by rintro rfl; exact absurd hi (Nat.not_lt_zero _)
    by_cases hc : ∃ r ∈ o.relocs, RelocCovers r s i
    · obtain ⟨r, hr, e, h1, h2⟩ := hc
      obtain ⟨v, _, hv⟩ := ha.field r hr
      have hg := readMem_get (mem := k.engine.world.mem) (p := locate k.base r.location) (n := width r.ty)
        (i := i - r.location.pos) (by omega)
      rw [hv] at hg
      have hlt := leBytes_lt (width r.ty) v _ (List.mem_of_getElem? hg)
      unfold locate at hlt
      rw [e, show k.base s + r.location.pos + (i - r.location.pos) = k.base s + i by omega] at hlt
      exact hlt
    · have := ha.same s i hs (by rw [← buf_length o hs]; exact hi) (fun r hr hcov => hc ⟨r, hr, hcov⟩)
      exact hok.bytes s _ (List.mem_of_getElem? this.symm)
  · intro s i hs hn
    by_cases hi : i < (o.buf s).length
    · show (readMem _ _ _)[i]? = _
      rw [readMem_get hi]
      exact ha.same s i hs (by rw [← buf_length o hs]; exact hi) hn
    · rw [List.getElem?_eq_none (by show (readMem _ _ _).length ≤ i; rw [readMem_length]; omega),
        List.getElem?_eq_none (by omega)]
  · intro r hr
    rw [hfield r hr]
    obtain ⟨v, hv, hm⟩ := ha.field r hr
    rw [hm]
    have hre := hreach r hr
    unfold RelocValue at hv
    unfold InReach at hre
    unfold FieldOk
    cases hty : r.ty with
    | pcRel8 =>
      simp only [hty] at hv hre ⊢
      obtain ⟨a, h1, h2⟩ := hv
      rw [hloc] at h2
      refine ⟨a, h1, ?_⟩
      rw [← h2]
      exact signedVal_le (ty := .pcRel8) (by rw [h2]; exact hre a h1) (by decide)
    | pcRel32 =>
      simp only [hty] at hv hre ⊢
      obtain ⟨a, h1, h2⟩ := hv
      rw [hloc] at h2
      refine ⟨a, h1, ?_⟩
      rw [← h2]
      exact signedVal_le (ty := .pcRel32) (by rw [h2]; exact hre a h1) (by decide)
    | table32 =>
      simp only [hty] at hv hre ⊢
      obtain ⟨n, a, h0, h1, h2⟩ := hv
      rw [hloc] at h2
      refine ⟨n, a, h0, h1, ?_⟩
      rw [← h2]
      exact signedVal_le (ty := .table32) (by rw [h2]; exact hre n a h0 h1) (by decide)
    | abs64 =>
      simp only [hty] at hv ⊢
      obtain ⟨a, h1, h2⟩ := hv
      refine ⟨a, h1, ?_⟩
      have := leVal_leBytes 8 v
      rw [show width .abs64 = 8 from rfl, this, ← h2]
      show (v % ((256 ^ 8 : Nat) : Int) - v) % 2 ^ 64 = 0
      omega
  · intro n l hl
    unfold Linker.sym
    rcases hl with hl | hl
    · rw [ha.locals_ n l hl]
      rfl
    · have hg := ((ha.globals n _ hl).2 l rfl).2
      cases hlc : HMap.get k.locals_ n with
      | none => exact hg
      | some p =>
        exfalso
        obtain ⟨q, hq⟩ := ha.onlyLocals n p hlc
        have := nodup_key hok.names hq hl
        cases this

/-- C26: a target whose address plus addend is in the first two gigabytes, where the engine puts all sections
and the address table, is always within reach of 32-bit relocations. -/
theorem near_in_reach {os : Os} (hos : OsOk os) {rs : String → Nat} {e : Engine} (hr : Reach os rs e) {o : Object}
    (hok : ObjOk o) {k : Linker} (h : addObject os rs e o = (k, none)) {r : Reloc} (hmem : r ∈ o.relocs)
    (h8 : r.ty ≠ .pcRel8)
    (hnear : r.ty = .pcRel32 → ∀ a, targetAddr k.base k.sym r.target = some a →
      0 ≤ (a : Int) + r.addend ∧ (a : Int) + r.addend ≤ 2147483648)
    (htab : r.ty = .table32 → -8 ≤ r.addend ∧ r.addend ≤ 8) :
    InReach k.base k.sym (fun n => HMap.get k.engine.entries n) r := by
  have ha := added hos (reach_inv hos hr) hok h
  obtain ⟨hs, hi⟩ := hok.inside r hmem
  rw [buf_length o hs] at hi
  have hw : 0 < width r.ty := by cases r.ty <;> decide
  have hlow := ha.placed.low r.location.section_ (by omega)
  unfold InReach
  cases hty : r.ty with
  | pcRel8 => exact absurd hty h8
  | pcRel32 =>
    intro a hta
    have := hnear hty a hta
    simp only [InRange]
    omega
  | table32 =>
    intro n a _ hn
    obtain ⟨p, _, _, _, h4, h5, h6⟩ := ha.inv.entry n a hn
    have := htab hty
    simp only [InRange]
    omega
  | abs64 => trivial

/-! ## From the writer to the processor -/

theorem useReloc_place {w : Writer} {u : Use} {r : Reloc} (h : useReloc w u = some r) :
    r.location = u.location ∧ r.ty = u.ty := by
  unfold useReloc at h
  cases hx : relocOf w.names ((w.defs[u.target]?).bind id) u with
  | error e => rw [hx] at h; cases h
  | ok r' =>
    rw [hx] at h
    cases h
    unfold relocOf at hx
    split at hx
    · cases hx; exact ⟨rfl, rfl⟩
    · cases hx; exact ⟨rfl, rfl⟩
    · cases hx

theorem symbolsOf_names {w : Writer} : ∀ {l : List (String × Nat)} {syms : List (String × Binding)},
    symbolsOf w l = some syms → syms.map (·.1) = l.map (·.1) := by
  intro l
  induction l with
  | nil => intro syms h; cases h; rfl
  | cons p l ih =>
    intro syms h
    obtain ⟨n, k⟩ := p
    simp only [symbolsOf] at h
    cases hb : bindingOf w k with
    | none => rw [hb] at h; cases h
    | some b =>
      rw [hb] at h
      cases hs : symbolsOf w l with
      | none => rw [hs] at h; cases h
      | some t =>
        rw [hs] at h
        cases h
        rw [List.map_cons, List.map_cons, ih hs]

/-- Objects of the writer are well formed; their buffers hold `u8`s. -/
theorem produced_ok {w : Writer} (hi : Inv w) {o : Object} (hprod : produce w = .ok o)
    (hbytes : ∀ s, ∀ b ∈ o.buf s, b < 256) : ObjOk o := by
  obtain ⟨syms, hs, hp⟩ := produce_ok hi.inSection hi.apart hprod
  have hrel : ∀ r ∈ o.relocs, ∃ u ∈ w.uses, r.location = u.location ∧ r.ty = u.ty := by
    intro r hr
    rw [hp.reloc] at hr
    obtain ⟨u, hu, hx⟩ := List.mem_filterMap.1 hr
    split at hx
    · cases hx
    · exact ⟨u, hu, useReloc_place hx⟩
  refine ⟨hbytes, fun r hr => ?_, ?_, ?_⟩
  · obtain ⟨u, hu, e1, e2⟩ := hrel r hr
    rw [e1, e2, hp.len]
    exact hi.inSection u hu
  · rw [hp.reloc]
    refine List.Pairwise.filterMap _ ?_ hi.apart
    intro u v huv r hr q hq
    split at hr
    · cases hr
    · split at hq
      · cases hq
      · obtain ⟨e1, e2⟩ := useReloc_place hr
        obtain ⟨e3, e4⟩ := useReloc_place hq
        rw [e1, e2, e3, e4]
        exact huv
  · rw [hp.symbols, symbolsOf_names hs]
    exact hi.keys

/-- C26 and C25 together: a direct call or jump of an object made by the writer and added to an engine, when
executed, arrives at the address of its label. -/
theorem jit_jump_lands_partial {os : Os} (hos : OsOk os) {rs : String → Nat} {e : Engine} (hr : Reach os rs e)
    {pre post : List Obj.Op} {i : LabelInst} {kind : Jump} {w : Writer}
    (hok : ProgOk Writer.new (pre ++ .inst i :: post)) (hrun : Obj.run Writer.new (pre ++ .inst i :: post) = some w)
    {o : Object} (hprod : produce w = .ok o) (hbytes : ∀ s, ∀ b ∈ o.buf s, b < 256) (hk : i.jump = some kind)
    {k : Linker} (h : addObject os rs e o = (k, none))
    (hreach : ∀ r ∈ o.relocs, InReach k.base k.sym (fun n => HMap.get k.engine.entries n) r) :
    ∃ w0 t a, Obj.run Writer.new pre = some w0 ∧
      jumpAt (image k.engine.world.mem o k.base .text) w0.text.length = some (kind, t) ∧
      LabelAddr w k.base k.sym i.label a ∧ (k.base .text : Int) + t = a :=
  jump_linked hok hrun hprod
    (add_linked_partial hos hr (produced_ok (Obj.run_inv inv_new hok hrun).1 hprod hbytes) h hreach) hk

/-- C26, C28 and C56 together: a call, jump or load through the address table finds, in memory, the address
the engine has for the symbol. -/
theorem jit_table_operand_partial {os : Os} (hos : OsOk os) {rs : String → Nat} {e : Engine} (hr : Reach os rs e)
    {pre post : List Obj.Op} {i : LabelInst} {w : Writer}
    (hok : ProgOk Writer.new (pre ++ .inst i :: post)) (hrun : Obj.run Writer.new (pre ++ .inst i :: post) = some w)
    {o : Object} (hprod : produce w = .ok o) (hbytes : ∀ s, ∀ b ∈ o.buf s, b < 256)
    {legacy opcode : List Nat} {rexW : Bool} {reg : RegSlot} (hk : i.mem = some (legacy, rexW, opcode, reg))
    (ht : i.viaTable = true) {k : Linker} (h : addObject os rs e o = (k, none))
    (hreach : ∀ r ∈ o.relocs, InReach k.base k.sym (fun n => HMap.get k.engine.entries n) r) :
    ∃ w0 d t n p, Obj.run Writer.new pre = some w0 ∧
      ripOperandAt 0 (image k.engine.world.mem o k.base .text) w0.text.length = some (d, t) ∧
      HMap.get w.names n = some i.label ∧ k.engine.get n = some p ∧ 0 ≤ (k.base .text : Int) + t ∧
      readMem k.engine.world.mem ((k.base .text : Int) + t).toNat 8 = leBytes 8 (p : Int) := by
  have hobj := produced_ok (Obj.run_inv inv_new hok hrun).1 hprod hbytes
  obtain ⟨w0, d, t, n, a, h0, h1, _, h3, h4, h5⟩ :=
    table_operand_linked hok hrun hprod (add_linked_partial hos hr hobj h hreach) hk ht
  obtain ⟨p, e1, e2, _⟩ := (added hos (reach_inv hos hr) hobj h).inv.entry n a h4
  refine ⟨w0, d, t, n, p, h0, h1, h3, e1, by omega, ?_⟩
  rw [h5]
  exact e2

/-! ## A possible operating system, and concrete engines -/

/-- The end of the highest mapping. -/
def top : List Mmap → Nat
  | [] => 4096
  | m :: ms => max (m.ptr + m.pages * 4096) (top ms)

/-- An operating system that maps upwards. -/
def bumpOs : Os := fun hist pages =>
  if (top hist + 4095) / 4096 * 4096 + pages * 4096 ≤ 2147483648 then some ((top hist + 4095) / 4096 * 4096) else none

theorem top_le {ms : List Mmap} {m : Mmap} (h : m ∈ ms) : m.ptr + m.pages * 4096 ≤ top ms := by
  induction ms with
  | nil => cases h
  | cons x ms ih =>
    rcases List.mem_cons.1 h with e | h
    · subst e; exact Nat.le_max_left ..
    · exact Nat.le_trans (ih h) (Nat.le_max_right ..)

theorem top_pos : ∀ ms : List Mmap, 4096 ≤ top ms
  | [] => Nat.le_refl _
  | _ :: ms => Nat.le_trans (top_pos ms) (Nat.le_max_right ..)

theorem bumpOs_ok : OsOk bumpOs := by
  intro hist pages p h
  unfold bumpOs at h
  split at h
  · rename_i hc
    cases h
    have := top_pos hist
    refine ⟨by omega, by omega, hc, fun m hm => .inr ?_⟩
    have := top_le hm
    omega
  · cases h

/-- Blocks: two from one mapping, a new mapping for a large one, another segment. -/
example : allocs bumpOs (Engine.new fun _ => 0).world [(.rx, 32), (.rx, 16), (.rw, 100), (.rx, 5000)] [] =
    ([(12288, 5000), (8192, 100), (4128, 16), (4096, 32)],
      (allocs bumpOs (Engine.new fun _ => 0).world [(.rx, 32), (.rx, 16), (.rw, 100), (.rx, 5000)] []).2) := by
  refine Prod.ext ?_ rfl
  decide +kernel

/-- `f: ret` in one object. -/
def objF : Object :=
  { text := [0xC3], data := [], rodata := [], bss := 0, symbols := [("f", .global (some ⟨.text, 0⟩))], relocs := [] }

/-- `g: call f; call *f@table; data: &f` in another. -/
def objG : Object :=
  { text := [0xE8, 0, 0, 0, 0, 0xFF, 0x15, 0, 0, 0, 0], data := [0, 0, 0, 0, 0, 0, 0, 0], rodata := [], bss := 4,
    symbols := [("g", .global (some ⟨.text, 0⟩)), ("f", .global none)],
    relocs := [⟨⟨.text, 1⟩, .symbol "f", -4, .pcRel32⟩, ⟨⟨.text, 7⟩, .symbol "f", -4, .table32⟩,
      ⟨⟨.data, 0⟩, .symbol "f", 0, .abs64⟩] }

theorem objF_ok : ObjOk objF := by
  refine ⟨fun s => ?_, fun r hr => (by cases hr), List.Pairwise.nil, by decide⟩
  cases s <;> decide

theorem objG_ok : ObjOk objG := by
  refine ⟨fun s => ?_, by decide, by decide, by decide⟩
  cases s <;> decide

/-- The engine with `objF`. -/
def engF : Engine := run bumpOs (fun _ => 0) (Engine.new fun _ => 0) [.addObject objF]

theorem engF_reach : Reach bumpOs (fun _ => 0) engF :=
  ⟨_, _, fun op h => (by cases List.mem_singleton.1 h; exact objF_ok), rfl⟩

/-- Linking `objG` against it. -/
def linkG : Linker := (addObject bumpOs (fun _ => 0) engF objG).1

theorem addG : addObject bumpOs (fun _ => 0) engF objG = (linkG, none) :=
  Prod.ext rfl (by decide +kernel)

theorem reachG : ∀ r ∈ objG.relocs, InReach linkG.base linkG.sym (fun n => HMap.get linkG.engine.entries n) r := by
  intro r hr
  refine near_in_reach bumpOs_ok engF_reach objG_ok addG hr ?_ ?_ ?_
  · revert r; decide
  · intro hty a ha
    have : r.target = .symbol "f" ∧ r.addend = -4 := by
      simp only [objG, List.mem_cons, List.not_mem_nil, or_false] at hr
      rcases hr with rfl | rfl | rfl
      · exact ⟨rfl, rfl⟩
      · cases hty
      · cases hty
    rw [this.1] at ha
    have hs : linkG.sym "f" = some 4096 := by decide +kernel
    have : some 4096 = some a := hs.symm.trans ha
    cases this
    omega
  · intro hty
    simp only [objG, List.mem_cons, List.not_mem_nil, or_false] at hr
    rcases hr with rfl | rfl | rfl
    · cases hty
    · decide
    · cases hty

/-- The linked bytes are those of a `call` back by 21 bytes (from 4117 to 4096). -/
example : Linked objG linkG.base linkG.sym (fun n => HMap.get linkG.engine.entries n)
    (image linkG.engine.world.mem objG linkG.base) :=
  add_linked_partial bumpOs_ok engF_reach objG_ok addG reachG

example : jumpAt (image linkG.engine.world.mem objG linkG.base .text) 0 = some (.call, -16) ∧
    linkG.base .text = 4112 ∧ linkG.engine.get "f" = some 4096 := by decide +kernel

example : ∃ a, HMap.get linkG.engine.entries "f" = some a ∧ readMem linkG.engine.world.mem a 8 = leBytes 8 4096 :=
  ⟨12288, by decide +kernel, by decide +kernel⟩

example : (addObject bumpOs (fun _ => 0) linkG.engine objF).2 = some (.duplicateSymbol "f") := by decide +kernel

/-- A failed `add_object` leaves its symbols bound: `g` of the object below stays bound although `missing` is
not defined, so the object cannot be added again. -/
example : let o := { objG with symbols := [("g", .global (some ⟨.text, 0⟩)), ("missing", .global none)] }
    let r := addObject bumpOs (fun _ => 0) engF o
    r.2 = some (.undefinedSymbol "missing") ∧ r.1.engine.get "g" = some 4112 ∧
      (addObject bumpOs (fun _ => 0) r.1.engine o).2 = some (.duplicateSymbol "g") := by decide +kernel

/-! ## Refutations of C26 -/

/-- `call far`, with `far` registered at the address 2^40. -/
def objFar : Object :=
  { text := [0xE8, 0, 0, 0, 0], data := [], rodata := [], bss := 0, symbols := [("far", .global none)],
    relocs := [⟨⟨.text, 1⟩, .symbol "far", -4, .pcRel32⟩] }

def engFar : Engine := run bumpOs (fun _ => 0) (Engine.new fun _ => 0) [.register "far" 1099511627776]

def linkFar : Linker := (addObject bumpOs (fun _ => 0) engFar objFar).1

/-- C26 refuted: the check in `relocate` (`value < MIN && MAX < value`) never fires.  Adding the object
succeeds, but the call goes to address 0 instead of 2^40. -/
theorem far_refuted : OsOk bumpOs ∧ Reach bumpOs (fun _ => 0) engFar ∧ ObjOk objFar ∧
    addObject bumpOs (fun _ => 0) engFar objFar = (linkFar, none) ∧ linkFar.sym "far" = some 1099511627776 ∧
    ∃ t, jumpAt (image linkFar.engine.world.mem objFar linkFar.base .text) 0 = some (.call, t) ∧
      (linkFar.base .text : Int) + t = 0 := by
  refine ⟨bumpOs_ok, ⟨_, _, fun op h => (by cases List.mem_singleton.1 h; trivial), rfl⟩,
    ⟨fun s => (by cases s <;> decide), by decide, by decide, by decide⟩, Prod.ext rfl (by decide +kernel),
    by decide +kernel, -4096, by decide +kernel, by decide +kernel⟩

/-- `f: call *f@table`, `f` local to the object. -/
def objLocal : Object :=
  { text := [0xFF, 0x15, 0, 0, 0, 0], data := [], rodata := [], bss := 0, symbols := [("f", .loc ⟨.text, 0⟩)],
    relocs := [⟨⟨.text, 2⟩, .symbol "f", -4, .table32⟩] }

def linkLocal : Linker := (addObject bumpOs (fun _ => 0) engF objLocal).1

/-- C26 refuted for local symbols through the address table: the entry is that of the symbol of the same name
of another object (`reloc_target_address_table_entry` does not look at the local symbols). -/
theorem local_table_refuted : OsOk bumpOs ∧ Reach bumpOs (fun _ => 0) engF ∧ ObjOk objLocal ∧
    addObject bumpOs (fun _ => 0) engF objLocal = (linkLocal, none) ∧
    linkLocal.sym "f" = some 4112 ∧ linkLocal.base .text = 4112 ∧
    ∃ a, HMap.get linkLocal.engine.entries "f" = some a ∧ readMem linkLocal.engine.world.mem a 8 = leBytes 8 4096 := by
  refine ⟨bumpOs_ok, engF_reach, ⟨fun s => (by cases s <;> decide), by decide, by decide, by decide⟩,
    Prod.ext rfl (by decide +kernel), by decide +kernel, by decide +kernel, 8192, by decide +kernel, by decide +kernel⟩

/-- Without another `f` the object is refused although it defines `f`. -/
theorem local_table_refused :
    (addObject bumpOs (fun _ => 0) (Engine.new fun _ => 0) objLocal).2 = some (.undefinedSymbol "f") := by decide +kernel

end Verif.Jit
