import Verif.MemLayout.Resolver

/-!
# C22, C52, C53: memory layouts, their resolution, registers and call frames
-/
namespace Verif.MemLayout
open Layout Spec
open Verif (HMap)

/-! ### C22 -/

theorem padTo_least (n a : Nat) : LeastMultiple a n (padTo n a) := by
  refine ⟨fun h => by rw [h, padTo_zero], fun h => ⟨le_padTo n a, dvd_padTo n h, fun z h1 h2 => ?_⟩⟩
  obtain ⟨x, hx⟩ := dvd_padTo n h
  obtain ⟨y, rfl⟩ := h2
  rw [hx]
  apply Nat.mul_le_mul_left
  apply Classical.byContradiction
  intro hlt
  have h3 := Nat.mul_le_mul_left a (show y + 1 ≤ x by omega)
  have h4 := padTo_lt n h
  rw [Nat.mul_add, Nat.mul_one] at h3
  omega

theorem iter_placed (ls : List Layout) : ∀ o, CPlaced o (iterWithOffset o ls) ((iterWithOffset o ls).foldl (fun _ e => e.1 + e.2.size) o) := by
  induction ls with
  | nil => intro o; exact .nil
  | cons l ls ih => intro o; exact .cons (padTo_least o l.align) (ih _)

/-- C22: the layout of a structure is the one C gives to its fields. -/
theorem product_c_struct (ls : List Layout) : ∃ es cs, (product ls).composite = some (es, cs) ∧ CStruct ls (product ls) es := by
  rw [product_eq]
  refine ⟨_, _, rfl, iter_snd ls 0, ⟨_, iter_placed ls 0, padTo_least _ _⟩, fun f hf => ?_, ?_⟩
  · rw [← iter_snd ls 0] at hf
    obtain ⟨e, he, rfl⟩ := List.mem_map.1 hf
    exact (foldl_max_ge (fun e : Nat × Layout => e.2.align) (iterWithOffset 0 ls) 0).2 e he
  · rcases foldl_max_mem (fun e : Nat × Layout => e.2.align) (iterWithOffset 0 ls) 0 with h | ⟨e, he, h⟩
    · exact .inl h
    · refine .inr ⟨e.2, ?_, h.symm⟩
      rw [← iter_snd ls 0]
      exact List.mem_map_of_mem he

/-- C22: fields are aligned, disjoint and inside the structure; the components are exactly the leaves, and likewise placed. -/
theorem product_placed {ls : List Layout} (h : ∀ l ∈ ls, Wf l) : ∃ es cs, (product ls).composite = some (es, cs) ∧
    es.map Prod.snd = ls ∧ Placed (product ls).size (product ls).align es ∧ Placed (product ls).size (product ls).align cs ∧
    ∀ o c, (o, c) ∈ cs ↔ Leaf (product ls) o c := by
  obtain ⟨es, cs, h1, h2⟩ := product_c_struct ls
  obtain ⟨g1, g2, -, g3⟩ := (Wf.parts (wf_product h)).2.2.2.2.2 es cs h1
  exact ⟨es, cs, h1, h2.elems, g1, g2, g3⟩

/-- C22: every member of a union fits. -/
theorem sum_fits {ls : List Layout} (h : ∀ l ∈ ls, Wf l) : Wf (sum ls) ∧ ∀ l ∈ ls, l.size ≤ (sum ls).size ∧ (l.align = 0 ∨ l.align ∣ (sum ls).align) :=
  ⟨wf_sum h, fun _ hl => sum_member h hl⟩

/-- C22: a union is as large as its largest member rounded up to its alignment, no larger. -/
theorem sum_least {ls : List Layout} : ∃ m, LeastMultiple (sum ls).align m (sum ls).size ∧ (m = 0 ∨ ∃ l ∈ ls, l.size = m) ∧
    ((sum ls).align = 0 ∨ ∃ l ∈ ls, l.align = (sum ls).align) := by
  rw [sum_eq]
  refine ⟨_, padTo_least _ _, ?_, ?_⟩
  · rcases foldl_max_mem (fun l : Layout => l.size) ls 0 with h | ⟨e, he, h⟩
    · exact .inl h
    · exact .inr ⟨e, he, h.symm⟩
  · rcases foldl_max_mem (fun l : Layout => l.align) ls 0 with h | ⟨e, he, h⟩
    · exact .inl h
    · exact .inr ⟨e, he, h.symm⟩

/-- C22: every layout the resolver gives to a type is well-formed, and in memory exactly when larger than two eightbytes. -/
theorem resolved_wf {defs : Defs} {t : Ct} {l : Layout} (h : HasLayout [] defs t l) : Wf l ∧ (l.cls = .memory ↔ 16 < l.size) :=
  have r := HasLayout.regular (fun n l h => by rw [HMap.get_nil] at h; cases h) h
  ⟨r.wf, r.cls, (Wf.parts r.wf).2.2.2.2.1⟩

/-- A structure `{u8, f64, i16}`: offsets 0, 8, 16, size 24, alignment 8. -/
example : ((product [integer 1, fp 8, integer 2]).composite.map fun c => c.1.map Prod.fst) = some [0, 8, 16] ∧
    (product [integer 1, fp 8, integer 2]).size = 24 ∧ (product [integer 1, fp 8, integer 2]).align = 8 ∧
    (product [integer 1, fp 8, integer 2]).cls = .memory := by decide

/-! ### C52 -/

/-- C52: registering definitions succeeds exactly when every structure and union registered has a layout. -/
theorem register_succeeds_iff (defs : Defs) (base : Layouts) (hb : ∀ n, HMap.get base n ≠ some none) (order : List Nat) {fuel : Nat}
    (hf : (HMap.keys defs).length < fuel) :
    (∃ m, register defs fuel base order = .ok m) ↔ ∀ n ∈ order, IsData defs n → ∃ l, HasLayout base defs (.id n) l := by
  constructor
  · rintro ⟨m, hm⟩ n hn hd
    obtain ⟨h1, -, h3⟩ := register_sound hb fuel order base (Ok.init hb) m hm
    obtain ⟨l, hl⟩ := h3 n hn hd
    exact ⟨l, h1.sound n l hl⟩
  · exact register_complete hb fuel hf order base (Ok.init hb)

/-- C52: the recursion of the resolver is no deeper than the number of definitions. -/
theorem register_depth (defs : Defs) (base : Layouts) (hb : ∀ n, HMap.get base n ≠ some none) (order : List Nat) {fuel : Nat}
    (hf : (HMap.keys defs).length < fuel) : register defs fuel base order ≠ .error .fuel :=
  register_no_fuel hb fuel hf order base (Ok.init hb)

/-- C52: the layouts registered are those of the definitions, earlier ones are kept, and none is left unfinished. -/
theorem register_layouts {defs : Defs} {base m : Layouts} (hb : ∀ n, HMap.get base n ≠ some none) {order : List Nat} {fuel : Nat}
    (h : register defs fuel base order = .ok m) :
    (∀ n, HMap.get m n ≠ some none) ∧ (∀ n l, HMap.get m n = some (some l) → HasLayout base defs (.id n) l) ∧
    (∀ n l, HMap.get base n = some (some l) → HMap.get m n = some (some l)) ∧
    (∀ n ∈ order, IsData defs n → ∃ l, HMap.get m n = some (some l)) := by
  obtain ⟨h1, h2, h3⟩ := register_sound hb fuel order base (Ok.init hb) m h
  exact ⟨fun n hn => (by have := (h1.progress n).1 hn; simp at this), h1.sound, h2, h3⟩

/-- C52: the layout of a type does not depend on the order in which the hash map of definitions is iterated. -/
theorem register_order_independent {defs : Defs} {base m m' : Layouts} (hb : ∀ n, HMap.get base n ≠ some none) {order order' : List Nat} {fuel fuel' : Nat}
    (h : register defs fuel base order = .ok m) (h' : register defs fuel' base order' = .ok m') {n : Nat} {l l' : Layout}
    (hl : HMap.get m n = some (some l)) (hl' : HMap.get m' n = some (some l')) : l = l' :=
  HasLayout.unique ((register_layouts hb h).2.1 n l hl) ((register_layouts hb h').2.1 n l' hl')

/-- C52: with all definitions in any order, the result is the same (or a failure in both). -/
theorem register_all_orders {defs : Defs} {base : Layouts} (hb : ∀ n, HMap.get base n ≠ some none) {order order' : List Nat}
    (hp : ∀ n, n ∈ order ↔ n ∈ order') {fuel : Nat} (hf : (HMap.keys defs).length < fuel) :
    (∃ m, register defs fuel base order = .ok m) ↔ ∃ m, register defs fuel base order' = .ok m := by
  rw [register_succeeds_iff defs base hb order hf, register_succeeds_iff defs base hb order' hf]
  constructor
  · intro h n hn; exact h n ((hp n).2 hn)
  · intro h n hn; exact h n ((hp n).1 hn)

/-- C52: a type that contains itself by value is rejected. -/
theorem register_cyclic_fails {defs : Defs} {base : Layouts} (hb : ∀ n, HMap.get base n ≠ some none) {order : List Nat} {n : Nat}
    (hn : n ∈ order) (hd : IsData defs n) (hc : ContainsTrans base defs n n) {fuel : Nat} (hf : (HMap.keys defs).length < fuel) :
    register defs fuel base order = .error .panic := by
  cases h : register defs fuel base order with
  | ok m =>
    obtain ⟨l, hl⟩ := (register_succeeds_iff defs base hb order hf).1 ⟨m, h⟩ n hn hd
    exact absurd hc (not_cyclic_of_acc (HasLayout.acc hl n rfl))
  | error e =>
    cases e with
    | panic => rfl
    | fuel => exact absurd h (register_depth defs base hb order hf)

/-- Definitions in which structure 0 holds 1 and a float, and 1 is a union of a byte and a pointer to 0. -/
def sampleDefs : Defs := [(0, .struct [.id 1, .f32]), (1, .union [.u 8, .ptr (.id 0)]), (2, .other)]

theorem sample_layout : ∃ m, register sampleDefs 4 [] [2, 1, 0] = .ok m := by
  refine (register_succeeds_iff sampleDefs [] (by simp [HMap.get_nil]) _ (by decide)).2 ?_
  have h1 : HasLayout [] sampleDefs (.id 1) (sum [integer 1, pointer]) := by
    refine .union (ts := [.u 8, .ptr (.id 0)]) rfl rfl rfl ?_
    simp only [List.zip_cons_cons, List.zip_nil_right, List.mem_cons, List.not_mem_nil, or_false, forall_eq_or_imp, forall_eq]
    exact ⟨.prim (by simp) rfl, .prim (by simp) rfl⟩
  have h0 : HasLayout [] sampleDefs (.id 0) (product [sum [integer 1, pointer], fp 4]) := by
    refine .struct (ts := [.id 1, .f32]) rfl rfl rfl ?_
    simp only [List.zip_cons_cons, List.zip_nil_right, List.mem_cons, List.not_mem_nil, or_false, forall_eq_or_imp, forall_eq]
    exact ⟨h1, .prim (by simp) rfl⟩
  intro n hn hd
  simp only [List.mem_cons, List.not_mem_nil, or_false] at hn
  rcases hn with rfl | rfl | rfl
  · obtain ⟨ts, h | h⟩ := hd <;> cases h
  · exact ⟨_, h1⟩
  · exact ⟨_, h0⟩

/-- A structure that holds itself through a union. -/
example : register [(0, .struct [.id 1]), (1, .union [.u 8, .id 0])] 3 [] [1, 0] = .error .panic :=
  register_cyclic_fails (n := 0) (by simp [HMap.get_nil]) (by simp) ⟨_, .inl rfl⟩
    (.step (m := 1) ⟨rfl, _, .inl rfl, by simp⟩ (.one ⟨rfl, _, .inr rfl, by simp⟩)) (by decide)

/-! ### C53 -/

/-- Registers used by an assignment. -/
def regsOf (as : List RegAssign) : List AssignedReg := as.map (·.reg)

theorem buildLoop_regs (es : List Eightbyte) : ∀ gps fps as gps' fps', buildLoop gps fps es = some (as, gps', fps') →
    ∃ ug uf, gps = ug ++ gps' ∧ fps = uf ++ fps' ∧
      (regsOf as).Perm (ug.map AssignedReg.gpr ++ uf.map AssignedReg.xmm ++ List.replicate (es.countP fun e => e.cls = .void) .void) := by
  induction es with
  | nil => intro gps fps as gps' fps' h; simp only [buildLoop, Option.some.injEq, Prod.mk.injEq] at h; obtain ⟨rfl, rfl, rfl⟩ := h; exact ⟨[], [], rfl, rfl, by simp [regsOf]⟩
  | cons e es ih =>
    intro gps fps as gps' fps' h
    unfold buildLoop at h
    split at h
    · rename_i hv
      obtain ⟨⟨as', g', f'⟩, hr, hrr⟩ := Option.map_eq_some_iff.1 h
      simp only [Prod.mk.injEq] at hrr
      obtain ⟨rfl, rfl, rfl⟩ := hrr
      obtain ⟨ug, uf, h1, h2, h3⟩ := ih _ _ _ _ _ hr
      refine ⟨ug, uf, h1, h2, ?_⟩
      rw [List.countP_cons_of_pos (by simp [hv]), List.replicate_succ]
      exact (h3.cons _).trans List.perm_middle.symm
    · rename_i g gps0 hv
      obtain ⟨⟨as', g', f'⟩, hr, hrr⟩ := Option.map_eq_some_iff.1 h
      simp only [Prod.mk.injEq] at hrr
      obtain ⟨rfl, rfl, rfl⟩ := hrr
      obtain ⟨ug, uf, h1, h2, h3⟩ := ih _ _ _ _ _ hr
      refine ⟨g :: ug, uf, by rw [h1]; rfl, h2, ?_⟩
      rw [List.countP_cons_of_neg (by simp [hv])]
      exact h3.cons _
    · rename_i f fps0 hv
      obtain ⟨⟨as', g', f'⟩, hr, hrr⟩ := Option.map_eq_some_iff.1 h
      simp only [Prod.mk.injEq] at hrr
      obtain ⟨rfl, rfl, rfl⟩ := hrr
      obtain ⟨ug, uf, h1, h2, h3⟩ := ih _ _ _ _ _ hr
      refine ⟨ug, f :: uf, h1, by rw [h2]; rfl, ?_⟩
      rw [List.countP_cons_of_neg (by simp [hv])]
      refine (h3.cons (AssignedReg.xmm f)).trans ?_
      rw [List.append_assoc, List.append_assoc, List.map_cons, List.cons_append]
      exact List.perm_middle.symm
    · cases h

/-- The sizes and offsets of the parts follow the eightbytes. -/
theorem buildLoop_offsets (es : List Eightbyte) : ∀ gps fps as gps' fps', buildLoop gps fps es = some (as, gps', fps') →
    as.map (fun a => (a.offset, a.size)) = es.map fun e => (e.offset, e.size) := by
  induction es with
  | nil => intro gps fps as gps' fps' h; simp only [buildLoop, Option.some.injEq, Prod.mk.injEq] at h; obtain ⟨rfl, rfl, rfl⟩ := h; rfl
  | cons e es ih =>
    intro gps fps as gps' fps' h
    unfold buildLoop at h
    split at h
    · obtain ⟨⟨as', g', f'⟩, hr, hrr⟩ := Option.map_eq_some_iff.1 h
      simp only [Prod.mk.injEq] at hrr
      obtain ⟨rfl, rfl, rfl⟩ := hrr
      simp [ih _ _ _ _ _ hr]
    · obtain ⟨⟨as', g', f'⟩, hr, hrr⟩ := Option.map_eq_some_iff.1 h
      simp only [Prod.mk.injEq] at hrr
      obtain ⟨rfl, rfl, rfl⟩ := hrr
      simp [ih _ _ _ _ _ hr]
    · obtain ⟨⟨as', g', f'⟩, hr, hrr⟩ := Option.map_eq_some_iff.1 h
      simp only [Prod.mk.injEq] at hrr
      obtain ⟨rfl, rfl, rfl⟩ := hrr
      simp [ih _ _ _ _ _ hr]
    · cases h

/-- C53: a value that is not kept in memory always fits into the two integer and two floating-point result registers: one or two distinct
registers, one for each eightbyte, which together cover the value. -/
theorem value_in_registers {l : Layout} (h : Regular l) (h0 : l.cls ≠ .void) (hm : l.cls ≠ .memory) {g1 g2 f1 f2 : Nat} (hg : g1 ≠ g2) (hf : f1 ≠ f2) :
    ∃ as gps fps, build l [g1, g2] [f1, f2] = some (as, gps, fps) ∧ as.length = l.numEightbytes ∧ 0 < as.length ∧ as.length ≤ 2 ∧
      (∀ a ∈ as, a.reg ≠ .void) ∧ (regsOf as).Nodup ∧
      (∀ b < l.size, ∃ a ∈ as, a.offset ≤ b ∧ b < a.offset + a.size) ∧ ∀ a ∈ as, a.offset + a.size ≤ l.size := by
  have hs0 : 0 < l.size := Nat.pos_of_ne_zero fun h' => h0 ((Wf.parts h.wf).2.2.2.1.2 h')
  have hs16 : l.size ≤ 16 := Nat.le_of_not_lt fun h' => hm ((Wf.parts h.wf).2.2.2.2.1 h')
  have hlen : l.eightbytes.length = l.numEightbytes := length_eightbytes l
  have hn : l.numEightbytes ≤ 2 ∧ 0 < l.numEightbytes := by unfold numEightbytes; omega
  have hcls := h.eightbyte_cls hs0 hs16
  obtain ⟨as, gps', fps', hb, hal, hav⟩ := buildLoop_some l.eightbytes hcls [g1, g2] [f1, f2] (by simp; omega) (by simp; omega)
  have hoff := buildLoop_offsets _ _ _ _ _ _ hb
  refine ⟨as, gps', fps', ?_, by omega, by omega, by omega, hav, ?_, fun b hbl => ?_, fun a ha => ?_⟩
  · unfold build
    rw [if_pos, hb]
    revert h0 hm; cases l.cls <;> simp
  · obtain ⟨ug, uf, e1, e2, hp⟩ := buildLoop_regs _ _ _ _ _ _ hb
    have hz : (l.eightbytes.countP fun e => e.cls = .void) = 0 := by
      rw [List.countP_eq_zero]
      intro e he hv
      rcases hcls e he with h | h <;> simp [h] at hv
    rw [hz, List.replicate_zero, List.append_nil] at hp
    rw [hp.nodup_iff]
    have hnd : ∀ {x y : Nat} {u v : List Nat}, x ≠ y → [x, y] = u ++ v → u.Nodup := by
      intro x y u v hne he
      exact (List.nodup_append.1 (he ▸ (by simp [hne] : [x, y].Nodup))).1
    refine List.nodup_append.2 ⟨(List.nodup_iff_pairwise_ne.1 (hnd hg e1)).map _ (by intro a b hab hc; cases hc; exact hab rfl) |> List.nodup_iff_pairwise_ne.2,
      (List.nodup_iff_pairwise_ne.1 (hnd hf e2)).map _ (by intro a b hab hc; cases hc; exact hab rfl) |> List.nodup_iff_pairwise_ne.2, ?_⟩
    intro a ha b hb' hab
    obtain ⟨x, -, rfl⟩ := List.mem_map.1 ha
    obtain ⟨y, -, rfl⟩ := List.mem_map.1 hb'
    cases hab
  · have hi : b / 8 < l.numEightbytes := by unfold numEightbytes; omega
    have : (b / 8 * 8, min (l.size - b / 8 * 8) 8) ∈ as.map (fun a => (a.offset, a.size)) := by
      rw [hoff]
      unfold eightbytes
      rw [List.map_map]
      exact List.mem_map.2 ⟨b / 8, List.mem_range.2 hi, rfl⟩
    obtain ⟨a, ha, hea⟩ := List.mem_map.1 this
    simp only [Prod.mk.injEq] at hea
    exact ⟨a, ha, by omega, by omega⟩
  · have : (a.offset, a.size) ∈ as.map (fun a => (a.offset, a.size)) := List.mem_map_of_mem ha
    rw [hoff] at this
    unfold eightbytes at this
    rw [List.map_map] at this
    obtain ⟨i, hi, he⟩ := List.mem_map.1 this
    rw [List.mem_range] at hi
    simp only [Function.comp, Prod.mk.injEq] at he
    unfold numEightbytes at hi
    omega

/-- C53: a value that is in memory or has no bytes is never put into registers, so that it is passed on the stack whole. -/
theorem other_on_stack {l : Layout} (h : l.cls = .void ∨ l.cls = .memory) (gps fps : List Nat) : build l gps fps = none := by
  unfold build
  rcases h with h | h <;> rw [h] <;> simp

/-- Registers of an argument. -/
def CallArg.regs : CallArg → List AssignedReg
  | .reg a none => [a.reg]
  | .reg a (some b) => [a.reg, b.reg]
  | _ => []

theorem build_some {l : Layout} (h : Regular l) {gps fps as gps' fps'} (hb : build l gps fps = some (as, gps', fps')) :
    (as.length = 1 ∨ as.length = 2) ∧ (∃ ug uf, gps = ug ++ gps' ∧ fps = uf ++ fps' ∧ (regsOf as).Perm (ug.map AssignedReg.gpr ++ uf.map AssignedReg.xmm)) ∧
    as.length = l.numEightbytes := by
  unfold build at hb
  split at hb
  case isFalse => cases hb
  rename_i hc
  have hs0 : 0 < l.size := Nat.pos_of_ne_zero fun h' => by have := (Wf.parts h.wf).2.2.2.1.2 h'; rw [this] at hc; simp at hc
  have hs16 : l.size ≤ 16 := Nat.le_of_not_lt fun h' => by have := (Wf.parts h.wf).2.2.2.2.1 h'; rw [this] at hc; simp at hc
  have hcls := h.eightbyte_cls hs0 hs16
  have hlen := congrArg List.length (buildLoop_offsets _ _ _ _ _ _ hb)
  rw [List.length_map, List.length_map, length_eightbytes] at hlen
  have hn : l.numEightbytes ≤ 2 ∧ 0 < l.numEightbytes := by unfold numEightbytes; omega
  obtain ⟨ug, uf, e1, e2, hp⟩ := buildLoop_regs _ _ _ _ _ _ hb
  have hz : (l.eightbytes.countP fun e => e.cls = .void) = 0 := by
    rw [List.countP_eq_zero]
    intro e he hv
    rcases hcls e he with h | h <;> simp [h] at hv
  rw [hz, List.replicate_zero, List.append_nil] at hp
  exact ⟨by omega, ⟨ug, uf, e1, e2, hp⟩, hlen⟩

theorem ofAssigns_some {as : List RegAssign} (h : as.length = 1 ∨ as.length = 2) : ∃ a, ofAssigns as = some a ∧ a.regs = regsOf as ∧ a.onStack = 0 := by
  match as, h with
  | [a], _ => exact ⟨_, rfl, rfl, rfl⟩
  | [a, b], _ => exact ⟨_, rfl, rfl, rfl⟩

/-- Arguments of a C call: what each one is given. -/
theorem cArgsLoop_spec (ls : List Layout) (h : ∀ l ∈ ls, Regular l) : ∀ gps fps, ∃ args, cArgsLoop gps fps ls = some args ∧
    ls.length = args.length ∧ (∀ p ∈ ls.zip args, p.2 = .stackRev p.1.numEightbytes ∨ (p.2.regs.length = p.1.numEightbytes ∧ p.2.onStack = 0)) ∧
    ∃ ug uf g' f', gps = ug ++ g' ∧ fps = uf ++ f' ∧ (args.flatMap CallArg.regs).Perm (ug.map AssignedReg.gpr ++ uf.map AssignedReg.xmm) := by
  induction ls with
  | nil => intro gps fps; exact ⟨[], rfl, rfl, by simp, [], [], gps, fps, rfl, rfl, by simp⟩
  | cons l ls ih =>
    intro gps fps
    have ih := ih fun l hl => h l (by simp [hl])
    unfold cArgsLoop
    cases hb : build l gps fps with
    | none =>
      obtain ⟨args, h1, h20, h2, ug, uf, g', f', h3, h4, h5⟩ := ih gps fps
      refine ⟨.stackRev l.numEightbytes :: args, by simp [h1], by simp [h20], by
        simp only [List.zip_cons_cons, List.mem_cons, forall_eq_or_imp]; exact ⟨by simp, h2⟩, ug, uf, g', f', h3, h4, ?_⟩
      simpa [List.flatMap_cons, CallArg.regs] using h5
    | some r =>
      obtain ⟨as, gps1, fps1⟩ := r
      obtain ⟨hl1, ⟨ug0, uf0, e1, e2, hp⟩, hl2⟩ := build_some (h l (by simp)) hb
      obtain ⟨a, ha, har, has⟩ := ofAssigns_some hl1
      obtain ⟨args, h1, h20, h2, ug, uf, g', f', h3, h4, h5⟩ := ih gps1 fps1
      refine ⟨a :: args, by simp [ha, h1], by simp [h20], by
        simp only [List.zip_cons_cons, List.mem_cons, forall_eq_or_imp]; exact ⟨.inr ⟨by rw [har, regsOf, List.length_map, hl2], has⟩, h2⟩,
        ug0 ++ ug, uf0 ++ uf, g', f', by rw [e1, h3, List.append_assoc], by rw [e2, h4, List.append_assoc], ?_⟩
      rw [List.flatMap_cons, har, List.map_append, List.map_append]
      refine (hp.append h5).trans ?_
      simp only [List.append_assoc]
      refine List.Perm.append_left _ ?_
      rw [← List.append_assoc, ← List.append_assoc]
      exact List.Perm.append_right _ List.perm_append_comm

/-- C53: for a C call the compiler never fails to place the arguments; each one is on the stack whole or in as many registers as it has
eightbytes, no register is used twice, and `rdi` is left for the address of a result in memory. -/
theorem c_args_placed {ls : List Layout} (h : ∀ l ∈ ls, Regular l) (ret : Layout) : ∃ args, cArgs ls ret = some args ∧
    ls.length = args.length ∧ (∀ p ∈ ls.zip args, p.2 = .stackRev p.1.numEightbytes ∨ (p.2.regs.length = p.1.numEightbytes ∧ p.2.onStack = 0)) ∧
    (args.flatMap CallArg.regs).Nodup ∧ .void ∉ args.flatMap CallArg.regs ∧
    (ret.cls = .memory → AssignedReg.gpr 0 ∉ args.flatMap CallArg.regs) := by
  obtain ⟨args, h1, h20, h2, ug, uf, g', f', h3, h4, h5⟩ := cArgsLoop_spec ls h (if ret.cls = .memory then [1, 2, 3, 4, 5] else [0, 1, 2, 3, 4, 5]) [0, 1, 2, 3, 4, 5, 6, 7]
  have hug : ug.Nodup := by
    have : (if ret.cls = .memory then [1, 2, 3, 4, 5] else [0, 1, 2, 3, 4, 5]).Nodup := by split <;> decide
    rw [h3] at this
    exact (List.nodup_append.1 this).1
  have huf : uf.Nodup := by
    have : [0, 1, 2, 3, 4, 5, 6, 7].Nodup := by decide
    rw [h4] at this
    exact (List.nodup_append.1 this).1
  refine ⟨args, h1, h20, h2, ?_, ?_, fun hm => ?_⟩
  · rw [h5.nodup_iff]
    refine List.nodup_append.2 ⟨(List.nodup_iff_pairwise_ne.1 hug).map _ (by intro a b hab hc; cases hc; exact hab rfl) |> List.nodup_iff_pairwise_ne.2,
      (List.nodup_iff_pairwise_ne.1 huf).map _ (by intro a b hab hc; cases hc; exact hab rfl) |> List.nodup_iff_pairwise_ne.2, ?_⟩
    intro a ha b hb' hab
    obtain ⟨x, -, rfl⟩ := List.mem_map.1 ha
    obtain ⟨y, -, rfl⟩ := List.mem_map.1 hb'
    cases hab
  · rw [h5.mem_iff]; simp
  · rw [h5.mem_iff]
    rw [if_pos hm] at h3
    have h0 : 0 ∉ ug := fun h0 => by
      have : 0 ∈ [1, 2, 3, 4, 5] := by rw [h3]; simp [h0]
      simp at this
    simpa using h0

/-- The result is in registers, or on the stack with its number of eightbytes. -/
theorem c_ret_placed {l : Layout} (h : Regular l) : ∃ r, cRet l = some r ∧ r.onStack = (if l.cls = .memory then l.numEightbytes else 0) := by
  unfold cRet
  by_cases hv : l.cls = .void
  · rw [other_on_stack (.inl hv)]
    refine ⟨_, rfl, ?_⟩
    have := (Wf.parts h.wf).2.2.2.1.1 hv
    rw [hv]; simp [CallArg.onStack, numEightbytes, this]
  · by_cases hm : l.cls = .memory
    · rw [other_on_stack (.inr hm)]
      exact ⟨_, rfl, by rw [if_pos hm]; rfl⟩
    · obtain ⟨as, gps, fps, hb, h1, h2, h3, -⟩ := value_in_registers h hv hm (g1 := 0) (g2 := 2) (f1 := 0) (f2 := 1) (by decide) (by decide)
      obtain ⟨a, ha, -, has⟩ := ofAssigns_some (as := as) (by omega)
      rw [hb]
      exact ⟨a, by simp [ha], by rw [if_neg hm, has]⟩

/-- Bytes that the arguments take on the stack. -/
def stackOf (args : List CallArg) : Nat := (args.map CallArg.onStack).foldl (· + ·) 0

/-- C53: at the call instruction the stack is 16-byte aligned: `depth` eightbytes in the frame before the call (the frame base being aligned),
then room for the result, padding, and the arguments. -/
theorem call_aligned (args : List CallArg) (ret : CallArg) (depth : Nat) :
    16 ∣ 8 * (depth + (CallFrame.new args ret depth).before + stackOf args) := by
  unfold CallFrame.new CallFrame.before stackOf
  simp only
  generalize (args.map CallArg.onStack).foldl (· + ·) 0 = s
  omega

/-- C53: with no more padding than needed. -/
theorem call_padding (args : List CallArg) (ret : CallArg) (depth : Nat) :
    (CallFrame.new args ret depth).before = ret.onStack ∨ (CallFrame.new args ret depth).before = ret.onStack + 1 := by
  unfold CallFrame.new CallFrame.before
  simp only
  omega

/-- C53: the address given for a result in memory is that of the area reserved for it before the arguments were pushed, so no argument is
overwritten; removing the remnants afterwards leaves exactly the result on top of the stack. -/
theorem call_result (args : List CallArg) (ret : CallArg) (depth : Nat) :
    ((CallFrame.new args ret depth).retDestination = none ↔ ret.onStack = 0) ∧
    (∀ o, (CallFrame.new args ret depth).retDestination = some o →
      stackOf args ≤ o ∧ o + ret.onStack = (CallFrame.new args ret depth).before + stackOf args) ∧
    depth + (CallFrame.new args ret depth).before + stackOf args - (CallFrame.new args ret depth).remnants = depth + ret.onStack ∧
    (CallFrame.new args ret depth).remnants ≤ depth + (CallFrame.new args ret depth).before + stackOf args := by
  unfold CallFrame.new CallFrame.before stackOf CallFrame.retDestination CallFrame.remnants
  simp only
  generalize (args.map CallArg.onStack).foldl (· + ·) 0 = s
  refine ⟨?_, ?_, by omega, by omega⟩
  · split <;> simp_all
  · intro o ho
    split at ho
    · cases ho; omega
    · cases ho

/-- All layouts of a program are regular, so the above apply to them. -/
theorem resolved_regular {defs : Defs} {t : Ct} {l : Layout} (h : HasLayout [] defs t l) : Regular l :=
  HasLayout.regular (fun n l h => by rw [HMap.get_nil] at h; cases h) h

/-- `{i64, f32}` is returned in `rax` and `xmm0`; `{i64, i64, i64}` on the stack. -/
example : cRet (product [integer 8, fp 4]) = some (.reg ⟨0, 8, .gpr 0⟩ (some ⟨8, 8, .xmm 0⟩)) := by decide
example : cArgs [product [integer 8, integer 8, integer 8], product [integer 8, integer 8]] (memory 24 8) =
    some [.stackRev 3, .reg ⟨0, 8, .gpr 1⟩ (some ⟨8, 8, .gpr 2⟩)] := by decide
example : Regular (product [integer 8, fp 4]) := regular_product (by
  simp only [List.mem_cons, List.not_mem_nil, or_false, forall_eq_or_imp, forall_eq]
  exact ⟨regular_prim 8 3 .integer (.inl rfl) (by decide), regular_prim 4 2 .floatingPoint (.inr rfl) (by decide)⟩)

end Verif.MemLayout
