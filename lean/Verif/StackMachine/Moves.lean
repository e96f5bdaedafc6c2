import Verif.StackMachine.Lemmas
/-! # Loading, storing and sliding whole values -/
namespace Verif.StackMachine

open Verif.MemLayout Spec

theorem flat_append (xs ys : List Code) : Code.flat (xs ++ ys) = (Code.flat xs).cat (Code.flat ys) := by
  induction xs with
  | nil => simp [Code.flat, Code.cat]
  | cons x xs ih => simp [Code.flat, Code.cat, ih, Int.add_assoc]

theorem ea_offset (s : St) (a : Addr) (k : Int) : s.ea (a.offset k) = s.ea a + k := by
  obtain ⟨b, o⟩ := a
  cases b <;> simp [St.ea, St.base, Addr.offset] <;> omega

theorem ea_keep {s s' : St} {a : Addr} (ha : a.1 ≠ .rsp) (hk : Keeps s s') : s'.ea a = s.ea a := by
  obtain ⟨b, o⟩ := a
  cases b
  · exact absurd rfl ha
  · simp [St.ea, St.base, hk.rbp]
  · simp [St.ea, St.base, hk.rdi]

theorem Keeps.trans {a b c : St} (h1 : Keeps a b) (h2 : Keeps b c) : Keeps a c :=
  ⟨by rw [h2.rbp, h1.rbp], by rw [h2.rdi, h1.rdi]⟩

/-- Pushing chunks from memory. -/
theorem memLoad_spec (a : Addr) (ha : a.1 ≠ .rsp) (sz : Nat → Nat) : ∀ (n : Nat) (_ : ∀ i < n, sz i ≤ 8) (s : St),
    ∃ s', exec (Code.flat ((List.range n).reverse.map fun i => (gprLoad tmp2 (a.offset ((i * 8 : Nat) : Int)) (sz i) ++ regPush (.gpr tmp2), 1))).1 s = some s' ∧
      (Code.flat ((List.range n).reverse.map fun i => (gprLoad tmp2 (a.offset ((i * 8 : Nat) : Int)) (sz i) ++ regPush (.gpr tmp2), 1))).2 = n ∧
      s'.rsp = s.rsp - 8 * n ∧ Keeps s s' ∧ (∀ x, s.rsp ≤ x → s'.mem x = s.mem x) ∧
      (∀ i < n, ∀ j < sz i, s.rsp ≤ s.ea a + (i * 8 : Nat) + j → s'.mem (s'.rsp + (i * 8 : Nat) + j) = s.mem (s.ea a + (i * 8 : Nat) + j)) := by
  intro n
  induction n with
  | zero => intro _ s; exact ⟨s, rfl, rfl, by omega, ⟨rfl, rfl⟩, fun _ _ => rfl, fun i hi => absurd hi (by omega)⟩
  | succ n ih =>
    intro hsz s
    obtain ⟨s1, he, hb, -, -, hm, hs, hbp, hdi⟩ := gprLoad_spec tmp2 (by decide) (a.offset ((n * 8 : Nat) : Int)) (sz n) (hsz n (by omega)) s
    let s2 : St := { s1 with rsp := s1.rsp - 8, mem := setMem s1.mem (s1.rsp - 8) 8 (s1.gpr tmp2) }
    have hk2 : Keeps s s2 := ⟨hbp, hdi⟩
    have he2 : exec (gprLoad tmp2 (a.offset ((n * 8 : Nat) : Int)) (sz n) ++ regPush (.gpr tmp2)) s = some s2 := exec_append_some he rfl
    obtain ⟨s', he', hd', hs', hk', hmem', hv'⟩ := ih (fun i hi => hsz i (by omega)) s2
    have hrsp2 : s2.rsp = s.rsp - 8 := by show s1.rsp - 8 = _; rw [hs]
    have hmem2 : ∀ x, s.rsp ≤ x → s2.mem x = s.mem x := by
      intro x hx
      show setMem _ _ _ _ x = _
      rw [setMem_out (by omega), hm]
    rw [List.range_succ, List.reverse_append, List.reverse_singleton, List.singleton_append, List.map_cons]
    refine ⟨s', exec_append_some he2 he', ?_, ?_, hk2.trans hk', ?_, ?_⟩
    · simp only [Code.flat, Code.cat]
      rw [hd']; omega
    · rw [hs', hrsp2]; omega
    · intro x hx
      rw [hmem' x (by omega), hmem2 x hx]
    · intro i hi j hj hle
      by_cases hin : i < n
      · have := hv' i hin j hj (by rw [ea_keep ha hk2]; omega)
        rw [this, ea_keep ha hk2, hmem2 _ hle]
      · have hin : i = n := by omega
        subst hin
        have h8 := hsz i (by omega)
        rw [hmem' _ (by rw [hs']; omega)]
        show setMem _ _ _ _ _ = _
        rw [setMem_at j (by rw [hs', hrsp2, hs]; omega) (by omega), hb j hj, ea_offset]

/-- Popping chunks to memory above the popped part of the stack. -/
theorem memStore_spec (a : Addr) (ha : a.1 ≠ .rsp) (sz : Nat → Nat) : ∀ (n : Nat) (_ : ∀ i < n, sz i ≤ 8) (s : St) (_ : s.rsp + 8 * n ≤ s.ea a),
    ∃ s', exec (Code.flat ((List.range n).map fun i => (regPop (.gpr tmp2) ++ gprStore tmp2 (a.offset ((i * 8 : Nat) : Int)) (sz i), -1))).1 s = some s' ∧
      (Code.flat ((List.range n).map fun i => (regPop (.gpr tmp2) ++ gprStore tmp2 (a.offset ((i * 8 : Nat) : Int)) (sz i), -1))).2 = -n ∧
      s'.rsp = s.rsp + 8 * n ∧ Keeps s s' ∧
      (∀ x, (∀ i < n, ¬ (s.ea a + (i * 8 : Nat) ≤ x ∧ x < s.ea a + (i * 8 : Nat) + sz i)) → s'.mem x = s.mem x) ∧
      (∀ i < n, ∀ j < sz i, s'.mem (s.ea a + (i * 8 : Nat) + j) = s.mem (s.rsp + (i * 8 : Nat) + j)) := by
  intro n
  induction n with
  | zero => intro _ s _; exact ⟨s, rfl, rfl, by omega, ⟨rfl, rfl⟩, fun _ _ => rfl, fun i hi => absurd hi (by omega)⟩
  | succ n ih =>
    intro hsz s hle
    obtain ⟨s1, he1, hd1, hs1, hk1, hm1, hv1⟩ := ih (fun i hi => hsz i (by omega)) s (by omega)
    let s2 : St := { s1 with rsp := s1.rsp + 8, gpr := upd s1.gpr tmp2 fun i => s1.mem (s1.rsp + i) }
    have hk2 : Keeps s s2 := hk1.trans ⟨rfl, rfl⟩
    obtain ⟨s', he', hm', -, -, hs', hbp, hdi⟩ := gprStore_spec tmp2 (a.offset ((n * 8 : Nat) : Int)) (sz n) (hsz n (by omega)) s2
    have hea : s2.ea (a.offset ((n * 8 : Nat) : Int)) = s.ea a + (n * 8 : Nat) := by rw [ea_offset, ea_keep ha hk2]
    rw [hea] at hm'
    have hrsp2 : s2.rsp = s.rsp + 8 * n + 8 := by show s1.rsp + 8 = _; rw [hs1]
    have hstep : exec (regPop (.gpr tmp2) ++ gprStore tmp2 (a.offset ((n * 8 : Nat) : Int)) (sz n)) s1 = some s' :=
      exec_append_some (t := s2) rfl he'
    rw [List.range_succ, List.map_append, flat_append]
    refine ⟨s', ?_, ?_, ?_, hk2.trans ⟨hbp, hdi⟩, ?_, ?_⟩
    · simp only [Code.cat, List.map_cons, List.map_nil, Code.flat, List.append_nil]
      exact exec_append_some he1 hstep
    · simp only [Code.cat, List.map_cons, List.map_nil, Code.flat]
      rw [hd1]; omega
    · rw [hs', hrsp2]; omega
    · intro x hx
      rw [hm', setMem_out (by have := hx n (by omega); omega)]
      exact hm1 x fun i hi => hx i (by omega)
    · intro i hi j hj
      rw [hm']
      by_cases hin : i < n
      · have h8 := hsz i (by omega)
        rw [setMem_out (by omega)]
        exact hv1 i hin j hj
      · have hin : i = n := by omega
        subst hin
        rw [setMem_at j (by omega) hj]
        show upd s1.gpr tmp2 (fun i => s1.mem (s1.rsp + i)) tmp2 j = _
        rw [upd_same]
        have h8 := hsz i (by omega)
        rw [hm1 _ (fun i' hi' => by have := hsz i' (by omega); omega), hs1]
        congr 1
        omega

theorem eightbytes_mem (l : Layout) (f : Nat → Nat → Code) :
    l.eightbytes.map (fun e => f e.offset e.size) = (List.range l.numEightbytes).map fun i => f (i * 8) (min (l.size - i * 8) 8) := by
  unfold Layout.eightbytes
  rw [List.map_map]
  rfl

theorem eightbytes_mem_reverse (l : Layout) (f : Nat → Nat → Code) :
    l.eightbytes.reverse.map (fun e => f e.offset e.size) = (List.range l.numEightbytes).reverse.map fun i => f (i * 8) (min (l.size - i * 8) 8) := by
  rw [List.map_reverse, eightbytes_mem, List.map_reverse]

theorem num_mul (l : Layout) : l.size ≤ l.numEightbytes * 8 ∧ l.numEightbytes * 8 < l.size + 8 := by
  unfold Layout.numEightbytes; omega

/-- C54: loading makes the bytes at the address the last value, whatever is there beyond them. -/
theorem load_spec {l : Layout} (hl : Shape l) {a : Addr} (ha : a.1 ≠ .rsp) {s : St} {v : Val}
    (hv : ∀ i < l.size, ∀ b, v i = some b → s.rsp ≤ s.ea a + i ∧ s.mem (s.ea a + i) = b) :
    ∃ s', exec (load a l).1 s = some s' ∧ Held l s' v ∧ s'.rsp = s.rsp - l.sizeInStack true ∧
      s'.rsp = s.rsp - 8 * (load a l).2 ∧ (∀ x, s.rsp ≤ x → s'.mem x = s.mem x) ∧ s'.rbp = s.rbp := by
  cases hl with
  | void h0 hc =>
    have hn : build l gps fps = none := build_none (.inl hc)
    refine ⟨s, ?_, held_void hc, ?_, ?_, fun _ _ => rfl, rfl⟩
    · simp [load, hn, hc, exec]
    · rw [sizeInStack_reg (by rw [hc]; simp)]; omega
    · simp [load, hn, hc]
  | mem hc =>
    have hn : build l gps fps = none := build_none (.inr hc)
    obtain ⟨s', he, hd, hs, hk, hm, hb⟩ := memLoad_spec a ha (fun i => min (l.size - i * 8) 8) l.numEightbytes (fun i _ => by omega) s
    have hcode : load a l = Code.flat ((List.range l.numEightbytes).reverse.map fun i =>
        (gprLoad tmp2 (a.offset ((i * 8 : Nat) : Int)) (min (l.size - i * 8) 8) ++ regPush (.gpr tmp2), 1)) := by
      rw [← eightbytes_mem_reverse l fun o z => (gprLoad tmp2 (a.offset (o : Int)) z ++ regPush (.gpr tmp2), 1)]
      simp [load, hn, hc]
    rw [← hcode] at he hd
    refine ⟨s', he, ?_, ?_, ?_, hm, hk.rbp⟩
    · rw [held_mem hc]
      intro i hi b hvi
      obtain ⟨h1, h2⟩ := hv i hi b hvi
      have hnm := num_mul l
      have := hb (i / 8) (by omega) (i % 8) (by omega) (by omega)
      rw [show s'.rsp + ((i / 8 * 8 : Nat) : Int) + ((i % 8 : Nat) : Int) = s'.rsp + i by omega,
        show s.ea a + ((i / 8 * 8 : Nat) : Int) + ((i % 8 : Nat) : Int) = s.ea a + i by omega] at this
      rw [this, h2]
    · rw [hs, sizeInStack_mem hc]; omega
    · rw [hs, hd]
  | one r g f hb h0 h8 hr hc =>
    obtain ⟨s', he, hb', hq, hm, hs, hk⟩ := regLoad_spec hr (a.offset 0) h8 s
    refine ⟨s', ?_, ?_, ?_, ?_, fun _ _ => by rw [hm], hk.rbp⟩
    · simpa [load, hb, Code.flat, Code.cat] using he
    · rw [held_one hb hc]
      intro i hi b hvi
      rw [hb' i hi, ea_offset, Int.add_zero]
      exact (hv i hi b hvi).2
    · rw [hs, sizeInStack_reg hc]; omega
    · simp [load, hb, Code.flat, Code.cat, hs]
  | two r1 r2 g f hb h0 h16 hr1 hr2 hne hc =>
    obtain ⟨s1, he1, hb1, hq1, hm1, hs1, hk1⟩ := regLoad_spec hr1 (a.offset 0) (Nat.le_refl 8) s
    obtain ⟨s2, he2, hb2, hq2, hm2, hs2, hk2⟩ := regLoad_spec hr2 (a.offset 8) (n := l.size - 8) (by omega) s1
    refine ⟨s2, ?_, ?_, ?_, ?_, fun _ _ => by rw [hm2, hm1], by rw [hk2.rbp, hk1.rbp]⟩
    · simpa [load, hb, Code.flat, Code.cat] using exec_append_some he1 he2
    · rw [held_two hb hc]
      refine ⟨fun i hi b hvi => ?_, fun i hi b hvi => ?_⟩
      · rw [hq2 r1 hr1 hne, hb1 i hi, ea_offset, Int.add_zero]
        exact (hv i (by omega) b hvi).2
      · rw [hb2 i hi, hm1, ea_offset, ea_keep ha hk1]
        rw [← (hv (8 + i) (by omega) b hvi).2]
        congr 1
        omega
    · rw [hs2, hs1, sizeInStack_reg hc]; omega
    · simp [load, hb, Code.flat, Code.cat, hs1, hs2]

/-- C54: storing writes the bytes of the last value to the address, and nothing else. -/
theorem store_spec {l : Layout} (hl : Shape l) {a : Addr} (ha : a.1 ≠ .rsp) {s : St} {v : Val} (hv : Held l s v)
    (hle : l.cls = .memory → s.rsp + l.numEightbytes * 8 ≤ s.ea a) :
    ∃ s', exec (store a l).1 s = some s' ∧ (∀ i < l.size, ∀ b, v i = some b → s'.mem (s.ea a + i) = b) ∧
      (∀ x, x < s.ea a ∨ s.ea a + l.size ≤ x → s'.mem x = s.mem x) ∧ s'.rsp = s.rsp + l.sizeInStack true ∧
      s'.rsp = s.rsp - 8 * (store a l).2 ∧ s'.rbp = s.rbp := by
  cases hl with
  | void h0 hc =>
    have hn : build l gps fps = none := build_none (.inl hc)
    refine ⟨s, ?_, fun i hi => absurd hi (by omega), fun _ _ => rfl, ?_, ?_, rfl⟩
    · simp [store, hn, hc, exec]
    · rw [sizeInStack_reg (by rw [hc]; simp)]; omega
    · simp [store, hn, hc]
  | mem hc =>
    have hn : build l gps fps = none := build_none (.inr hc)
    obtain ⟨s', he, hd, hs, hk, hm, hb⟩ := memStore_spec a ha (fun i => min (l.size - i * 8) 8) l.numEightbytes (fun i _ => by omega) s
      (by have := hle hc; omega)
    have hcode : store a l = Code.flat ((List.range l.numEightbytes).map fun i =>
        (regPop (.gpr tmp2) ++ gprStore tmp2 (a.offset ((i * 8 : Nat) : Int)) (min (l.size - i * 8) 8), -1)) := by
      rw [← eightbytes_mem l fun o z => (regPop (.gpr tmp2) ++ gprStore tmp2 (a.offset (o : Int)) z, -1)]
      simp [store, hn, hc]
    rw [← hcode] at he hd
    have hnm := num_mul l
    refine ⟨s', he, ?_, ?_, ?_, ?_, hk.rbp⟩
    · intro i hi b hvi
      have := hb (i / 8) (by omega) (i % 8) (by omega)
      rw [show s.rsp + ((i / 8 * 8 : Nat) : Int) + ((i % 8 : Nat) : Int) = s.rsp + i by omega,
        show s.ea a + ((i / 8 * 8 : Nat) : Int) + ((i % 8 : Nat) : Int) = s.ea a + i by omega] at this
      rw [this]
      exact (held_mem hc).1 hv i hi b hvi
    · intro x hx
      exact hm x fun i hi => by omega
    · rw [hs, sizeInStack_mem hc]; omega
    · rw [hs, hd]; omega
  | one r g f hb h0 h8 hr hc =>
    obtain ⟨s', he, hm, hq, hs, hk⟩ := regStore_spec hr (a.offset 0) h8 s
    rw [ea_offset, Int.add_zero] at hm
    refine ⟨s', ?_, ?_, ?_, ?_, ?_, hk.rbp⟩
    · simpa [store, hb, Code.flat, Code.cat] using he
    · intro i hi b hvi
      rw [hm, setMem_at i rfl hi]
      exact (held_one hb hc).1 hv i hi b hvi
    · intro x hx
      rw [hm, setMem_out hx]
    · rw [hs, sizeInStack_reg hc]; omega
    · simp [store, hb, Code.flat, Code.cat, hs]
  | two r1 r2 g f hb h0 h16 hr1 hr2 hne hc =>
    obtain ⟨s1, he1, hm1, hq1, hs1, hk1⟩ := regStore_spec hr1 (a.offset 0) (Nat.le_refl 8) s
    obtain ⟨s2, he2, hm2, hq2, hs2, hk2⟩ := regStore_spec hr2 (a.offset 8) (n := l.size - 8) (by omega) s1
    rw [ea_offset, Int.add_zero] at hm1
    rw [ea_offset, ea_keep ha hk1] at hm2
    obtain ⟨h1, h2⟩ := (held_two hb hc).1 hv
    refine ⟨s2, ?_, ?_, ?_, ?_, ?_, by rw [hk2.rbp, hk1.rbp]⟩
    · simpa [store, hb, Code.flat, Code.cat] using exec_append_some he1 he2
    · intro i hi b hvi
      rw [hm2]
      by_cases hi8 : i < 8
      · rw [setMem_out (by omega), hm1, setMem_at i rfl hi8]
        exact h1 i hi8 b hvi
      · rw [setMem_at (i - 8) (by omega) (by omega), hq1 r2 hr2 (fun h => hne h.symm)]
        exact h2 (i - 8) (by omega) b (by rw [show 8 + (i - 8) = i by omega]; exact hvi)
    · intro x hx
      rw [hm2, setMem_out (by omega), hm1, setMem_out (by omega)]
    · rw [hs2, hs1, sizeInStack_reg hc]; omega
    · simp [store, hb, Code.flat, Code.cat, hs1, hs2]

/-! ## Sliding -/

theorem slideOne_spec (src dst : Nat) (l : Layout) (i : Nat) (s : St) :
    ∃ s', exec (slideOne src dst l i) s = some s' ∧ s'.rsp = s.rsp ∧ s'.rbp = s.rbp ∧
      ∀ x, s'.mem x = setMem s.mem (s.rsp + dst + i * 8) (min (l.size - i * 8) 8) (fun j => if j < min (l.size - i * 8) 8 then s.mem (s.rsp + src + i * 8 + j) else 0) x := by
  obtain ⟨s1, he1, hb1, -, -, hm1, hs1, hbp1, -⟩ := gprLoad_spec tmp2 (by decide) (.rsp, src + i * 8) (min (l.size - i * 8) 8) (by omega) s
  obtain ⟨s2, he2, hm2, -, -, hs2, hbp2, -⟩ := gprStore_spec tmp2 (.rsp, dst + i * 8) (min (l.size - i * 8) 8) (by omega) s1
  refine ⟨s2, exec_append_some he1 he2, by rw [hs2, hs1], by rw [hbp2, hbp1], ?_⟩
  intro x
  rw [hm2, hm1]
  have hea : s1.ea (.rsp, ((dst : Int) + (i : Int) * 8)) = s.rsp + dst + i * 8 := by simp [St.ea, St.base, hs1]; omega
  rw [hea]
  unfold setMem
  split
  · next hx =>
    simp only []
    rw [if_pos (by omega), hb1 _ (by omega)]
    simp only [St.ea, St.base]
    congr 1
    omega
  · rfl

theorem slide_up (src dst : Nat) (h : src < dst) (l : Layout) : ∀ (k : Nat) (s : St),
    ∃ s', exec (((List.range k).reverse).map (slideOne src dst l)).flatten s = some s' ∧ s'.rsp = s.rsp ∧ s'.rbp = s.rbp ∧
      (∀ i : Nat, i < 8 * k → i < l.size → s'.mem (s.rsp + dst + i) = s.mem (s.rsp + src + i)) ∧
      (∀ x, (x < s.rsp + dst ∨ s.rsp + dst + 8 * k ≤ x ∨ s.rsp + dst + l.size ≤ x) → s'.mem x = s.mem x) := by
  intro k
  induction k with
  | zero => intro s; exact ⟨s, rfl, rfl, rfl, fun i hi => absurd hi (by omega), fun _ _ => rfl⟩
  | succ k ih =>
    intro s
    obtain ⟨s1, he1, hs1, hbp1, hm1⟩ := slideOne_spec src dst l k s
    obtain ⟨s2, he2, hs2, hbp2, hv2, hm2⟩ := ih s1
    rw [List.range_succ, List.reverse_append, List.reverse_singleton, List.singleton_append, List.map_cons, List.flatten_cons]
    rw [hs1] at hv2 hm2
    refine ⟨s2, exec_append_some he1 he2, by rw [hs2, hs1], by rw [hbp2, hbp1], ?_, ?_⟩
    · intro i hi hil
      by_cases hik : i < 8 * k
      · rw [hv2 i hik hil, hm1, setMem_out (by omega)]
      · rw [hm2 _ (by omega), hm1, setMem_at (i - 8 * k) (by omega) (by omega), if_pos (by omega)]
        congr 1
        omega
    · intro x hx
      rw [hm2 x (by omega), hm1, setMem_out (by omega)]

theorem slide_down (src dst : Nat) (h : dst < src) (l : Layout) : ∀ (k : Nat) (s : St),
    ∃ s', exec ((List.range k).map (slideOne src dst l)).flatten s = some s' ∧ s'.rsp = s.rsp ∧ s'.rbp = s.rbp ∧
      (∀ i : Nat, i < 8 * k → i < l.size → s'.mem (s.rsp + dst + i) = s.mem (s.rsp + src + i)) ∧
      (∀ x, (x < s.rsp + dst ∨ s.rsp + dst + 8 * k ≤ x ∨ s.rsp + dst + l.size ≤ x) → s'.mem x = s.mem x) := by
  intro k
  induction k with
  | zero => intro s; exact ⟨s, rfl, rfl, rfl, fun i hi => absurd hi (by omega), fun _ _ => rfl⟩
  | succ k ih =>
    intro s
    obtain ⟨s1, he1, hs1, hbp1, hv1, hm1⟩ := ih s
    obtain ⟨s2, he2, hs2, hbp2, hm2⟩ := slideOne_spec src dst l k s1
    rw [List.range_succ, List.map_append, List.flatten_append]
    rw [hs1] at hm2
    refine ⟨s2, ?_, by rw [hs2, hs1], by rw [hbp2, hbp1], ?_, ?_⟩
    · refine exec_append_some he1 ?_
      simpa using he2
    · intro i hi hil
      rw [hm2]
      by_cases hik : i < 8 * k
      · rw [setMem_out (by omega), hv1 i hik hil]
      · rw [setMem_at (i - 8 * k) (by omega) (by omega), if_pos (by omega), hm1 _ (by omega)]
        congr 1
        omega
    · intro x hx
      rw [hm2, setMem_out (by omega), hm1 x (by omega)]

/-- C54: sliding moves the bytes even if the two places overlap. -/
theorem slide_spec (src dst : Nat) (l : Layout) (s : St) :
    ∃ s', exec (slideInStack src dst l).1 s = some s' ∧ (slideInStack src dst l).2 = 0 ∧ s'.rsp = s.rsp ∧ s'.rbp = s.rbp ∧
      (∀ i : Nat, i < l.size → s'.mem (s.rsp + dst + i) = s.mem (s.rsp + src + i)) ∧
      (∀ x, (x < s.rsp + dst ∨ s.rsp + dst + l.size ≤ x) → s'.mem x = s.mem x) := by
  have hnm := num_mul l
  unfold slideInStack
  split
  · next h => subst h; exact ⟨s, rfl, rfl, rfl, rfl, fun _ _ => rfl, fun _ _ => rfl⟩
  · next h1 =>
    split
    · next h =>
      obtain ⟨s', h1, h2, h3, h4, h5⟩ := slide_up src dst h l l.numEightbytes s
      exact ⟨s', h1, rfl, h2, h3, fun i hi => h4 i (by omega) hi, fun x hx => h5 x (by omega)⟩
    · next h =>
      obtain ⟨s', h1, h2, h3, h4, h5⟩ := slide_down src dst (by omega) l l.numEightbytes s
      exact ⟨s', h1, rfl, h2, h3, fun i hi => h4 i (by omega) hi, fun x hx => h5 x (by omega)⟩

theorem extend_spec (l : Layout) (s : St) : exec (extendStack l).1 s = some { s with rsp := s.rsp - l.numEightbytes * 8 } ∧
    (extendStack l).2 = l.numEightbytes := by
  unfold extendStack
  split
  · exact ⟨by simp [exec, step], rfl⟩
  · next h =>
    have : l.numEightbytes = 0 := by unfold Layout.numEightbytes; omega
    rw [this]
    refine ⟨?_, rfl⟩
    simp [exec]

theorem shrink_spec (l : Layout) (s : St) : exec (shrinkStack l).1 s = some { s with rsp := s.rsp + l.numEightbytes * 8 } ∧
    (shrinkStack l).2 = -(l.numEightbytes : Int) := by
  unfold shrinkStack
  split
  · exact ⟨by simp [exec, step], rfl⟩
  · next h =>
    have : l.numEightbytes = 0 := by unfold Layout.numEightbytes; omega
    rw [this]
    refine ⟨?_, rfl⟩
    simp [exec]

theorem num_memory (k : Nat) : (Layout.memory (k * 8) 8).numEightbytes = k := by
  unfold Layout.numEightbytes
  have : (Layout.memory (k * 8) 8).size = Layout.padTo (k * 8) 8 := rfl
  rw [this, padTo_eq_self ⟨k, by omega⟩]
  omega

end Verif.StackMachine
