import Verif.StackFrame.Lemmas

/-!
# C23: variables that are live at the same time have disjoint stack slots
-/
namespace Verif.StackFrame
open Spec
open Verif (HMap)

/-- Ranges between `lo` and `hi`, pairwise disjoint. -/
structure Ranges (l : List (Int × Nat)) (lo hi : Int) : Prop where
  lo : ∀ r ∈ l, lo ≤ r.1
  hi : ∀ r ∈ l, r.1 + 8 * (r.2 : Int) ≤ hi
  disjoint : Disjoint l

theorem Ranges.append {X Y lo mid hi} (h : Ranges X mid hi) (h' : Ranges Y lo mid) (h1 : lo ≤ mid) (h2 : mid ≤ hi) : Ranges (X ++ Y) lo hi := by
  refine ⟨fun b hb => ?_, fun b hb => ?_, ?_⟩
  · exact (List.mem_append.1 hb).elim (fun hb => Int.le_trans h1 (h.lo b hb)) (h'.lo b)
  · exact (List.mem_append.1 hb).elim (h.hi b) (fun hb => Int.le_trans (h'.hi b hb) h2)
  · refine List.pairwise_append.2 ⟨h.disjoint, h'.disjoint, fun a ha b hb => .inr ?_⟩
    exact Int.le_trans (h'.hi b hb) (h.lo a ha)

theorem Ranges.weaken {X lo hi lo' hi'} (h : Ranges X lo hi) (hl : lo' ≤ lo) (hh : hi ≤ hi') : Ranges X lo' hi' :=
  ⟨fun b hb => Int.le_trans hl (h.lo b hb), fun b hb => Int.le_trans (h.hi b hb) hh, h.disjoint⟩

theorem Ranges.perm {X Y lo hi} (h : Ranges X lo hi) (hp : X.Perm Y) : Ranges Y lo hi :=
  ⟨fun b hb => h.lo b (hp.mem_iff.2 hb), fun b hb => h.hi b (hp.mem_iff.2 hb),
    (hp.pairwise_iff fun {_ _} h => Or.symm h).1 h.disjoint⟩

theorem Slots.ranges {m X lo hi} (h : Slots m X lo hi) : Ranges (X.map (slot m)) lo hi := by
  refine ⟨fun r hr => ?_, fun r hr => ?_, ?_⟩
  · obtain ⟨b, hb, rfl⟩ := List.mem_map.1 hr; exact h.lo b hb
  · obtain ⟨b, hb, rfl⟩ := List.mem_map.1 hr; exact h.hi b hb
  · exact List.pairwise_map.2 h.disjoint

/-- The variables of the environment of a function. -/
def Fun.envBinders (f : Fun) : List Binder := match f.env with | some (id, elems) => (id, 1) :: elems | none => []

/-- All variables of a function have different identifiers, and a macro has one parameter. -/
structure Fun.Valid (f : Fun) : Prop where
  nodup : (f.envBinders.map Prod.fst ++ f.params.map Prod.fst ++ binders f.body).Nodup
  macro_ : f.macro_ = true → f.params.length = 1

/-- The ranges of everything that holds a value at a moment of the evaluation of a function: environment, saved result address,
parameters, and the variables `X` bound in the body. -/
def live (f : Fun) (s : St) (X : List Binder) : List (Int × Nat) :=
  f.envBinders.map (slot s.varOffsets) ++ (s.retPtr.map fun o => (o, 1)).toList ++ f.params.map (slot s.varOffsets) ++ X.map (slot s.varOffsets)

theorem addParams_spec (ps : List Binder) : ∀ (s : St) (o : Int), (addParams s o ps).scopeVars = s.scopeVars ∧ (addParams s o ps).vars = s.vars ∧
    (addParams s o ps).retPtr = s.retPtr ∧ (addParams s o ps).allocs = s.allocs ∧
    ∀ id, id ∉ ps.map Prod.fst → HMap.get (addParams s o ps).varOffsets id = HMap.get s.varOffsets id := by
  induction ps with
  | nil => intro s o; exact ⟨rfl, rfl, rfl, rfl, fun _ _ => rfl⟩
  | cons p ps ih =>
    intro s o
    rw [addParams]
    obtain ⟨h1, h2, h3, h4, h5⟩ := ih { s with varOffsets := HMap.insert s.varOffsets p.1 (o - (p.2 : Int) * 8) } (o - (p.2 : Int) * 8)
    refine ⟨h1, h2, h3, h4, fun id hid => ?_⟩
    rw [List.map_cons, List.mem_cons, not_or] at hid
    rw [h5 id hid.2]
    show HMap.get (HMap.insert _ _ _) _ = _
    rw [HMap.get_insert, if_neg hid.1]

theorem slots_addParams (m : HMap Nat Int) (ps : List Binder) : ∀ (s : St) (o : Int), (ps.map Prod.fst).Nodup → Agree m (addParams s o ps).varOffsets (ps.map Prod.fst) →
    Slots m ps (o - 8 * (total (ps.map Prod.snd) : Int)) o := by
  induction ps with
  | nil => intro s o _ _; exact Slots.nil
  | cons p ps ih =>
    intro s o hnd hag
    rw [List.map_cons, List.nodup_cons] at hnd
    rw [addParams] at hag
    have hs := (addParams_spec ps { s with varOffsets := HMap.insert s.varOffsets p.1 (o - (p.2 : Int) * 8) } (o - (p.2 : Int) * 8)).2.2.2.2 p.1 hnd.1
    have hh := ih _ _ hnd.2 (fun id hid => hag id (by simp [hid]))
    rw [List.map_cons, total_cons]
    refine Slots.cons (o := o - (p.2 : Int) * 8) ?_ (hh.weaken (by push_cast; omega) (Int.le_refl _)) (by push_cast; omega) (by omega)
    rw [hag p.1 (by simp), hs]
    show HMap.get (HMap.insert _ _ _) _ = _
    rw [HMap.get_insert, if_pos rfl]

/-- The position of each parameter. -/
theorem param_position (m : HMap Nat Int) (ps : List Binder) : ∀ (s : St) (o : Int), (ps.map Prod.fst).Nodup → Agree m (addParams s o ps).varOffsets (ps.map Prod.fst) →
    ∀ pre p post, ps = pre ++ p :: post → HMap.get m p.1 = some (o - 8 * (total (pre.map Prod.snd) : Int) - 8 * (p.2 : Int)) := by
  induction ps with
  | nil => intro s o _ _ pre p post h; cases pre <;> cases h
  | cons q ps ih =>
    intro s o hnd hag pre p post h
    rw [List.map_cons, List.nodup_cons] at hnd
    rw [addParams] at hag
    cases pre with
    | nil =>
      obtain ⟨rfl, rfl⟩ := List.cons.inj h
      have hs := (addParams_spec ps { s with varOffsets := HMap.insert s.varOffsets q.1 (o - (q.2 : Int) * 8) } (o - (q.2 : Int) * 8)).2.2.2.2 q.1 hnd.1
      rw [hag q.1 (by simp), hs]
      show HMap.get (HMap.insert _ _ _) _ = _
      rw [HMap.get_insert, if_pos rfl, List.map_nil, total_nil]
      congr 1; simp; omega
    | cons q' pre =>
      obtain ⟨rfl, rfl⟩ := List.cons.inj h
      rw [ih _ _ hnd.2 (fun id hid => hag id (List.mem_cons_of_mem _ hid)) pre p post rfl, List.map_cons, total_cons]
      congr 1; push_cast; omega

/-- The state after the first two parts of `collectHeader`. -/
def header1 (f : Fun) : St := match f.env with
    | some (id, elems) => addVars (addVar {} (id, 1)) elems
    | none => {}
def header2 (f : Fun) : St := if f.retInMemory then
      let (offset, s) := allocate (header1 f) 1
      { s with retPtr := some offset }
    else header1 f

theorem collectHeader_eq (f : Fun) : collectHeader f = if f.macro_ then addVars (header2 f) (f.params.take 1)
    else addParams (header2 f) (16 + ((f.params.map (·.2)).foldl (· + ·) 0 : Nat) * 8) f.params := rfl

theorem header1_eq (f : Fun) : header1 f = addVars {} f.envBinders := by
  unfold header1 Fun.envBinders
  split <;> rfl

theorem header_facts {f : Fun} (hv : f.Valid) (m : HMap Nat Int)
    (hag : Agree m (collectHeader f).varOffsets (f.envBinders.map Prod.fst ++ f.params.map Prod.fst)) :
    (collectHeader f).scopeVars ≤ (collectHeader f).vars ∧
    (f.retInMemory = true ↔ (collectHeader f).retPtr ≠ none) ∧ (collectHeader f).allocs = 0 ∧
    (∀ b ∈ f.envBinders ++ f.params, ∃ o, HMap.get m b.1 = some o) ∧
    (f.macro_ = true → ∃ mid, mid ≤ 0 ∧ -8 * ((collectHeader f).scopeVars : Int) ≤ mid ∧
      Ranges (f.envBinders.map (slot m) ++ ((collectHeader f).retPtr.map fun o => (o, 1)).toList) mid 0 ∧
      Ranges (f.params.map (slot m)) (-8 * ((collectHeader f).scopeVars : Int)) mid) ∧
    (f.macro_ = false →
      Ranges (f.envBinders.map (slot m) ++ ((collectHeader f).retPtr.map fun o => (o, 1)).toList) (-8 * ((collectHeader f).scopeVars : Int)) 0 ∧
      Ranges (f.params.map (slot m)) 16 (16 + 8 * (total (f.params.map Prod.snd) : Int))) := by
  have hnd := (List.nodup_append.1 hv.nodup).1
  obtain ⟨hnd1, hnd2, hnd3⟩ := List.nodup_append.1 hnd
  have e1 := header1_eq f
  have st1 : Step {} (header1 f) (f.envBinders.map Prod.fst) 0 := by rw [e1]; exact step_addVars _ _
  have hb1 : (header1 f).scopeVars ≤ (header1 f).vars := st1.bound (Nat.le_refl _)
  -- the result address
  have h2 : (header2 f).scopeVars ≤ (header2 f).vars ∧ (header1 f).scopeVars ≤ (header2 f).scopeVars ∧ (header2 f).varOffsets = (header1 f).varOffsets ∧
      (f.retInMemory = true ↔ (header2 f).retPtr ≠ none) ∧ (header2 f).allocs = 0 ∧
      Ranges ((header2 f).retPtr.map fun o => (o, 1)).toList (-8 * ((header2 f).scopeVars : Int)) (-8 * ((header1 f).scopeVars : Int)) := by
    unfold header2
    cases hr : f.retInMemory with
    | false =>
      simp only [Bool.false_eq_true, if_false]
      have : (header1 f).retPtr = none := st1.ret
      rw [this]
      exact ⟨hb1, Nat.le_refl _, by first | trivial | rfl, by simp, st1.allocs, ⟨by simp, by simp, .nil⟩⟩
    | true =>
      simp only [if_true]
      refine ⟨Nat.le_max_right _ _, Nat.le_add_right _ _, by first | trivial | rfl, by simp, st1.allocs, ?_, ?_, ?_⟩
      · simp [allocate]
      · simp only [allocate, Option.map_some, Option.toList_some, List.mem_singleton, forall_eq]; push_cast; omega
      · exact List.pairwise_singleton _ _
  obtain ⟨hb2, hsc2, hvo2, hret2, hal2, hrng2⟩ := h2
  have env_slots : (∀ id ∈ f.envBinders.map Prod.fst, HMap.get m id = HMap.get (header1 f).varOffsets id) →
      Slots m f.envBinders (-8 * ((header1 f).scopeVars : Int)) 0 := by
    intro h
    have := slots_addVars m f.envBinders {} hnd1 (by rw [← e1]; exact h)
    rw [← e1] at this
    exact this
  rw [collectHeader_eq] at hag ⊢
  cases hm : f.macro_ with
  | true =>
    rw [hm, if_pos rfl] at hag
    rw [if_pos rfl]
    have htake : f.params.take 1 = f.params := List.take_of_length_le (by rw [hv.macro_ hm]; exact Nat.le_refl _)
    rw [htake] at hag ⊢
    have st3 := step_addVars f.params (header2 f)
    have hagp : Agree m (addVars (header2 f) f.params).varOffsets (f.params.map Prod.fst) := fun id hid => hag id (List.mem_append_right _ hid)
    have hp := slots_addVars m f.params (header2 f) hnd2 hagp
    have he := env_slots (fun id hid => by
      rw [hag id (List.mem_append_left _ hid), st3.get id (fun hc => hnd3 id hid id hc rfl), hvo2])
    have hsc3 := st3.scope
    refine ⟨st3.bound hb2, by rw [hret2, st3.ret], by rw [st3.allocs, hal2], ?_, fun _ => ?_, by simp⟩
    · intro b hb
      exact (List.mem_append.1 hb).elim (he.has b) (hp.has b)
    · refine ⟨-8 * ((header2 f).scopeVars : Int), by omega, by omega, ?_, hp.ranges⟩
      rw [st3.ret]
      exact Ranges.append he.ranges hrng2 (by omega) (by omega)
  | false =>
    rw [hm, if_neg (by simp)] at hag
    rw [if_neg (by simp)]
    have hsum : (f.params.map (·.2)).foldl (· + ·) 0 = total (f.params.map Prod.snd) := rfl
    rw [hsum] at hag ⊢
    obtain ⟨p1, p2, p3, p4, p5⟩ := addParams_spec f.params (header2 f) (16 + (total (f.params.map Prod.snd) : Nat) * 8)
    have hagp : Agree m (addParams (header2 f) (16 + (total (f.params.map Prod.snd) : Nat) * 8) f.params).varOffsets (f.params.map Prod.fst) :=
      fun id hid => hag id (List.mem_append_right _ hid)
    have hp := slots_addParams m f.params (header2 f) _ hnd2 hagp
    have he := env_slots (fun id hid => by
      rw [hag id (List.mem_append_left _ hid), p5 id (fun hc => hnd3 id hid id hc rfl), hvo2])
    rw [p1, p2, p3, p4]
    refine ⟨hb2, hret2, hal2, ?_, by simp, fun _ => ⟨?_, hp.ranges.weaken (by omega) (by omega)⟩⟩
    · intro b hb
      exact (List.mem_append.1 hb).elim (he.has b) (hp.has b)
    · exact Ranges.append he.ranges hrng2 (by omega) (by omega)

/-- Facts about the whole frame. -/
theorem frame_facts {f : Fun} (hv : f.Valid) {X : List Binder} (hr : Reach f.body X) :
    Agree (collect f).varOffsets (collectHeader f).varOffsets (f.envBinders.map Prod.fst ++ f.params.map Prod.fst) ∧
    Slots (collect f).varOffsets X (-8 * ((collect f).vars : Int)) (-8 * ((collectHeader f).scopeVars : Int)) ∧
    (collectHeader f).scopeVars ≤ (collect f).vars ∧ (collect f).retPtr = (collectHeader f).retPtr ∧
    (collect f).allocs = total (sites f.body) := by
  have st := step_traverse f.body (collectHeader f)
  obtain ⟨-, hnd2, hnd3⟩ := List.nodup_append.1 hv.nodup
  have hag : Agree (collect f).varOffsets (collectHeader f).varOffsets (f.envBinders.map Prod.fst ++ f.params.map Prod.fst) :=
    fun id hid => st.get id (fun hc => hnd3 id hid id hc rfl)
  obtain ⟨hb, -, hal, -⟩ := header_facts hv _ hag
  refine ⟨hag, slots_traverse _ f.body (collectHeader f) X hb hnd2 (fun _ _ => rfl) hr, Nat.le_trans hb st.vars, st.ret, ?_⟩
  rw [collect, st.allocs, hal, Nat.zero_add]

/-- C23: at every moment, everything that is live has a slot of its own: the slots do not overlap. -/
theorem live_disjoint {f : Fun} (hv : f.Valid) {X : List Binder} (hr : Reach f.body X) : Disjoint (live f (collect f) X) := by
  obtain ⟨hag, hX, hsc, hret, -⟩ := frame_facts hv hr
  obtain ⟨-, -, -, -, h1, h2⟩ := header_facts hv _ hag
  unfold live
  rw [hret]
  have key : ∃ lo hi, Ranges (f.envBinders.map (slot (collect f).varOffsets) ++ ((collectHeader f).retPtr.map fun o => (o, 1)).toList ++ f.params.map (slot (collect f).varOffsets)) lo hi ∧
      -8 * ((collectHeader f).scopeVars : Int) ≤ lo ∧ lo ≤ hi := by
    cases hm : f.macro_ with
    | true =>
      obtain ⟨mid, a, b, c, d⟩ := h1 hm
      exact ⟨_, _, Ranges.append c d b a, by omega, by omega⟩
    | false =>
      obtain ⟨a, b⟩ := h2 hm
      refine ⟨_, _, (Ranges.append b (a.weaken (Int.le_refl _) (by omega : (0:Int) ≤ 16)) (by omega) (by omega)).perm List.perm_append_comm, Int.le_refl _, by omega⟩
  obtain ⟨lo, hi, hk, hl, hlh⟩ := key
  have hXr := hX.ranges
  exact (Ranges.append (hk.weaken hl (Int.le_refl hi)) hXr (by omega) (by omega)).disjoint

/-- C23: every variable has a slot; those of the frame lie in the reserved area below the saved frame pointer, those of parameters above the
return address. -/
theorem live_in_frame {f : Fun} (hv : f.Valid) {X : List Binder} (hr : Reach f.body X) :
    (∀ b ∈ f.envBinders ++ f.params ++ X, ∃ o, HMap.get (collect f).varOffsets b.1 = some o) ∧
    (f.retInMemory = true ↔ (collect f).retPtr ≠ none) ∧
    (∀ r ∈ live f (collect f) X, (-8 * ((collect f).vars : Int) ≤ r.1 ∧ r.1 + 8 * (r.2 : Int) ≤ 0) ∨
      (16 ≤ r.1 ∧ r.1 + 8 * (r.2 : Int) ≤ 16 + 8 * (total (f.params.map Prod.snd) : Int))) := by
  obtain ⟨hag, hX, hsc, hret, -⟩ := frame_facts hv hr
  obtain ⟨-, hrm, -, hhas, h1, h2⟩ := header_facts hv _ hag
  refine ⟨fun b hb => (List.mem_append.1 hb).elim (hhas b) (hX.has b), by rw [hret]; exact hrm, fun r hr' => ?_⟩
  unfold live at hr'
  rw [hret] at hr'
  rw [List.mem_append, List.mem_append] at hr'
  have hXr := hX.ranges
  rcases hr' with (hr' | hr') | hr'
  · cases hm : f.macro_ with
    | true =>
      obtain ⟨mid, a, b, c, d⟩ := h1 hm
      have := c.lo r hr'; have := c.hi r hr'
      omega
    | false =>
      obtain ⟨a, b⟩ := h2 hm
      have := a.lo r hr'; have := a.hi r hr'
      omega
  · cases hm : f.macro_ with
    | true =>
      obtain ⟨mid, a, b, c, d⟩ := h1 hm
      have := d.lo r hr'; have := d.hi r hr'
      omega
    | false =>
      obtain ⟨a, b⟩ := h2 hm
      have := b.lo r hr'; have := b.hi r hr'
      omega
  · have := hXr.lo r hr'; have := hXr.hi r hr'
    omega

/-- C23: a parameter is read where the caller has put it.  The caller pushes the arguments from left to right, then comes the return
address (8 bytes), then the saved frame pointer, to which `rbp` points. -/
theorem param_where_pushed {f : Fun} (hv : f.Valid) (hm : f.macro_ = false) {pre post : List Binder} {p : Binder} (hp : f.params = pre ++ p :: post) :
    HMap.get (collect f).varOffsets p.1 = some (16 + 8 * (total (post.map Prod.snd) : Int)) := by
  obtain ⟨hag, -⟩ := frame_facts hv (X := []) .here
  have hnd := (List.nodup_append.1 hv.nodup).1
  obtain ⟨hnd1, hnd2, hnd3⟩ := List.nodup_append.1 hnd
  rw [collectHeader_eq, if_neg (by simp [hm])] at hag
  have hsum : (f.params.map (·.2)).foldl (· + ·) 0 = total (f.params.map Prod.snd) := rfl
  rw [hsum] at hag
  rw [param_position _ f.params (header2 f) _ hnd2 (fun id hid => hag id (List.mem_append_right _ hid)) pre p post hp]
  congr 1
  rw [hp, List.map_append, List.map_cons, total_append, total_cons]
  push_cast
  omega

theorem consumeAll_spec (ns : List Nat) : ∀ s : St, total ns ≤ s.allocs → ∃ l, consumeAll s ns = some l ∧ l.map Prod.snd = ns ∧
    Ranges l (-8 * ((s.vars + total ns : Nat) : Int)) (-8 * (s.vars : Int)) := by
  induction ns with
  | nil => intro s _; exact ⟨[], rfl, rfl, by simp, by simp, .nil⟩
  | cons n ns ih =>
    intro s h
    rw [total_cons] at h ⊢
    obtain ⟨l, h1, h2, h3⟩ := ih { s with vars := s.vars + n, allocs := s.allocs - n } (by show total ns ≤ s.allocs - n; omega)
    refine ⟨(-8 * ((s.vars + n : Nat) : Int), n) :: l, ?_, by simp [h2], ?_⟩
    · rw [consumeAll, consume, if_pos (by omega)]
      show (do let r ← consumeAll _ ns; some _) = _
      rw [h1]; rfl
    · refine Ranges.append (X := [_]) (mid := -8 * ((s.vars + n : Nat) : Int)) ⟨by simp, ?_, List.pairwise_singleton _ _⟩ (h3.weaken ?_ (Int.le_refl _)) ?_ ?_
      · simp only [List.mem_singleton, forall_eq]; push_cast; omega
      · show _ ≤ -8 * ((s.vars + n + total ns : Nat) : Int); omega
      · omega
      · omega

/-- C23: the static stack allocations of a function, for whichever of its sites code is generated and in any order, never exhaust the reserved
area, lie inside it, and overlap neither each other nor anything that is live. -/
theorem allocations_disjoint {f : Fun} (hv : f.Valid) {ns rest : List Nat} (hns : (ns ++ rest).Perm (sites f.body)) {X : List Binder} (hr : Reach f.body X) :
    ∃ l, consumeAll (collect f) ns = some l ∧ l.map Prod.snd = ns ∧ Disjoint (live f (collect f) X ++ l) ∧
      ∀ r ∈ l, -8 * ((collect f).reserved : Int) ≤ r.1 := by
  obtain ⟨-, -, -, -, hal⟩ := frame_facts hv hr
  have ht : total (ns ++ rest) = total (sites f.body) := by
    have : ∀ {a b : List Nat}, a.Perm b → total a = total b := by
      intro a b h
      induction h with
      | nil => rfl
      | cons x _ ih => rw [total_cons, total_cons, ih]
      | swap x y l => rw [total_cons, total_cons, total_cons, total_cons]; omega
      | trans _ _ h1 h2 => rw [h1, h2]
    exact this hns
  rw [total_append] at ht
  obtain ⟨l, h1, h2, h3⟩ := consumeAll_spec ns (collect f) (by omega)
  refine ⟨l, h1, h2, ?_, fun r hr' => ?_⟩
  · refine List.pairwise_append.2 ⟨live_disjoint hv hr, h3.disjoint, fun a ha b hb => .inr ?_⟩
    have hl := (live_in_frame hv hr).2.2 a ha
    have := h3.hi b hb
    omega
  · have := h3.lo r hr'
    unfold St.reserved
    omega

/-- A function with an environment, a result in memory and two parameters whose body is
`let a = …, b = (let t = … in …) in letcont k(p, q) = (let c = … in …) in (let d = … in alloc …)`. -/
def sample : Fun where
  env := some (0, [(1, 2)])
  retInMemory := true
  macro_ := false
  params := [(2, 1), (3, 3)]
  body := .letVar (.cons (4, 1) (.node .nil) (.cons (5, 2) (.letVar (.cons (6, 1) (.node .nil) .nil) (.node .nil)) .nil))
    (.letCont (.cons [(7, 1), (8, 2)] (.letVar (.cons (9, 1) (.node .nil) .nil) (.node .nil)) .nil)
      (.letVar (.cons (10, 1) (.node .nil) .nil) (.alloc 2 (.node .nil))))

theorem sample_valid : sample.Valid := ⟨by decide, by simp [sample]⟩

/-- All of `a`, `b`, `p`, `q`, `d` at once: a jump to `k` from within the scope of `d`. -/
example : Reach sample.body [(4, 1), (5, 2), (7, 1), (8, 2), (10, 1)] :=
  .letVar (.next (.next (.body (.letContArgs .head (.letVar (.next (.body .here)))))))

example : (collect sample).vars = 12 ∧ (collect sample).allocs = 2 ∧ HMap.get (collect sample).varOffsets 2 = some 40 ∧
    HMap.get (collect sample).varOffsets 8 = some (-88) ∧ consumeAll (collect sample) [2] = some [(-112, 2)] := by decide

end Verif.StackFrame
