import Verif.StackFrame.Spec

namespace Verif.StackFrame
open Spec
open Verif (HMap)

/-- Sum of a list. -/
def total (l : List Nat) : Nat := l.foldl (· + ·) 0

theorem foldl_add (l : List Nat) : ∀ x, l.foldl (· + ·) x = x + total l := by
  unfold total
  induction l with
  | nil => intro x; simp
  | cons a l ih => intro x; rw [List.foldl_cons, List.foldl_cons, ih, ih (0 + a)]; omega

theorem total_cons (a : Nat) (l : List Nat) : total (a :: l) = a + total l := by
  unfold total; rw [List.foldl_cons, foldl_add]; unfold total; omega

theorem total_append (a b : List Nat) : total (a ++ b) = total a + total b := by
  unfold total; rw [List.foldl_append, foldl_add]; rfl

theorem total_nil : total [] = 0 := rfl

/-! ### Effect of the builder on the counters -/

/-- What a step of the builder preserves: `bs` are the variables it binds, `al` its allocations. -/
structure Step (s s' : St) (bs : List Nat) (al : Nat) : Prop where
  vars : s.vars ≤ s'.vars
  scope : s.scopeVars ≤ s'.scopeVars
  bound : s.scopeVars ≤ s.vars → s'.scopeVars ≤ s'.vars
  get : ∀ id, id ∉ bs → HMap.get s'.varOffsets id = HMap.get s.varOffsets id
  ret : s'.retPtr = s.retPtr
  allocs : s'.allocs = s.allocs + al

theorem Step.trans {s s' s'' : St} {bs cs : List Nat} {a b : Nat} (h : Step s s' bs a) (h' : Step s' s'' cs b) : Step s s'' (bs ++ cs) (a + b) :=
  ⟨Nat.le_trans h.vars h'.vars, Nat.le_trans h.scope h'.scope, fun hb => h'.bound (h.bound hb),
    fun id hid => by rw [List.mem_append, not_or] at hid; rw [h'.get id hid.2, h.get id hid.1], by rw [h'.ret, h.ret], by rw [h'.allocs, h.allocs]; omega⟩

theorem Step.refl (s : St) : Step s s [] 0 := ⟨Nat.le_refl _, Nat.le_refl _, id, fun _ _ => rfl, rfl, rfl⟩

theorem step_addVar (s : St) (b : Binder) : Step s (addVar s b) [b.1] 0 := by
  refine ⟨?_, ?_, fun _ => ?_, fun id hid => ?_, rfl, rfl⟩
  · exact Nat.le_max_left _ _
  · exact Nat.le_add_right _ _
  · exact Nat.le_max_right _ _
  · show HMap.get (HMap.insert _ _ _) id = _
    rw [HMap.get_insert, if_neg (by simpa using hid)]

theorem step_addVars (bs : List Binder) : ∀ s, Step s (addVars s bs) (bs.map Prod.fst) 0 := by
  induction bs with
  | nil => intro s; exact Step.refl s
  | cons b bs ih => intro s; exact (step_addVar s b).trans (ih _)

mutual
theorem step_traverse : ∀ (e : Rt) (s : St), Step s (traverse s e) (binders e) (total (sites e))
  | .node es, s => by rw [traverse, binders, sites]; exact step_traverses es s
  | .alloc n e, s => by
    rw [traverse, binders, sites, total_cons]
    have h := step_traverse e { s with allocs := s.allocs + n }
    exact ⟨h.vars, h.scope, h.bound, h.get, h.ret, by rw [h.allocs]; show s.allocs + n + _ = _; omega⟩
  | .letVar vs body, s => by
    rw [traverse, binders, sites, total_append]
    have h := (step_traverseVars vs s).trans (step_traverse body _)
    exact ⟨h.vars, Nat.le_refl _, fun hb => Nat.le_trans hb h.vars, h.get, h.ret, h.allocs⟩
  | .letCont cs body, s => by
    rw [traverse, binders, sites, total_append]
    have h1 := step_traverse body { s with vars := s.scopeVars }
    generalize hs1 : traverse { s with vars := s.scopeVars } body = s1 at h1
    have h2 := step_traverseConts cs { s1 with scopeVars := s1.vars, vars := max s1.vars s.vars }
    have hv1 : s.scopeVars ≤ s1.vars := h1.vars
    refine ⟨?_, ?_, fun hb => ?_, fun id hid => ?_, ?_, ?_⟩
    · exact Nat.le_trans (Nat.le_max_right _ _) h2.vars
    · exact Nat.le_trans hv1 h2.scope
    · exact h2.bound (Nat.le_max_left _ _)
    · rw [List.mem_append, not_or] at hid
      rw [h2.get id hid.1]
      exact h1.get id hid.2
    · rw [h2.ret]; exact h1.ret
    · rw [h2.allocs]
      show s1.allocs + _ = _
      rw [h1.allocs]
      show s.allocs + _ + _ = _
      omega
theorem step_traverses : ∀ (es : Rts) (s : St), Step s (traverses s es) (bindersL es) (total (sitesL es))
  | .nil, s => Step.refl s
  | .cons e es, s => by
    rw [traverses, bindersL, sitesL, total_append]
    exact (step_traverse e s).trans (step_traverses es _)
theorem step_traverseVars : ∀ (vs : Vars) (s : St), Step s (traverseVars s vs) (bindersV vs) (total (sitesV vs))
  | .nil, s => Step.refl s
  | .cons v init vs, s => by
    rw [traverseVars, bindersV, sitesV, total_append]
    have := (step_addVar s v).trans ((step_traverse init _).trans (step_traverseVars vs _))
    simpa using this
theorem step_traverseConts : ∀ (cs : Conts) (s : St), Step s (traverseConts s cs) (bindersC cs) (total (sitesC cs))
  | .nil, s => Step.refl s
  | .cons ps body cs, s => by
    rw [traverseConts, bindersC, sitesC, total_append]
    have h1 := (step_addVars ps s).trans (step_traverse body (addVars s ps))
    generalize traverse (addVars s ps) body = s1 at h1
    have h2 := step_traverseConts cs { s1 with scopeVars := s.scopeVars }
    refine ⟨Nat.le_trans h1.vars h2.vars, h2.scope, fun hb => h2.bound (Nat.le_trans hb h1.vars), fun id hid => ?_, ?_, ?_⟩
    · rw [← List.append_assoc, List.mem_append, not_or] at hid
      rw [h2.get id hid.2]
      exact h1.get id hid.1
    · rw [h2.ret]; exact h1.ret
    · rw [h2.allocs]
      show s1.allocs + _ = _
      rw [h1.allocs]
      omega
end

/-! ### Slots -/

/-- The offset of a variable. -/
def off (m : HMap Nat Int) (id : Nat) : Int := (HMap.get m id).getD 0

/-- The range of bytes of a variable. -/
def slot (m : HMap Nat Int) (b : Binder) : Int × Nat := (off m b.1, b.2)

/-- The variables `X` have disjoint slots between `lo` and `hi`. -/
structure Slots (m : HMap Nat Int) (X : List Binder) (lo hi : Int) : Prop where
  has : ∀ b ∈ X, ∃ o, HMap.get m b.1 = some o
  lo : ∀ b ∈ X, lo ≤ off m b.1
  hi : ∀ b ∈ X, off m b.1 + 8 * (b.2 : Int) ≤ hi
  disjoint : X.Pairwise fun a b => Apart (slot m a) (slot m b)

theorem Slots.nil {m lo hi} : Slots m [] lo hi := ⟨by simp, by simp, by simp, .nil⟩

theorem Slots.weaken {m X lo hi lo' hi'} (h : Slots m X lo hi) (hl : lo' ≤ lo) (hh : hi ≤ hi') : Slots m X lo' hi' :=
  ⟨h.has, fun b hb => Int.le_trans hl (h.lo b hb), fun b hb => Int.le_trans (h.hi b hb) hh, h.disjoint⟩

theorem Slots.append {m X Y lo mid hi} (h : Slots m X mid hi) (h' : Slots m Y lo mid) (h1 : lo ≤ mid) (h2 : mid ≤ hi) : Slots m (X ++ Y) lo hi := by
  refine ⟨fun b hb => ?_, fun b hb => ?_, fun b hb => ?_, ?_⟩
  · exact (List.mem_append.1 hb).elim (h.has b) (h'.has b)
  · exact (List.mem_append.1 hb).elim (fun hb => Int.le_trans h1 (h.lo b hb)) (h'.lo b)
  · exact (List.mem_append.1 hb).elim (h.hi b) (fun hb => Int.le_trans (h'.hi b hb) h2)
  · refine List.pairwise_append.2 ⟨h.disjoint, h'.disjoint, fun a ha b hb => .inr ?_⟩
    exact Int.le_trans (h'.hi b hb) (h.lo a ha)

theorem Slots.cons {m X lo hi} {b : Binder} {o : Int} (hb : HMap.get m b.1 = some o) (hX : Slots m X lo o) (h1 : lo ≤ o) (h2 : o + 8 * (b.2 : Int) ≤ hi) :
    Slots m (b :: X) lo hi := by
  have : off m b.1 = o := by simp [off, hb]
  refine Slots.append (X := [b]) (mid := o) ⟨?_, ?_, ?_, List.pairwise_singleton _ _⟩ hX h1 (by omega)
  · simp [hb]
  · simp [this]
  · simp [this, h2]

theorem get_addVar (s : St) (b : Binder) : HMap.get (addVar s b).varOffsets b.1 = some (-8 * ((s.scopeVars + b.2 : Nat) : Int)) := by
  show HMap.get (HMap.insert _ _ _) _ = _
  rw [HMap.get_insert, if_pos rfl]

theorem scope_addVar (s : St) (b : Binder) : (addVar s b).scopeVars = s.scopeVars + b.2 := rfl

/-- Agreement with the final map on some variables. -/
def Agree (m m' : HMap Nat Int) (bs : List Nat) : Prop := ∀ id ∈ bs, HMap.get m id = HMap.get m' id

theorem slots_addVars (m : HMap Nat Int) (bs : List Binder) : ∀ s : St, (bs.map Prod.fst).Nodup → Agree m (addVars s bs).varOffsets (bs.map Prod.fst) →
    Slots m bs (-8 * ((addVars s bs).scopeVars : Int)) (-8 * (s.scopeVars : Int)) := by
  induction bs with
  | nil => intro s _ _; exact Slots.nil
  | cons b bs ih =>
    intro s hnd hag
    rw [List.map_cons, List.nodup_cons] at hnd
    have hst := step_addVars bs (addVar s b)
    have hsc := scope_addVar s b
    have hh := ih (addVar s b) hnd.2 (fun id hid => hag id (by simp [hid]))
    refine Slots.cons (o := -8 * ((s.scopeVars + b.2 : Nat) : Int)) ?_ hh ?_ ?_
    · rw [hag b.1 (by simp)]
      show HMap.get (addVars (addVar s b) bs).varOffsets _ = _
      rw [hst.get _ hnd.1, get_addVar]
    · have := hst.scope
      show -8 * ((addVars (addVar s b) bs).scopeVars : Int) ≤ _
      omega
    · push_cast; omega

theorem addVars_scope_le (bs : List Binder) (s : St) (h : s.scopeVars ≤ s.vars) : (addVars s bs).scopeVars ≤ (addVars s bs).vars := (step_addVars bs s).bound h

theorem reach_hasCont {cs : Conts} {ps : List Binder} (h : HasCont cs ps) : ReachConts cs (ps ++ []) := by
  induction h with
  | head => exact .head .here
  | tail _ ih => exact .tail ih

mutual
theorem slots_traverse (m : HMap Nat Int) : ∀ (e : Rt) (s : St) (X : List Binder), s.scopeVars ≤ s.vars → (binders e).Nodup →
    Agree m (traverse s e).varOffsets (binders e) → Reach e X → Slots m X (-8 * ((traverse s e).vars : Int)) (-8 * (s.scopeVars : Int))
  | .node es, s, X, hb, hnd, hag, hr => by
    rw [traverse] at hag ⊢
    rw [binders] at hnd hag
    cases hr with
    | here => exact Slots.nil
    | node hr => exact slots_traverses m es s X hb hnd hag hr
  | .alloc n e, s, X, hb, hnd, hag, hr => by
    rw [traverse] at hag ⊢
    rw [binders] at hnd hag
    cases hr with
    | here => exact Slots.nil
    | alloc hr => exact slots_traverse m e { s with allocs := s.allocs + n } X hb hnd hag hr
  | .letVar vs body, s, X, hb, hnd, hag, hr => by
    rw [traverse] at hag ⊢
    rw [binders] at hnd hag
    cases hr with
    | here => exact Slots.nil
    | letVar hr => exact slots_vars m vs s body X hb hnd hag hr
  | .letCont cs body, s, X, hb, hnd, hag, hr => by
    rw [traverse] at hag ⊢
    rw [binders] at hnd hag
    have h1 := step_traverse body { s with vars := s.scopeVars }
    have ihb := slots_traverse m body { s with vars := s.scopeVars }
    generalize hs1 : traverse { s with vars := s.scopeVars } body = s1 at *
    have h2 := step_traverseConts cs { s1 with scopeVars := s1.vars, vars := max s1.vars s.vars }
    have hconts := slots_conts m cs { s1 with scopeVars := s1.vars, vars := max s1.vars s.vars }
    have hv1 : s.scopeVars ≤ s1.vars := h1.vars
    have hv2 : max s1.vars s.vars ≤ (traverseConts { s1 with scopeVars := s1.vars, vars := max s1.vars s.vars } cs).vars := h2.vars
    simp only at hag hconts h2 ⊢
    generalize hs2 : traverseConts { s1 with scopeVars := s1.vars, vars := max s1.vars s.vars } cs = s2 at *
    obtain ⟨hnd1, hnd2, hnd3⟩ := List.nodup_append.1 hnd
    have hagc : Agree m s2.varOffsets (bindersC cs) := fun id hid => hag id (by simp [hid])
    have hagb : Agree m s1.varOffsets (binders body) := fun id hid => by
      rw [hag id (by simp [hid]), h2.get id (fun hc => hnd3 id hc id hid rfl)]
    have hbody : ∀ Y, Reach body Y → Slots m Y (-8 * (s1.vars : Int)) (-8 * (s.scopeVars : Int)) :=
      fun Y hY => ihb Y (Nat.le_refl _) hnd2 hagb hY
    cases hr with
    | here => exact Slots.nil
    | letContBody hr => exact (hbody X hr).weaken (by omega) (by omega)
    | letContArgs hc hr =>
      have hp := hconts _ (Nat.le_max_left _ _) hnd1 hagc (reach_hasCont hc)
      rw [List.append_nil] at hp
      have hx := hbody _ hr
      -- the parameters lie below everything used in the body
      have := Slots.append hx hp (by omega) (by omega)
      exact ⟨fun b hb => this.has b (by simp at hb ⊢; exact hb.symm), fun b hb => this.lo b (by simp at hb ⊢; exact hb.symm),
        fun b hb => this.hi b (by simp at hb ⊢; exact hb.symm), by
          have hd := this.disjoint
          rw [List.pairwise_append] at hd ⊢
          exact ⟨hd.2.1, hd.1, fun a ha b hb => (hd.2.2 b hb a ha).symm⟩⟩
    | letCont hr => exact (hconts X (Nat.le_max_left _ _) hnd1 hagc hr).weaken (Int.le_refl _) (by omega)
termination_by e => sizeOf e
theorem slots_traverses (m : HMap Nat Int) : ∀ (es : Rts) (s : St) (X : List Binder), s.scopeVars ≤ s.vars → (bindersL es).Nodup →
    Agree m (traverses s es).varOffsets (bindersL es) → ReachAny es X → Slots m X (-8 * ((traverses s es).vars : Int)) (-8 * (s.scopeVars : Int))
  | .nil, s, X, _, _, _, hr => by cases hr
  | .cons e es, s, X, hb, hnd, hag, hr => by
    rw [traverses] at hag ⊢
    rw [bindersL] at hnd hag
    obtain ⟨hnd1, hnd2, hnd3⟩ := List.nodup_append.1 hnd
    have h1 := step_traverse e s
    have h2 := step_traverses es (traverse s e)
    cases hr with
    | head hr =>
      refine (slots_traverse m e s X hb hnd1 (fun id hid => ?_) hr).weaken (by have := h2.vars; omega) (Int.le_refl _)
      rw [hag id (by simp [hid]), h2.get id (fun hc => hnd3 id hid id hc rfl)]
    | tail hr =>
      refine (slots_traverses m es (traverse s e) X (h1.bound hb) hnd2 (fun id hid => hag id (by simp [hid])) hr).weaken (Int.le_refl _) ?_
      have := h1.scope
      omega
termination_by es => sizeOf es
theorem slots_vars (m : HMap Nat Int) : ∀ (vs : Vars) (s : St) (body : Rt) (X : List Binder), s.scopeVars ≤ s.vars → (bindersV vs ++ binders body).Nodup →
    Agree m (traverse (traverseVars s vs) body).varOffsets (bindersV vs ++ binders body) → ReachVars vs body X →
    Slots m X (-8 * ((traverse (traverseVars s vs) body).vars : Int)) (-8 * (s.scopeVars : Int))
  | .nil, s, body, X, hb, hnd, hag, hr => by
    rw [traverseVars] at hag ⊢
    rw [bindersV, List.nil_append] at hnd hag
    cases hr with
    | body hr => exact slots_traverse m body s X hb hnd hag hr
  | .cons v init vs, s, body, X, hb, hnd, hag, hr => by
    rw [traverseVars] at hag ⊢
    rw [bindersV, List.cons_append, List.append_assoc] at hnd hag
    rw [List.nodup_cons] at hnd
    obtain ⟨hv, hnd⟩ := hnd
    obtain ⟨hnd1, hnd2, hnd3⟩ := List.nodup_append.1 hnd
    have h0 := step_addVar s v
    have h1 := step_traverse init (addVar s v)
    have h2 := (step_traverseVars vs (traverse (addVar s v) init)).trans (step_traverse body _)
    have hget : HMap.get m v.1 = some (-8 * ((s.scopeVars + v.2 : Nat) : Int)) := by
      rw [hag v.1 (by simp), h2.get _ (fun hc => hv (List.mem_append_right _ hc)), h1.get _ (fun hc => hv (List.mem_append_left _ hc)), get_addVar]
    have hsc := scope_addVar s v
    have hb0 := h0.bound hb
    have hb1 := h1.bound hb0
    have hlo : -8 * ((traverse (traverseVars (traverse (addVar s v) init) vs) body).vars : Int) ≤ -8 * ((s.scopeVars + v.2 : Nat) : Int) := by
      have a := h2.vars; have b := h1.vars; omega
    cases hr with
    | init hr =>
      refine Slots.cons hget ?_ hlo (by push_cast; omega)
      refine (slots_traverse m init (addVar s v) _ hb0 hnd1 (fun id hid => ?_) hr).weaken ?_ (by rw [hsc]; exact Int.le_refl _)
      · rw [hag id (by simp [hid]), h2.get id (fun hc => hnd3 id hid id hc rfl)]
      · have := h2.vars; omega
    | next hr =>
      refine Slots.cons hget ?_ hlo (by push_cast; omega)
      refine (slots_vars m vs (traverse (addVar s v) init) body _ hb1 hnd2 (fun id hid => hag id (List.mem_cons_of_mem _ (List.mem_append_right _ hid))) hr).weaken (Int.le_refl _) ?_
      have := h1.scope
      omega
termination_by vs _ body => sizeOf vs + sizeOf body
theorem slots_conts (m : HMap Nat Int) : ∀ (cs : Conts) (s : St) (X : List Binder), s.scopeVars ≤ s.vars → (bindersC cs).Nodup →
    Agree m (traverseConts s cs).varOffsets (bindersC cs) → ReachConts cs X → Slots m X (-8 * ((traverseConts s cs).vars : Int)) (-8 * (s.scopeVars : Int))
  | .nil, s, X, _, _, _, hr => by cases hr
  | .cons ps body cs, s, X, hb, hnd, hag, hr => by
    rw [traverseConts] at hag ⊢
    rw [bindersC] at hnd hag
    obtain ⟨hnd1, hnd', hnd3⟩ := List.nodup_append.1 hnd
    obtain ⟨hnd2, hnd4, hnd5⟩ := List.nodup_append.1 hnd'
    have h0 := step_addVars ps s
    have h1 := step_traverse body (addVars s ps)
    have h2 := step_traverseConts cs { traverse (addVars s ps) body with scopeVars := s.scopeVars }
    have hv2 : (traverse (addVars s ps) body).vars ≤ _ := h2.vars
    have hbb : s.scopeVars ≤ (traverse (addVars s ps) body).vars := Nat.le_trans hb (Nat.le_trans h0.vars h1.vars)
    cases hr with
    | head hr =>
      have hp := slots_addVars m ps s hnd1 (fun id hid => by
        rw [hag id (by simp only [List.mem_append]; exact .inl hid), h2.get id (fun hc => hnd3 id hid id (List.mem_append_right _ hc) rfl)]
        exact h1.get id (fun hc => hnd3 id hid id (List.mem_append_left _ hc) rfl))
      have hx := slots_traverse m body (addVars s ps) _ (h0.bound hb) hnd2 (fun id hid => by
        rw [hag id (by simp only [List.mem_append]; exact .inr (.inl hid)), h2.get id (fun hc => hnd5 id hid id hc rfl)]) hr
      have hs := h0.scope
      have hs2 := h0.bound hb
      have hs3 := h1.vars
      refine (Slots.append hp hx (by omega) (by omega)).weaken ?_ (Int.le_refl _)
      simp only at hv2 ⊢
      omega
    | tail hr => exact slots_conts m cs _ X hbb hnd4 (fun id hid => hag id (by simp only [List.mem_append]; exact .inr (.inr hid))) hr
termination_by cs => sizeOf cs
end

end Verif.StackFrame
