import Verif.Closure.Pre

/-!
# What the normaliser makes is a conversion
-/
namespace Verif.Closure

/-! ## Lists -/

theorem mem_dedup {x : Id} : ∀ {xs : List Id}, x ∈ dedup xs ↔ x ∈ xs
  | [] => Iff.rfl
  | y :: ys => by
    simp only [dedup]
    split
    · rename_i h
      rw [mem_dedup, List.mem_cons]
      exact ⟨.inr, fun h' => h'.elim (fun e => e ▸ h) id⟩
    · rw [List.mem_cons, List.mem_cons, mem_dedup]

theorem mem_captured {x : Id} {fs : Funs} : x ∈ captured fs ↔ x ∈ fs.uses ∧ x ∉ fs.defs := by
  simp [captured, mem_dedup]

theorem insert_perm (p : Id × Id) : ∀ r, (insert p r).Perm (p :: r)
  | [] => .refl _
  | q :: r => by
    simp only [insert]
    split
    · exact .refl _
    · exact ((insert_perm p r).cons q).trans (.swap p q r)

theorem sort_perm : ∀ r, (sort r).Perm r
  | [] => .refl _
  | p :: r => (insert_perm p (sort r)).trans ((sort_perm r).cons p)

theorem fresh_length : ∀ (n k : Nat), (fresh n k).length = k
  | _, 0 => rfl
  | n, k + 1 => by simp [fresh, fresh_length (n + 1) k]

theorem mem_fresh {x : Nat} : ∀ {n k : Nat}, x ∈ fresh n k ↔ n ≤ x ∧ x < n + k
  | n, 0 => by simp [fresh]
  | n, k + 1 => by
    simp only [fresh, List.mem_cons, mem_fresh (n := n + 1) (k := k)]
    omega

theorem fresh_nodup : ∀ (n k : Nat), (fresh n k).Nodup
  | _, 0 => .nil
  | n, k + 1 => by
    refine List.nodup_cons.2 ⟨?_, fresh_nodup (n + 1) k⟩
    rw [mem_fresh]; omega

theorem look_mem {α : Type} {x : Id} {a : α} : ∀ {r : List (Id × α)}, look r x = some a → (x, a) ∈ r
  | [], h => nomatch h
  | (y, b) :: r, h => by
    simp only [look] at h
    split at h
    · rename_i e; cases h; subst e; exact List.mem_cons_self
    · exact List.mem_cons_of_mem _ (look_mem h)

theorem look_isSome {α : Type} {x : Id} : ∀ {r : List (Id × α)}, (look r x).isSome ↔ x ∈ r.map (·.1)
  | [] => by simp [look]
  | (y, b) :: r => by
    simp only [look, List.map_cons, List.mem_cons]
    split
    · rename_i e; simp [e]
    · rename_i e
      rw [look_isSome]
      exact ⟨.inr, fun h => h.resolve_left fun h => e h.symm⟩

theorem look_none {α : Type} {x : Id} {r : List (Id × α)} : look r x = none ↔ x ∉ r.map (·.1) := by
  rw [← look_isSome]
  cases look r x <;> simp

theorem zip_fst {α β : Type} : ∀ {xs : List α} {ys : List β}, xs.length = ys.length → (xs.zip ys).map (·.1) = xs
  | [], [], _ => rfl
  | x :: xs, y :: ys, h => by simp [zip_fst (Nat.succ.inj h)]

theorem zip_snd {α β : Type} : ∀ {xs : List α} {ys : List β}, xs.length = ys.length → (xs.zip ys).map (·.2) = ys
  | [], [], _ => rfl
  | x :: xs, y :: ys, h => by simp [zip_snd (Nat.succ.inj h)]

/-! ## A new conversion -/

structure ConvOK (fs : Funs) (s : S) (c : Conv) (s1 : S) : Prop where
  rt : s.rt ≤ s1.rt
  queue : s1.queue = s.queue
  ct : s1.ct = s.ct + fs.names.length
  dom : ∀ x, x ∈ c.caps.map (·.1) ↔ x ∈ captured fs
  range : ∀ y ∈ c.caps.map (·.2), s.rt ≤ y ∧ y < s1.rt
  nodup : (c.caps.map (·.2)).Nodup
  lifted : c.lifted = fs.names.zip (fresh s.ct fs.names.length)
  env : ∀ e, c.env = some e → s.rt ≤ e ∧ e < s1.rt ∧ e ∉ c.caps.map (·.2)
  noenv : c.env = none → c.caps = []

theorem newConv_ok {order : List Id → List Id} (ho : ∀ l, (order l).Perm l) (fs : Funs) (s : S) :
    ConvOK fs s (newConv order fs s).1 (newConv order fs s).2 := by
  have hp := sort_perm ((order (captured fs)).zip (fresh s.rt (order (captured fs)).length))
  have hl : (order (captured fs)).length = (fresh s.rt (order (captured fs)).length).length := (fresh_length _ _).symm
  have hfst := (hp.map (·.1)).trans (List.Perm.of_eq (zip_fst hl))
  have hsnd := (hp.map (·.2)).trans (List.Perm.of_eq (zip_snd hl))
  refine ⟨?_, rfl, rfl, ?_, ?_, ?_, rfl, ?_, ?_⟩
  · simp only [newConv]; split
    · exact Nat.le_add_right _ _
    · exact Nat.le_trans (Nat.le_add_right _ _) (Nat.le_add_right _ 1)
  · intro x
    exact hfst.mem_iff.trans (ho _).mem_iff
  · intro y hy
    have := mem_fresh.1 (hsnd.mem_iff.1 hy)
    refine ⟨this.1, ?_⟩
    simp only [newConv]; split
    · exact this.2
    · exact Nat.lt_succ_of_lt this.2
  · exact hsnd.nodup_iff.2 (fresh_nodup _ _)
  · intro e he
    simp only [newConv] at he ⊢
    split at he
    · cases he
    · rename_i h
      cases he
      rw [if_neg h]
      exact ⟨Nat.le_add_right _ _, Nat.lt_succ_self _, fun m => Nat.lt_irrefl _ (mem_fresh.1 (hsnd.mem_iff.1 m)).2⟩
  · intro he
    simp only [newConv] at he ⊢
    split at he
    · rename_i h; exact List.isEmpty_iff.1 h
    · cases he

theorem ConvOK.look_dom {fs : Funs} {s : S} {c : Conv} {s1 : S} (h : ConvOK fs s c s1) {x : Id} : look c.caps x = none ↔ x ∉ captured fs := by
  rw [look_none, h.dom]

theorem ConvOK.look_range {fs : Funs} {s : S} {c : Conv} {s1 : S} (h : ConvOK fs s c s1) {x y : Id} (hy : look c.caps x = some y) :
    y ∈ c.caps.map (·.2) := List.mem_map.2 ⟨(x, y), look_mem hy, rfl⟩

theorem ConvOK.lifted_dom {fs : Funs} {s : S} {c : Conv} {s1 : S} (h : ConvOK fs s c s1) {x : Id} : (look c.lifted x).isSome ↔ x ∈ fs.names := by
  rw [look_isSome, h.lifted, zip_fst (fresh_length _ _).symm]

theorem ConvOK.lifted_none {fs : Funs} {s : S} {c : Conv} {s1 : S} (h : ConvOK fs s c s1) {x : Id} : look c.lifted x = none ↔ x ∉ fs.names := by
  rw [← h.lifted_dom]; cases look c.lifted x <;> simp

/-! ## What is queued -/

/-- What a static function sees. -/
def Def.scope (d : Def) : List Id := d.params ++ (match d.env with | some (e, ys) => e :: ys | none => [])

/-- Well-scoped, with names below `N`. -/
structure WF (N : Nat) (d : Def) : Prop where
  ok : OK d.scope [] d.body
  scope : ∀ x ∈ d.scope, x < N
  defs : ∀ x ∈ d.body.defs, x < N

theorem WF.mono {N M : Nat} {d : Def} (h : WF N d) (hN : N ≤ M) : WF M d :=
  ⟨h.ok, fun x hx => Nat.lt_of_lt_of_le (h.scope x hx) hN, fun x hx => Nat.lt_of_lt_of_le (h.defs x hx) hN⟩

section
variable {fs : Funs} {s : S} {c : Conv} {s1 : S}

/-- Names of the group's functions are free of the replacement. -/
theorem ConvOK.bd (h : ConvOK fs s c s1) (hf : ∀ f ∈ fs.names, f ∉ fs.inner) (hN : ∀ x ∈ fs.defs, x < s.rt) {x : Id} (hx : x ∈ fs.inner) :
    Bd c.caps c.lifted c.env x := by
  have hd : x ∈ fs.defs := mem_defs.2 (.inr hx)
  have := hN x hd
  refine ⟨h.look_dom.2 fun m => (mem_captured.1 m).2 hd, ?_, ?_, h.lifted_none.2 fun m => hf x m hx⟩
  · intro z hz
    exact Nat.lt_irrefl _ (Nat.lt_of_lt_of_le this (h.range x (h.look_range hz)).1)
  · intro he
    exact Nat.lt_irrefl _ (Nat.lt_of_lt_of_le this (h.env x he).1)

/-- What a lifted function sees, but for its parameters. -/
def Conv.outer (c : Conv) : List Id := match c.env with | some e => e :: c.caps.map (·.2) | none => []

theorem ConvOK.outer_range (h : ConvOK fs s c s1) {x : Id} (hx : x ∈ c.outer) : s.rt ≤ x ∧ x < s1.rt := by
  simp only [Conv.outer] at hx
  cases he : c.env with
  | none => rw [he] at hx; cases hx
  | some e =>
    rw [he] at hx
    rcases List.mem_cons.1 hx with rfl | hx
    · exact ⟨(h.env _ he).1, (h.env _ he).2.1⟩
    · exact h.range x hx

theorem ConvOK.outer_caps (h : ConvOK fs s c s1) {x : Id} (hx : x ∈ c.caps.map (·.2)) : x ∈ c.outer := by
  simp only [Conv.outer]
  cases he : c.env with
  | none => rw [h.noenv he] at hx; cases hx
  | some e => exact List.mem_cons_of_mem _ hx

theorem ConvOK.rename_outer (h : ConvOK fs s c s1) {x : Id} (hx : x ∈ captured fs) : rename c.caps x ∈ c.outer := by
  have := (look_isSome (r := c.caps) (x := x)).2 ((h.dom x).2 hx)
  obtain ⟨y, hy⟩ := Option.isSome_iff_exists.1 this
  rw [rename, hy]
  exact h.outer_caps (h.look_range hy)

theorem lift_scope {c : Conv} {f : Id} {ps : List Id} {b : Expr} :
    (Def.mk (c.env.map fun e => (e, c.caps.map (·.2))) ps (cc c.caps c.lifted c.env b)).scope = ps ++ c.outer := by
  simp only [Def.scope, Conv.outer]
  cases c.env <;> rfl

/-- A lifted body is well-scoped. -/
theorem ConvOK.body_ok (h : ConvOK fs s c s1) {V : List Id} {ps : List Id} {b : Expr} (hf : ∀ f ∈ fs.names, f ∉ fs.inner)
    (hN : ∀ x ∈ fs.defs, x < s.rt)
    (hok : OK (ps ++ V) (fs.names ++ []) b) (hu : ∀ x ∈ b.uses, x ∈ fs.uses) (hps : ∀ x ∈ ps, x ∈ fs.inner) (hb : ∀ x ∈ b.defs, x ∈ fs.inner)
    (hV : ∀ x ∈ V, x ∉ fs.defs) :
    OK (ps ++ c.outer) [] (cc c.caps c.lifted c.env b) := by
  refine ok_cc c.caps c.lifted c.env b hok ?_ ?_ ?_ ?_
  · intro x hx hxu
    rcases List.mem_append.1 hx with hx | hx
    · rw [rename, (h.bd hf hN (hps x hx)).dom]
      exact List.mem_append_left _ hx
    · exact List.mem_append_right _ (h.rename_outer (mem_captured.2 ⟨hu x hxu, hV x hx⟩))
  · intro g hg hl
    rw [List.append_nil] at hg
    exact absurd hg (h.lifted_none.1 hl)
  · intro g hg hl e he
    refine List.mem_append_right _ ?_
    simp [Conv.outer, he]
  · intro x hx
    have hbd := h.bd hf hN (hb x hx)
    refine ⟨fun m => ?_, List.not_mem_nil, hbd.dom, hbd.fn⟩
    rcases List.mem_append.1 m with m | m
    · exact (defs_new b hok hx).1 (List.mem_append_left _ m)
    · exact Nat.lt_irrefl _ (Nat.lt_of_lt_of_le (hN x (mem_defs.2 (.inr (hb x hx)))) (h.outer_range m).1)

/-- The body of the group is well-scoped. -/
theorem ConvOK.rest_ok (h : ConvOK fs s c s1) {V : List Id} {b : Expr} (hok : OK V (fs.names ++ []) b) (hN : ∀ x ∈ b.defs, x < s.rt) :
    OK (match c.env with | some e => e :: V | none => V) [] (cc [] c.lifted c.env b) := by
  refine ok_cc [] c.lifted c.env b hok ?_ ?_ ?_ ?_
  · intro x hx _
    cases c.env with
    | none => exact hx
    | some e => exact List.mem_cons_of_mem _ hx
  · intro g hg hl
    rw [List.append_nil] at hg
    exact absurd hg (h.lifted_none.1 hl)
  · intro g hg hl e he
    rw [he]
    exact List.mem_cons_self
  · intro x hx
    have hn := defs_new b hok hx
    refine ⟨fun m => ?_, List.not_mem_nil, rfl, h.lifted_none.2 fun m => hn.2 (by simpa using m)⟩
    cases he : c.env with
    | none => rw [he] at m; exact hn.1 m
    | some e =>
      rw [he] at m
      rcases List.mem_cons.1 m with rfl | m
      · exact Nat.lt_irrefl _ (Nat.lt_of_lt_of_le (hN _ hx) (h.env _ he).1)
      · exact hn.1 m

/-- Everything lifted is well-formed. -/
theorem ConvOK.lift_wf (h : ConvOK fs s c s1) {V : List Id} (hf : ∀ f ∈ fs.names, f ∉ fs.inner) (hN : ∀ x ∈ fs.defs, x < s.rt)
    (hV : ∀ x ∈ V, x ∉ fs.defs) : ∀ gs : Funs, OKf V (fs.names ++ []) gs → (∀ x ∈ gs.uses, x ∈ fs.uses) → (∀ x ∈ gs.inner, x ∈ fs.inner) →
    ∀ q ∈ lift c gs, WF s1.rt q.2
  | .nil, _, _, _, q, hq => nomatch hq
  | .cons f ps b gs, hok, hu, hi, q, hq => by
    simp only [Funs.uses, Funs.inner, List.mem_append] at hu hi
    rcases List.mem_cons.1 hq with rfl | hq
    · have hps : ∀ x ∈ ps, x ∈ fs.inner := fun x hx => hi x (.inl hx)
      have hb : ∀ x ∈ b.defs, x ∈ fs.inner := fun x hx => hi x (.inr (.inl hx))
      have hrt := h.rt
      refine ⟨?_, ?_, ?_⟩
      · rw [lift_scope (f := f)]
        exact h.body_ok hf hN hok.2.1 (fun x hx => hu x (.inl hx)) hps hb hV
      · rw [lift_scope (f := f)]
        intro x hx
        rcases List.mem_append.1 hx with hx | hx
        · exact Nat.lt_of_lt_of_le (hN x (mem_defs.2 (.inr (hps x hx)))) hrt
        · exact (h.outer_range hx).2
      · rw [defs_cc]
        intro x hx
        exact Nat.lt_of_lt_of_le (hN x (mem_defs.2 (.inr (hb x hx)))) hrt
    · exact h.lift_wf hf hN hV gs hok.2.2 (fun x hx => hu x (.inr hx)) (fun x hx => hi x (.inr (.inr hx))) q hq
end

end Verif.Closure
