import Verif.Instances.Complete
import Verif.TopoSort.Props

/-! # Constraints are satisfied by the instances that are for them -/
namespace Verif.Instances

open Verif.Infer

variable {W : World} {ar : Nat → Nat}

/-- The premises are the given constraints and their superclasses, each with the path to it. -/
theorem premises_exact {k : Nat} {P : List Con} {E : List Entry} (h : installs W k P = some E) (e : Entry) : e ∈ E ↔ ∃ c ∈ P, e.id = c.id ∧ Sup W c.goal e.path e.goal := installs_iff h e

/-- A satisfaction that is found proves the constraint, whatever becomes of unknown types later. -/
theorem satisfaction_sound {k d : Nat} {P : List Con} {E : List Entry} {g : Goal} {s s' : St} {S : Sat} (ok : W.OK) (ha : W.Arity ar) (hP : ∀ c ∈ P, c.goal.Arity ar) (hE : installs W k P = some E)
    (w : WF s) (ig : g.In s) (ag : g.Arity ar) (h : build k W E d g s = some (some S, s')) (τ : Nat → Ty) (hτ : Later s' τ) :
    Proves W (P.map (Con.map (fin τ))) (S.map (fin τ)) (g.map (fin τ)) :=
  (build_ok ok ha hP (fun e he => (installs_iff hE e).1 he) d g s _ _ h w ig ag).sat S rfl τ hτ

/-- The satisfactions of superclasses that are found for all instances. -/
def Inferred (W : World) (X : Nat → List Sat) : Prop := ∀ i, (∃ c, W.cls (W.inst i).target.cls = some c) → ∃ k s ss s', WF s ∧ superclasses k W i s = some (some ss, s') ∧ X i = (ss.map (fin s'.σ)).toList

theorem Inferred.supers {X : Nat → List Sat} (ok : W.OK) (ha : W.Arity ar) (h : Inferred W X) : Supers W X := fun i c hc => by
  obtain ⟨k, s, ss, s', w, h1, h2⟩ := h i ⟨c, hc⟩
  obtain ⟨c', hc', hp⟩ := superclasses_ok ok ha w h1
  rw [hc] at hc'; cases hc'
  rw [h2, Sats.ofList_toList]; exact hp

/-- The dictionary made of a satisfaction is one for the constraint, when the dictionaries given for the premises are. -/
theorem dictionary_right {k n d : Nat} {P : List Con} {E : List Entry} {g : Goal} {s s' : St} {S : Sat} {X : Nat → List Sat} (ok : W.OK) (ha : W.Arity ar) (hX : Inferred W X) (hP : ∀ c ∈ P, c.goal.Arity ar)
    (hE : installs W k P = some E) (w : WF s) (ig : g.In s) (ag : g.Arity ar) (h : build k W E d g s = some (some S, s')) (τ : Nat → Ty) (hτ : Later s' τ) {θ : Nat → Option Ty} {δ : Nat → Option Dict}
    (hδ : Env W θ δ (P.map (Con.map (fin τ)))) {D : Dict} (hD : eval W X n θ δ (S.map (fin τ)) = some D) : Right W D ((g.map (fin τ)).inst θ) :=
  eval_right ok ha (hX.supers ok ha) n (fun c hc => by
    obtain ⟨x, hx, rfl⟩ := List.mem_map.1 hc
    exact (hP x hx).map) hδ (satisfaction_sound ok ha hP hE w ig ag h τ hτ) hD

/-- Instances that pass the check for overlaps where they are defined and where they are used are for different constraints. -/
theorem no_overlap (ok : W.OK) {md : Nat → Nat} {mid : Nat} {k : Nat → Nat} (here : ∀ c, overlapChecked (k mid) W md mid (W.avail c) = true)
    (there : ∀ m, m ≠ mid → ∀ c, ∃ is, (∀ i ∈ W.avail c, md i = m → i ∈ is) ∧ overlapChecked (k m) W md m is = true) : W.Apart := checked_apart ok here there

/-- There is at most one dictionary for a constraint, so it does not matter how it was found. -/
theorem coherent (ok : W.OK) (cov : W.Covered) (ap : W.Apart) {D D' : Dict} {g : Goal} (h : Right W D g) (h' : Right W D' g) : D = D' := right_unique ok cov ap D D' h h'

/-- Dictionaries are found when instances require smaller things than they are for.  Partial: the compiler does not ask for that, and without it the
search may never end (`superclass_loop`). -/
theorem dictionary_ends_partial {P : List Con} {g : Goal} {S : Sat} {X : Nat → List Sat} (ok : W.OK) (ha : W.Arity ar) (sm : W.Smaller) (hX : Inferred W X) (hP : ∀ c ∈ P, c.goal.Arity ar) (h : Proves W P S g)
    {θ : Nat → Option Ty} {δ : Nat → Option Dict} (hδ : Env W θ δ P) (all : ∀ c ∈ P, ∃ d, δ c.id = some d) : ∃ n D, ∀ m, n ≤ m → eval W X m θ δ S = some D := by
  have hX := hX.supers ok ha
  obtain ⟨n, D, hD⟩ := eval_ends_of ok ha hX sm (gets ok ha hX sm ((P.map fun c => (c.goal.inst θ).size).sum + 1)) hP hδ all
    (fun c hc => Nat.lt_succ_of_le (le_sum (List.mem_map.2 ⟨c, hc, rfl⟩))) S h
  exact ⟨n, D, fun m hm => eval_mono hD hm⟩

/-- A satisfaction is found when there is one of no more than `d` instances applied to each other and nothing in the constraint is unknown. -/
theorem satisfaction_complete {k0 d : Nat} {P : List Con} {E : List Entry} {S : Sat} {g : Goal} {s : St} (ok : W.OK) (ha : W.Arity ar) (cov : W.Covered) (ap : W.Apart) (hP : ∀ c ∈ P, c.goal.Arity ar)
    (hE : installs W k0 P = some E) (w : WF s) (ig : g.In s) (ag : g.Arity ar) (kn : (g.subst s.σ).Kn) (h : Proves W P S (g.subst s.σ)) (hd : S.depth ≤ d) :
    ∃ k1, ∀ k, k1 ≤ k → ∃ S' s', build k W E d g s = some (some S', s') := by
  obtain ⟨k1, hk⟩ := build_found ok ha cov ap hP (installs_iff hE) S h kn
  exact ⟨k1, fun k hk' => hk k hk' d hd g s w ig ag rfl⟩

/-! ### Superclasses -/

/-- The classes as they are given to `verify_classes_hierarchy`, type_inference.rs:493-504. -/
structure Listed (W : World) (cs : List (Nat × List Nat)) : Prop where
  nodup : (cs.map Prod.fst).Nodup
  all : ∀ c k, W.cls c = some k → (c, k.supers.map fun s => s.goal.cls) ∈ cs
  known : ∀ c k, W.cls c = some k → ∀ s ∈ k.supers, (W.cls s.goal.cls).isSome

theorem concat_total {α β : Type} {f : α → Option (List β)} : ∀ {as : List α}, (∀ a ∈ as, ∃ x, f a = some x) → ∃ l, concat f as = some l
  | [], _ => ⟨[], rfl⟩
  | a :: as, h => by
    obtain ⟨x, hx⟩ := h a (List.mem_cons_self ..)
    obtain ⟨l, hl⟩ := concat_total fun b hb => h b (List.mem_cons_of_mem _ hb)
    refine ⟨x ++ l, ?_⟩
    simp only [concat, hx, hl]; rfl

theorem install_total {r : Nat → Nat} (hr : ∀ c k, W.cls c = some k → ∀ s ∈ k.supers, r s.goal.cls < r c ∧ (W.cls s.goal.cls).isSome) : ∀ (n : Nat) (id : Nat) (path : List Nat) (g : Goal), r g.cls < n → (W.cls g.cls).isSome →
    ∃ es, install W n id path g = some es
  | 0, _, _, _, h, _ => nomatch h
  | n + 1, id, path, g, h, hc => by
    obtain ⟨c, hc⟩ := Option.isSome_iff_exists.1 hc
    obtain ⟨l, hl⟩ := concat_total (as := c.supers) (f := fun s : Con => install W n id (path ++ [s.id]) (s.goal.inst (assoc c.gs g.args))) fun s hs =>
      install_total hr n id _ _ (Nat.lt_of_lt_of_le (hr _ _ hc s hs).1 (Nat.le_of_lt_succ h)) (hr _ _ hc s hs).2
    refine ⟨l ++ [⟨id, path, g⟩], ?_⟩
    rw [install, hc]
    exact congrArg (fun x => Option.bind x fun es => some (es ++ [⟨id, path, g⟩])) hl

/-- Where the hierarchy of classes passes its check and no class is a superclass of itself, the premises are found.  Partial: the
second is not checked (`self_superclass`). -/
theorem install_ends_partial {cs : List (Nat × List Nat)} (hl : Listed W cs) (hv : TopoSort.verifyClassesHierarchy cs = some true) (no : ∀ c k, W.cls c = some k → ∀ s ∈ k.supers, s.goal.cls ≠ c) {P : List Con}
    (hP : ∀ c ∈ P, (W.cls c.goal.cls).isSome) : ∃ k E, installs W k P = some E := by
  obtain ⟨ok, h1, h2⟩ := TopoSort.cyclic_classes_rejected_partial cs hl.nodup
  rw [h1] at hv; cases hv
  obtain ⟨gs, ho⟩ := TopoSort.output_exists (fun v : List Nat => v) cs hl.nodup
  have perm := (TopoSort.sort_partition _ cs hl.nodup ho).1
  have place : ∀ p ∈ cs, ∃ a, ∃ g, gs[a]? = some g ∧ p ∈ g := fun p hp => by
    obtain ⟨g, hg, hpg⟩ := List.mem_flatten.1 (perm.mem_iff.2 hp)
    obtain ⟨a, ha⟩ := List.mem_iff_getElem?.1 hg
    exact ⟨a, g, ha, hpg⟩
  have ex : ∀ c, ∃ a, ∀ k, W.cls c = some k → ∃ g, gs[a]? = some g ∧ (c, k.supers.map fun s => s.goal.cls) ∈ g := fun c => by
    cases hc : W.cls c with
    | none => exact ⟨0, fun _ h => nomatch h⟩
    | some k =>
      obtain ⟨a, g, h3, h4⟩ := place _ (hl.all c k hc)
      exact ⟨a, fun k' e => by cases e; exact ⟨g, h3, h4⟩⟩
  obtain ⟨r, hr⟩ := Classical.axiomOfChoice ex
  have rank : ∀ c k, W.cls c = some k → ∀ s ∈ k.supers, r s.goal.cls < r c ∧ (W.cls s.goal.cls).isSome := fun c k hc s hs => by
    have hk' := hl.known c k hc s hs
    obtain ⟨k', hk''⟩ := Option.isSome_iff_exists.1 hk'
    refine ⟨?_, hk'⟩
    obtain ⟨g, a1, a2⟩ := hr c k hc
    obtain ⟨g', b1, b2⟩ := hr _ k' hk''
    have dep : TopoSort.Spec.DependsOn (fun v : List Nat => v) cs (c, k.supers.map fun s => s.goal.cls) (s.goal.cls, k'.supers.map fun s => s.goal.cls) :=
      .step (hl.all _ _ hk'') (List.mem_map.2 ⟨s, hs, rfl⟩) (.refl _)
    rcases TopoSort.sort_order _ cs hl.nodup ho a1 b1 a2 b2 dep with e | e
    · exfalso
      rw [e, a1] at b1; cases b1
      have hm : g ∈ gs := List.mem_of_getElem? a1
      have := (TopoSort.sort_same_group _ cs hl.nodup ho (hl.all c k hc) (hl.all _ _ hk'')).1 ⟨g, hm, a2, b2⟩
      exact nomatch h2.2 ⟨_, hl.all c k hc, _, hl.all _ _ hk'', fun e => no c k hc s hs (Prod.mk.inj e).1.symm, this⟩
    · exact e
  let n := (P.map fun c => r c.goal.cls).sum + 1
  obtain ⟨E, hE⟩ := concat_total (as := P) (f := fun c : Con => install W n c.id [] c.goal) fun c hc =>
    install_total rank n c.id [] c.goal (Nat.lt_succ_of_le (le_sum (List.mem_map.2 ⟨c, hc, rfl⟩))) (hP c hc)
  exact ⟨n, E, hE⟩

/-! ### Orders of lists of numbers -/

def int : Ty := .con 0
def list (t : Ty) : Ty := .app (.con 1) (.cons t .nil)

/-- `Eq` and its subclass `Ord`, for `Int` and for lists. -/
def orders : World where
  cls
    | 0 => some ⟨[10], []⟩
    | 1 => some ⟨[11], [⟨20, 0, [.gen 11 0]⟩]⟩
    | _ => none
  inst
    | 0 => ⟨[], [], 0, [int]⟩
    | 1 => ⟨[], [], 1, [int]⟩
    | 2 => ⟨[12], [⟨30, 0, [.gen 12 0]⟩], 0, [list (.gen 12 0)]⟩
    | 3 => ⟨[13], [⟨31, 1, [.gen 13 0]⟩], 1, [list (.gen 13 0)]⟩
    | _ => ⟨[], [], 2, []⟩
  avail
    | 0 => [0, 2]
    | 1 => [1, 3]
    | _ => []

def ordersAr : Nat → Nat
  | 2 => 0
  | _ => 1

def s0 : St := ⟨0, Ty.unk, fun _ => 0, 0⟩

theorem s0_wf : WF s0 := ⟨fun _ _ => rfl, fun _ => ⟨rfl, fun h => h⟩⟩

theorem orders_ok : orders.OK where
  sup
    | 0, _, h => by cases h; exact fun _ h => nomatch h
    | 1, _, h => by
      cases h
      intro s hs t ht
      cases List.mem_singleton.1 hs
      cases List.mem_singleton.1 ht
      exact List.mem_singleton.2 rfl
    | _ + 2, _, h => nomatch h
  ids
    | 0, _, h => by cases h; exact .nil
    | 1, _, h => by cases h; exact List.nodup_singleton _
    | _ + 2, _, h => nomatch h
  target
    | 0, t, ht => by cases List.mem_singleton.1 ht; trivial
    | 1, t, ht => by cases List.mem_singleton.1 ht; trivial
    | 2, t, ht => by cases List.mem_singleton.1 ht; exact ⟨trivial, List.mem_singleton.2 rfl, trivial⟩
    | 3, t, ht => by cases List.mem_singleton.1 ht; exact ⟨trivial, List.mem_singleton.2 rfl, trivial⟩
    | _ + 4, t, ht => nomatch ht
  ctx
    | 0, _, h => nomatch h
    | 1, _, h => nomatch h
    | 2, c, hc => by cases List.mem_singleton.1 hc; intro t ht; cases List.mem_singleton.1 ht; exact List.mem_singleton.2 rfl
    | 3, c, hc => by cases List.mem_singleton.1 hc; intro t ht; cases List.mem_singleton.1 ht; exact List.mem_singleton.2 rfl
    | _ + 4, _, h => nomatch h
  ctxIds
    | 0 => .nil
    | 1 => .nil
    | 2 => List.nodup_singleton _
    | 3 => List.nodup_singleton _
    | _ + 4 => .nil
  params
    | 0 => .nil
    | 1 => .nil
    | 2 => List.nodup_singleton _
    | 3 => List.nodup_singleton _
    | _ + 4 => .nil
  avail
    | 0, i, h => by simp only [orders, List.mem_cons, List.not_mem_nil, or_false] at h; rcases h with rfl | rfl <;> rfl
    | 1, i, h => by simp only [orders, List.mem_cons, List.not_mem_nil, or_false] at h; rcases h with rfl | rfl <;> rfl
    | _ + 2, _, h => nomatch h

theorem orders_arity : orders.Arity ordersAr where
  cls
    | 0, _, h => by cases h; exact ⟨rfl, fun _ h => nomatch h⟩
    | 1, _, h => by
      cases h
      refine ⟨rfl, fun s hs => ?_⟩
      cases List.mem_singleton.1 hs
      rfl
    | _ + 2, _, h => nomatch h
  inst
    | 0 => ⟨rfl, fun _ h => nomatch h⟩
    | 1 => ⟨rfl, fun _ h => nomatch h⟩
    | 2 => ⟨rfl, fun c hc => by cases List.mem_singleton.1 hc; rfl⟩
    | 3 => ⟨rfl, fun c hc => by cases List.mem_singleton.1 hc; rfl⟩
    | _ + 4 => ⟨rfl, fun _ h => nomatch h⟩

theorem orders_covered : orders.Covered
  | 0, _, h => nomatch h
  | 1, _, h => nomatch h
  | 2, g, h => by cases List.mem_singleton.1 h; exact ⟨_, List.mem_singleton.2 rfl, .inr (.inl rfl)⟩
  | 3, g, h => by cases List.mem_singleton.1 h; exact ⟨_, List.mem_singleton.2 rfl, .inr (.inl rfl)⟩
  | _ + 4, _, h => nomatch h

theorem orders_smaller : orders.Smaller where
  ctx
    | 0, _, _, _, h => nomatch h
    | 1, _, _, _, h => nomatch h
    | 2, [t], _, c, hc => by
      cases List.mem_singleton.1 hc
      show size t + 0 < (1 + (size t + 0 + 1) + 1) + 0
      omega
    | 3, [t], _, c, hc => by
      cases List.mem_singleton.1 hc
      show size t + 0 < (1 + (size t + 0 + 1) + 1) + 0
      omega
    | _ + 4, _, _, _, h => nomatch h
  sup
    | ⟨0, _⟩, _, h => by cases h; exact fun _ _ h => nomatch h
    | ⟨1, [t]⟩, _, h => by
      cases h
      intro _ s hs
      cases List.mem_singleton.1 hs
      exact Nat.le_refl (size t + 0)
    | ⟨1, []⟩, _, h => by cases h; exact fun h => nomatch h
    | ⟨1, _ :: _ :: _⟩, _, h => by cases h; exact fun h => nomatch h
    | ⟨_ + 2, _⟩, _, h => nomatch h

/-- Two modules: the instances are defined in module 0 and used in module 1. -/
theorem orders_apart : orders.Apart := by
  refine no_overlap (md := fun _ => 0) (mid := 1) (k := fun _ => 10) orders_ok ?_ ?_
  · intro c
    match c with
    | 0 => decide +kernel
    | 1 => decide +kernel
    | _ + 2 => rfl
  · intro m hm c
    refine ⟨orders.avail c, fun _ h _ => h, ?_⟩
    by_cases e : m = 0
    · subst e
      match c with
      | 0 => decide +kernel
      | 1 => decide +kernel
      | _ + 2 => rfl
    · have : ∀ is, overlapChecked 10 orders (fun _ => 0) m is = true := fun is => List.all_eq_true.2 fun p _ => by
        rw [Bool.or_eq_true, Bool.and_eq_true]
        exact .inl ⟨rfl, bne_iff_ne.2 (Ne.symm e)⟩
      exact this _

/-- What is found for the superclasses: `Eq (List a)` by the superclass `Eq a` of what is required, `Ord a`. -/
def ordersX : Nat → List Sat
  | 1 => [.inst 0 [] .nil]
  | 3 => [.inst 2 [.gen 13 0] (.cons (.premise 31 [20]) .nil)]
  | _ => []

theorem orders_inferred : Inferred orders ordersX
  | 0, _ => ⟨5, s0, .nil, s0, s0_wf, rfl, rfl⟩
  | 1, _ => ⟨5, s0, _, _, s0_wf, rfl, rfl⟩
  | 2, _ => ⟨5, s0, .nil, s0, s0_wf, rfl, rfl⟩
  | 3, _ => ⟨5, s0, _, _, s0_wf, rfl, rfl⟩
  | _ + 4, ⟨_, h⟩ => nomatch h

/-- Non-vacuity: in a function over all `a` with `Ord a`, `Eq (List (List a))` is satisfied by the instance for lists and the superclass of the premise. -/
theorem orders_found : ∃ E s', installs orders 5 [⟨40, 1, [.gen 50 1]⟩] = some E ∧
    build 5 orders E limit ⟨0, [list (list (.gen 50 1))]⟩ s0 = some (some (.inst 2 [.unk 0] (.cons (.inst 2 [.unk 1] (.cons (.premise 40 [20]) .nil)) .nil)), s') ∧ s'.σ 0 = list (.gen 50 1) ∧ s'.σ 1 = .gen 50 1 :=
  ⟨_, _, rfl, rfl, rfl, rfl⟩

/-- Called with `a` as `List Int` and the dictionary of `Ord (List Int)`, the dictionary made of it is that of `Eq (List (List (List Int)))`. -/
example : eval orders ordersX 20 (fun g => if g = 50 then some (list int) else none) (fun c => if c = 40 then some (.mk 3 [int] (.cons (.mk 1 [] .nil) .nil)) else none)
    (.inst 2 [list (.gen 50 0)] (.cons (.inst 2 [.gen 50 0] (.cons (.premise 40 [20]) .nil)) .nil)) =
    some (.mk 2 [list (list int)] (.cons (.mk 2 [list int] (.cons (.mk 2 [int] (.cons (.mk 0 [] .nil) .nil)) .nil)) .nil)) := rfl

/-- It is right, and there is no other. -/
example : Right orders (.mk 3 [int] (.cons (.mk 1 [] .nil) .nil)) ⟨1, [list int]⟩ ∧ ∀ D, Right orders D ⟨1, [list int]⟩ → D = .mk 3 [int] (.cons (.mk 1 [] .nil) .nil) :=
  have h : Right orders (.mk 3 [int] (.cons (.mk 1 [] .nil) .nil)) ⟨1, [list int]⟩ :=
    ⟨by decide, rfl, rfl, _, _, rfl, ⟨by decide, rfl, rfl, rfl⟩, rfl⟩
  ⟨h, fun _ hD => coherent orders_ok orders_covered orders_apart hD h⟩

/-- What the function does is sound for every call, and ends. -/
example (t : Ty) (d : Dict) (hd : Right orders d ⟨1, [t]⟩) : ∃ n D, ∀ m, n ≤ m →
    eval orders ordersX m (fun g => if g = 50 then some t else none) (fun c => if c = 40 then some d else none) (.inst 2 [.gen 50 0] (.cons (.premise 40 [20]) .nil)) = some D :=
  dictionary_ends_partial (P := [⟨40, 1, [.gen 50 0]⟩]) (g := ⟨0, [list (.gen 50 0)]⟩) (S := .inst 2 [.gen 50 0] (.cons (.premise 40 [20]) .nil)) orders_ok orders_arity orders_smaller orders_inferred (fun c hc => by cases List.mem_singleton.1 hc; rfl)
    ⟨by decide, rfl, rfl, _, _, rfl, ⟨_, List.mem_singleton.2 rfl, rfl, .up (k := ⟨[11], [⟨20, 0, [.gen 11 0]⟩]⟩) (c := ⟨20, 0, [.gen 11 0]⟩) rfl (List.mem_singleton.2 rfl) (.here _)⟩, rfl⟩
    (fun c hc e he => by cases List.mem_singleton.1 hc; cases he; exact hd) (fun c hc => by cases List.mem_singleton.1 hc; exact ⟨_, rfl⟩)

/-- The search finds what there is. -/
example : ∃ k1, ∀ k, k1 ≤ k → ∃ S' s', build k orders [] 3 ⟨1, [list (list int)]⟩ s0 = some (some S', s') :=
  satisfaction_complete (P := []) (k0 := 0) (S := .inst 3 [list int] (.cons (.inst 3 [int] (.cons (.inst 1 [] .nil) .nil)) .nil)) orders_ok orders_arity orders_covered orders_apart (fun _ h => nomatch h) rfl s0_wf
    (fun t ht => by cases List.mem_singleton.1 ht; exact ⟨trivial, ⟨trivial, trivial, trivial⟩, trivial⟩) rfl
    (fun t ht => by cases List.mem_singleton.1 ht; exact ⟨trivial, ⟨trivial, trivial, trivial⟩, trivial⟩)
    ⟨by decide, rfl, rfl, _, _, rfl, ⟨by decide, rfl, rfl, _, _, rfl, ⟨by decide, rfl, rfl, rfl⟩, rfl⟩, rfl⟩ (by decide)

example : ∃ k E, installs orders k [⟨40, 1, [.gen 50 0]⟩] = some E :=
  install_ends_partial (cs := [(0, []), (1, [0])])
    { nodup := by decide
      all := fun
        | 0, _, h => by cases h; exact List.mem_cons_self ..
        | 1, _, h => by cases h; exact List.mem_cons_of_mem _ (List.mem_cons_self ..)
        | _ + 2, _, h => nomatch h
      known := fun
        | 0, _, h => by cases h; exact fun _ h => nomatch h
        | 1, _, h => by cases h; exact fun s hs => by cases List.mem_singleton.1 hs; rfl
        | _ + 2, _, h => nomatch h } (by decide)
    (fun
      | 0, _, h => by cases h; exact fun _ h => nomatch h
      | 1, _, h => by cases h; exact fun s hs => by cases List.mem_singleton.1 hs; decide
      | _ + 2, _, h => nomatch h)
    (fun c hc => by cases List.mem_singleton.1 hc; rfl)

/-! ### Where it goes wrong -/

/-- Classes `Z`, `A` with the superclass `Z`, `B` with the superclass `A`; instances `(A a)` where `(B a)`, and `(B Int)`.  There is no instance of `Z`. -/
def loop : World where
  cls
    | 0 => some ⟨[10], []⟩
    | 1 => some ⟨[11], [⟨21, 0, [.gen 11 0]⟩]⟩
    | 2 => some ⟨[12], [⟨22, 1, [.gen 12 0]⟩]⟩
    | _ => none
  inst
    | 0 => ⟨[13], [⟨31, 2, [.gen 13 0]⟩], 1, [.gen 13 0]⟩
    | 1 => ⟨[], [], 2, [int]⟩
    | _ => ⟨[], [], 3, []⟩
  avail
    | 1 => [0]
    | 2 => [1]
    | _ => []

def loopAr : Nat → Nat
  | 3 => 0
  | _ => 1

def loopX : Nat → List Sat
  | 0 => [.premise 31 [22, 21]]
  | 1 => [.inst 0 [int] (.cons (.inst 1 [] .nil) .nil)]
  | _ => []

theorem loop_ok : loop.OK where
  sup
    | 0, _, h => by cases h; exact fun _ h => nomatch h
    | 1, _, h => by cases h; intro s hs t ht; cases List.mem_singleton.1 hs; cases List.mem_singleton.1 ht; exact List.mem_singleton.2 rfl
    | 2, _, h => by cases h; intro s hs t ht; cases List.mem_singleton.1 hs; cases List.mem_singleton.1 ht; exact List.mem_singleton.2 rfl
    | _ + 3, _, h => nomatch h
  ids
    | 0, _, h => by cases h; exact .nil
    | 1, _, h => by cases h; exact List.nodup_singleton _
    | 2, _, h => by cases h; exact List.nodup_singleton _
    | _ + 3, _, h => nomatch h
  target
    | 0, t, ht => by cases List.mem_singleton.1 ht; exact List.mem_singleton.2 rfl
    | 1, t, ht => by cases List.mem_singleton.1 ht; trivial
    | _ + 2, t, ht => nomatch ht
  ctx
    | 0, c, hc => by cases List.mem_singleton.1 hc; intro t ht; cases List.mem_singleton.1 ht; exact List.mem_singleton.2 rfl
    | 1, _, h => nomatch h
    | _ + 2, _, h => nomatch h
  ctxIds
    | 0 => List.nodup_singleton _
    | 1 => .nil
    | _ + 2 => .nil
  params
    | 0 => List.nodup_singleton _
    | 1 => .nil
    | _ + 2 => .nil
  avail
    | 0, _, h => nomatch h
    | 1, i, h => by cases List.mem_singleton.1 h; rfl
    | 2, i, h => by cases List.mem_singleton.1 h; rfl
    | _ + 3, _, h => nomatch h

theorem loop_arity : loop.Arity loopAr where
  cls
    | 0, _, h => by cases h; exact ⟨rfl, fun _ h => nomatch h⟩
    | 1, _, h => by cases h; exact ⟨rfl, fun s hs => by cases List.mem_singleton.1 hs; rfl⟩
    | 2, _, h => by cases h; exact ⟨rfl, fun s hs => by cases List.mem_singleton.1 hs; rfl⟩
    | _ + 3, _, h => nomatch h
  inst
    | 0 => ⟨rfl, fun c hc => by cases List.mem_singleton.1 hc; rfl⟩
    | 1 => ⟨rfl, fun _ h => nomatch h⟩
    | _ + 2 => ⟨rfl, fun _ h => nomatch h⟩

theorem loop_inferred : Inferred loop loopX
  | 0, _ => ⟨5, s0, _, _, s0_wf, rfl, rfl⟩
  | 1, _ => ⟨5, s0, _, _, s0_wf, rfl, rfl⟩
  | _ + 2, ⟨_, h⟩ => nomatch h

/-- The satisfactions of the superclasses of all instances are found, and `Z Int` follows from `B Int`; but there is no dictionary for it, and the search
for it never ends. -/
theorem superclass_loop : Inferred loop loopX ∧ Right loop (.mk 1 [] .nil) ⟨2, [int]⟩ ∧ Sup loop ⟨2, [int]⟩ [22, 21] ⟨0, [int]⟩ ∧ (∀ D, ¬ Right loop D ⟨0, [int]⟩) ∧
    ∀ k, eval loop loopX k (fun _ => none) (fun c => if c = 40 then some (.mk 1 [] .nil) else none) (.premise 40 [22, 21]) = none := by
  have hr : Right loop (.mk 1 [] .nil) ⟨2, [int]⟩ := ⟨by decide, rfl, rfl, rfl⟩
  have hs : Sup loop ⟨2, [int]⟩ [22, 21] ⟨0, [int]⟩ :=
    .up (k := ⟨[12], [⟨22, 1, [.gen 12 0]⟩]⟩) (c := ⟨22, 1, [.gen 12 0]⟩) rfl (List.mem_singleton.2 rfl)
      (.up (k := ⟨[11], [⟨21, 0, [.gen 11 0]⟩]⟩) (c := ⟨21, 0, [.gen 11 0]⟩) rfl (List.mem_singleton.2 rfl) (.here _))
  have hn : ∀ D, ¬ Right loop D ⟨0, [int]⟩ := fun | .mk _ _ _, h => nomatch h.1
  refine ⟨loop_inferred, hr, hs, hn, fun k => Option.eq_none_iff_forall_ne_some.2 fun D hD => hn D ?_⟩
  exact eval_right (P := [⟨40, 2, [int]⟩]) (g := ⟨0, [int]⟩) (S := .premise 40 [22, 21]) loop_ok loop_arity (loop_inferred.supers loop_ok loop_arity) k (fun c hc => by cases List.mem_singleton.1 hc; rfl)
    (fun c hc d hd => by cases List.mem_singleton.1 hc; cases hd; exact hr) ⟨_, List.mem_singleton.2 rfl, rfl, hs⟩ hD

/-- A class that is its own superclass: it passes `verify_classes_hierarchy`, and finding the premises of a constraint of it never ends. -/
theorem self_superclass {W : World} (h : W.cls 0 = some ⟨[10], [⟨20, 0, [.gen 10 0]⟩]⟩) : TopoSort.verifyClassesHierarchy [(0, [0])] = some true ∧ ∀ k id path t, install W k id path ⟨0, t⟩ = none := by
  refine ⟨by decide, fun k => ?_⟩
  induction k with
  | zero => exact fun _ _ _ => rfl
  | succ k ih =>
    intro id path t
    rw [install, h]
    show (concat _ [_]).bind _ = none
    rw [concat, show install W k id _ (Goal.inst _ _) = none from ih _ _ _]; rfl

/-- An instance `(C a a Bool)`. -/
def same : World where
  cls _ := some ⟨[10, 11, 12], []⟩
  inst _ := ⟨[13], [], 0, [.gen 13 0, .gen 13 0, .con 2]⟩
  avail _ := [0]

/-- Matching an instance to a constraint writes to the unknown types of the constraint, even if it fails: `(C w Int Char)` is not satisfied by an
instance `(C a a Bool)`, but then `w` is `Int`. -/
theorem failed_match_binds : ∃ s', build 5 same [] limit ⟨0, [.unk 0, int, .con 3]⟩ ⟨1, Ty.unk, fun _ => 0, 0⟩ = some (none, s') ∧ s'.σ 0 = int := ⟨_, rfl, rfl⟩

/-- Nor is that only so if it fails: `(C w Int Bool)` is satisfied and `w` is `Int` then. -/
theorem match_binds : ∃ S s', build 5 same [] limit ⟨0, [.unk 0, int, .con 2]⟩ ⟨1, Ty.unk, fun _ => 0, 0⟩ = some (some S, s') ∧ s'.σ 0 = int := ⟨_, _, rfl, rfl⟩

end Verif.Instances
