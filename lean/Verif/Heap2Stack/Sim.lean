import Verif.Heap2Stack.Marks

/-
Running an expression and running it with a good set of allocations moved go in step.
-/

namespace Verif.Heap2Stack

/-- Live moved allocations: the address in the heap and the place in the stack. -/
abbrev Links := List (Addr × Addr)

/-- The two runs are in step. -/
structure Inv (P : List Nat) (L : Links) (σ σ' : State) : Prop where
  tick : σ'.tick = σ.tick
  frames : σ'.frames = σ.frames
  agree : Agree (hidden P) σ.mem σ'.mem
  link : ∀ a p, (a, p) ∈ L → hidden P a = true ∧ hidden P p = true ∧
    (∃ n s, a = .heap n s ∧ n < σ.tick) ∧ (∃ f s, p = .stack f s ∧ f < σ.frames) ∧
    ∃ v, σ.mem a = some v ∧ σ'.mem p = some v ∧ v.clean (hidden P)
  inj : ∀ a p b q, (a, p) ∈ L → (b, q) ∈ L → (a = b ↔ p = q)

/-- The two environments are in step, for a set of variables whose address is used. -/
def EnvOk (P : List Nat) (L : Links) (E : List Nat) (ρ ρ' : Env) : Prop :=
  ∀ x, (ρ' x = ρ x ∧ ∀ v, ρ x = some v → v.clean (hidden P)) ∨
    (x ∉ E ∧ ∃ a p, (a, p) ∈ L ∧ ρ x = some (.ptr a) ∧ ρ' x = some (.ptr p))

/-- The places of the frame that are in use are not those of the allocations to come. -/
def SiteOk (fr : Nat) (L : Links) (ss : List Nat) : Prop :=
  ∀ a s, (a, Addr.stack fr s) ∈ L → s ∉ ss

/-- An exit that mentions no hidden address. -/
def Exit.clean (hid : Addr → Bool) : Exit → Prop
  | .ret v => v.clean hid
  | .panic v => v.clean hid
  | .jump _ vs => ∀ v ∈ vs, v.clean hid

/-- The two outcomes are in step. -/
def Sim (P : List Nat) (L : Links) (fr : Nat) {α : Type} (Q : α → Prop) : Res α → Res α → Prop
  | .error .stuck, _ => True
  | .error .fuel, r => r = .error .fuel
  | .ok (.ok v, σ), r =>
    ∃ σ', r = .ok (.ok v, σ') ∧ Inv P L σ σ' ∧ fr < σ.frames ∧ Q v
  | .ok (.error x, σ), r =>
    ∃ σ', r = .ok (.error x, σ') ∧ Inv P L σ σ' ∧ fr < σ.frames ∧ x.clean (hidden P)

variable {P : List Nat} {L : Links} {fr : Nat}

theorem sim_bind {α β : Type} {Q : α → Prop} {Q' : β → Prop} {r r' : Res α}
    {f f' : α → State → Res β} (h : Sim P L fr Q r r')
    (hf : ∀ a σ σ', Q a → Inv P L σ σ' → fr < σ.frames → Sim P L fr Q' (f a σ) (f' a σ')) :
    Sim P L fr Q' (r.bind f) (r'.bind f') := by
  match r, h with
  | .error .stuck, _ => exact True.intro
  | .error .fuel, h => simp only [Sim] at h; subst h; rfl
  | .ok (.ok v, σ), h =>
    obtain ⟨σ', rfl, h1, h2, h3⟩ := h
    exact hf v σ σ' h3 h1 h2
  | .ok (.error x, σ), h =>
    obtain ⟨σ', rfl, h1, h2, h3⟩ := h
    exact ⟨σ', rfl, h1, h2, h3⟩

theorem Inv.weaken {l : Addr × Addr} {σ σ' : State} (h : Inv P (l :: L) σ σ') : Inv P L σ σ' :=
  ⟨h.tick, h.frames, h.agree, fun a p q => h.link a p (List.mem_cons_of_mem _ q),
    fun a p b q h1 h2 => h.inj a p b q (List.mem_cons_of_mem _ h1) (List.mem_cons_of_mem _ h2)⟩

theorem Sim.weaken {α : Type} {Q : α → Prop} {l : Addr × Addr} {r r' : Res α}
    (h : Sim P (l :: L) fr Q r r') : Sim P L fr Q r r' := by
  match r, h with
  | .error .stuck, _ => exact True.intro
  | .error .fuel, h => exact h
  | .ok (.ok v, σ), h =>
    obtain ⟨σ', e, h1, h2, h3⟩ := h; exact ⟨σ', e, h1.weaken, h2, h3⟩
  | .ok (.error x, σ), h =>
    obtain ⟨σ', e, h1, h2, h3⟩ := h; exact ⟨σ', e, h1.weaken, h2, h3⟩

theorem EnvOk.mono {E E' : List Nat} {ρ ρ' : Env} (h : EnvOk P L E ρ ρ') (hs : ∀ x ∈ E', x ∈ E) :
    EnvOk P L E' ρ ρ' := fun x => (h x).imp id (fun q => ⟨fun w => q.1 (hs x w), q.2⟩)

theorem EnvOk.cons {E : List Nat} {ρ ρ' : Env} {l : Addr × Addr} (h : EnvOk P L E ρ ρ') :
    EnvOk P (l :: L) E ρ ρ' := fun x => (h x).imp id
  (fun ⟨q, a, p, h1, h2⟩ => ⟨q, a, p, List.mem_cons_of_mem _ h1, h2⟩)

theorem EnvOk.set {E : List Nat} {ρ ρ' : Env} (h : EnvOk P L E ρ ρ') (x : Nat) (v : V)
    (hv : v.clean (hidden P)) : EnvOk P L E (ρ.set x v) (ρ'.set x v) := by
  intro y
  by_cases e : y = x
  · left; simp only [Env.set, if_pos e]
    exact ⟨trivial, fun w hw => by cases hw; exact hv⟩
  · have := h y
    simpa only [Env.set, if_neg e] using this

theorem EnvOk.setAll {E : List Nat} : ∀ (xs : List Nat) (vs : List V) (ρ ρ' ρ₁ : Env),
    EnvOk P L E ρ ρ' → (∀ v ∈ vs, v.clean (hidden P)) → ρ.setAll xs vs = some ρ₁ →
    ∃ ρ₁', ρ'.setAll xs vs = some ρ₁' ∧ EnvOk P L E ρ₁ ρ₁'
  | [], [], ρ, ρ', ρ₁, h, _, e => by
    simp only [Env.setAll, Option.some.injEq] at e; subst e; exact ⟨ρ', rfl, h⟩
  | x :: xs, v :: vs, ρ, ρ', ρ₁, h, hv, e => by
    simp only [Env.setAll] at e ⊢
    exact EnvOk.setAll xs vs _ _ _ (h.set x v (hv v (List.mem_cons_self ..)))
      (fun w hw => hv w (List.mem_cons_of_mem _ hw)) e
  | [], _ :: _, _, _, _, _, _, e => by simp [Env.setAll] at e
  | _ :: _, [], _, _, _, _, _, e => by simp [Env.setAll] at e

theorem EnvOk.setEnv {E : List Nat} : ∀ (xs : List Nat) (v : V) (ρ ρ' ρ₁ : Env),
    EnvOk P L E ρ ρ' → v.clean (hidden P) → ρ.setEnv xs v = some ρ₁ →
    ∃ ρ₁', ρ'.setEnv xs v = some ρ₁' ∧ EnvOk P L E ρ₁ ρ₁'
  | [], v, ρ, ρ', ρ₁, h, _, e => by
    simp only [Env.setEnv, Option.some.injEq] at e; subst e; exact ⟨ρ', rfl, h⟩
  | x :: xs, .pair v w, ρ, ρ', ρ₁, h, hv, e => by
    simp only [Env.setEnv] at e ⊢
    exact EnvOk.setEnv xs w _ _ _ (h.set x v hv.1) hv.2 e
  | _ :: _, .word _, _, _, _, _, _, e => by simp [Env.setEnv] at e
  | _ :: _, .ptr _, _, _, _, _, _, e => by simp [Env.setEnv] at e
  | _ :: _, .clos _ _, _, _, _, _, _, e => by simp [Env.setEnv] at e

theorem SiteOk.mono {A B : List Nat} (h : SiteOk fr L A) (hs : ∀ s ∈ B, s ∈ A) : SiteOk fr L B :=
  fun a s q w => h a s q (hs s w)

theorem Mem.set_eq (m : Mem) (a : Addr) (v : V) : m.set a v a = some v := if_pos rfl

theorem Mem.set_ne (m : Mem) {a b : Addr} (v : V) (h : b ≠ a) : m.set a v b = m b := if_neg h

/-- Writing a cell that is not hidden, in both runs. -/
theorem Inv.setOpen {σ σ' : State} (h : Inv P L σ σ') {a : Addr} (ha : hidden P a = false) {v : V}
    (hv : v.clean (hidden P)) (t : Nat) (ht : σ.tick ≤ t) :
    Inv P L { σ with mem := σ.mem.set a v, tick := t } { σ' with mem := σ'.mem.set a v, tick := t } := by
  refine ⟨rfl, h.frames, ?_, ?_, h.inj⟩
  · intro b hb
    show σ.mem.set a v b = σ'.mem.set a v b ∧ _
    by_cases e : b = a
    · subst e
      rw [Mem.set_eq, Mem.set_eq]
      exact ⟨rfl, fun w hw => by
        have : σ.mem.set b v b = some w := hw
        rw [Mem.set_eq] at this; cases this; exact hv⟩
    · rw [Mem.set_ne _ _ e, Mem.set_ne _ _ e]
      exact ⟨(h.agree b hb).1, fun w hw => (h.agree b hb).2 w (by
        have : σ.mem.set a v b = some w := hw
        rwa [Mem.set_ne _ _ e] at this)⟩
  · intro b p hl
    obtain ⟨h1, h2, ⟨n, s, e, hn⟩, h4, w, h5, h6, h7⟩ := h.link b p hl
    refine ⟨h1, h2, ⟨n, s, e, Nat.lt_of_lt_of_le hn ht⟩, h4, w, ?_, ?_, h7⟩
    · show σ.mem.set a v b = some w
      rw [Mem.set_ne _ _ (fun q => by rw [q, ha] at h1; cases h1)]; exact h5
    · show σ'.mem.set a v p = some w
      rw [Mem.set_ne _ _ (fun q => by rw [q, ha] at h2; cases h2)]; exact h6

/-- Writing both cells of a link. -/
theorem Inv.setLink {σ σ' : State} (h : Inv P L σ σ') {a p : Addr} (hl : (a, p) ∈ L) {v : V}
    (hv : v.clean (hidden P)) :
    Inv P L { σ with mem := σ.mem.set a v } { σ' with mem := σ'.mem.set p v } := by
  obtain ⟨ha, hp, -⟩ := h.link a p hl
  refine ⟨h.tick, h.frames, ?_, ?_, h.inj⟩
  · intro b hb
    have e1 : b ≠ a := fun q => by rw [q, ha] at hb; cases hb
    have e2 : b ≠ p := fun q => by rw [q, hp] at hb; cases hb
    show σ.mem.set a v b = σ'.mem.set p v b ∧ ∀ w, σ.mem.set a v b = some w → _
    rw [Mem.set_ne _ _ e1, Mem.set_ne _ _ e2]
    exact h.agree b hb
  · intro b q hl'
    obtain ⟨h1, h2, h3, h4, w, h5, h6, h7⟩ := h.link b q hl'
    by_cases e : b = a
    · have e' : q = p := (h.inj b q a p hl' hl).1 e
      subst e; subst e'
      exact ⟨h1, h2, h3, h4, v, Mem.set_eq .., Mem.set_eq .., hv⟩
    · have e' : q ≠ p := fun w => e ((h.inj b q a p hl' hl).2 w)
      exact ⟨h1, h2, h3, h4, w, by
        show σ.mem.set a v b = some w
        rw [Mem.set_ne _ _ e]; exact h5, by
        show σ'.mem.set p v q = some w
        rw [Mem.set_ne _ _ e']; exact h6, h7⟩

/-- A new link. -/
theorem Inv.newLink {σ σ' : State} (h : Inv P L σ σ') {s : Nat} (hs : s ∈ P) {v : V}
    (hv : v.clean (hidden P)) (hfr : fr < σ.frames) (hf : ∀ a, (a, Addr.stack fr s) ∉ L) :
    Inv P ((.heap σ.tick s, .stack fr s) :: L)
      { σ with mem := σ.mem.set (.heap σ.tick s) v, tick := σ.tick + 1 }
      { σ' with mem := σ'.mem.set (.stack fr s) v, tick := σ'.tick + 1 } := by
  have ha : hidden P (.heap σ.tick s) = true := by simp [hidden, hs]
  have hp : hidden P (.stack fr s) = true := by simp [hidden, hs]
  have hfa : ∀ a p, (a, p) ∈ L → a ≠ .heap σ.tick s := by
    intro a p hl e
    obtain ⟨-, -, ⟨n, t, e', hn⟩, -⟩ := h.link a p hl
    rw [e] at e'; cases e'; exact Nat.lt_irrefl _ hn
  have hfp : ∀ a p, (a, p) ∈ L → p ≠ .stack fr s := by
    intro a p hl e; subst e; exact hf a hl
  refine ⟨by show σ'.tick + 1 = σ.tick + 1; rw [h.tick], h.frames, ?_, ?_, ?_⟩
  · intro b hb
    have e1 : b ≠ .heap σ.tick s := fun q => by rw [q, ha] at hb; cases hb
    have e2 : b ≠ .stack fr s := fun q => by rw [q, hp] at hb; cases hb
    show σ.mem.set _ v b = σ'.mem.set _ v b ∧ ∀ w, σ.mem.set _ v b = some w → _
    rw [Mem.set_ne _ _ e1, Mem.set_ne _ _ e2]
    exact h.agree b hb
  · intro b q hl'
    rcases List.mem_cons.1 hl' with e | hl'
    · cases e
      exact ⟨ha, hp, ⟨_, _, rfl, Nat.lt_succ_self _⟩, ⟨_, _, rfl, hfr⟩, v, Mem.set_eq ..,
        Mem.set_eq .., hv⟩
    · obtain ⟨h1, h2, ⟨n, t, e, hn⟩, h4, w, h5, h6, h7⟩ := h.link b q hl'
      exact ⟨h1, h2, ⟨n, t, e, Nat.lt_succ_of_lt hn⟩, h4, w, by
        show σ.mem.set _ v b = some w
        rw [Mem.set_ne _ _ (hfa b q hl')]; exact h5, by
        show σ'.mem.set _ v q = some w
        rw [Mem.set_ne _ _ (hfp b q hl')]; exact h6, h7⟩
  · intro a p b q h1 h2
    rcases List.mem_cons.1 h1 with e1 | h1 <;> rcases List.mem_cons.1 h2 with e2 | h2
    · cases e1; cases e2; simp
    · cases e1
      exact ⟨fun e => absurd e.symm (hfa b q h2), fun e => absurd e.symm (hfp b q h2)⟩
    · cases e2
      exact ⟨fun e => absurd e (hfa a p h1), fun e => absurd e (hfp a p h1)⟩
    · exact h.inj a p b q h1 h2

/-- The frame of a call given back in both runs. -/
theorem Inv.pop {σ σ' : State} (h : Inv P L σ σ') (g : Nat)
    (hg : ∀ a p, (a, p) ∈ L → ∀ s, p ≠ .stack g s) :
    Inv P L { σ with mem := σ.mem.pop g } { σ' with mem := σ'.mem.pop g } := by
  refine ⟨h.tick, h.frames, ?_, ?_, h.inj⟩
  · intro b hb
    show σ.mem.pop g b = σ'.mem.pop g b ∧ ∀ w, σ.mem.pop g b = some w → _
    cases b with
    | stack f s =>
      simp only [Mem.pop]
      by_cases e : f = g
      · simp [e]
      · simp only [if_neg e]; exact h.agree _ hb
    | heap n s => exact h.agree _ hb
    | obj n => exact h.agree _ hb
  · intro b p hl
    obtain ⟨h1, h2, ⟨n, t, e, hn⟩, ⟨f, s, e', hf⟩, w, h5, h6, h7⟩ := h.link b p hl
    refine ⟨h1, h2, ⟨n, t, e, hn⟩, ⟨f, s, e', hf⟩, w, ?_, ?_, h7⟩
    · subst e; exact h5
    · subst e'
      show σ'.mem.pop g (.stack f s) = some w
      simp only [Mem.pop]
      rw [if_neg (fun e => hg b _ hl s (by rw [e]))]; exact h6

theorem find_mark : (ks : Conts) → ∀ k, (markConts P ks).find k =
    (ks.find k).map (fun q => (q.1, mark P false q.2))
  | .nil => fun _ => rfl
  | .cons j ps b ks => fun k => by
    simp only [markConts, Conts.find]
    split
    · rfl
    · exact find_mark ks k

theorem find_ok : (ks : Conts) → ∀ k ps b, ks.find k = some (ps, b) → OkConts P ks →
    (sitesConts ks).Nodup →
    Ok P none b ∧ (sites b).Nodup ∧ (∀ s ∈ sites b, s ∈ sitesConts ks) ∧
      (∀ x ∈ escs b, x ∈ escsConts ks)
  | .nil => fun _ _ _ h _ _ => by simp [Conts.find] at h
  | .cons j ps' b' ks => fun k ps b h ho hn => by
    simp only [sitesConts, List.nodup_append, OkConts] at hn ho
    simp only [Conts.find] at h
    split at h
    · cases h
      exact ⟨ho.1, hn.1, fun s hs => by simp only [sitesConts, List.mem_append]; exact Or.inl hs,
        fun s hs => by simp only [escsConts, List.mem_append]; exact Or.inl hs⟩
    · obtain ⟨h1, h2, h3, h4⟩ := find_ok ks k ps b h ho.2 hn.2.1
      exact ⟨h1, h2, fun s hs => by simp only [sitesConts, List.mem_append]; exact Or.inr (h3 s hs),
        fun s hs => by simp only [escsConts, List.mem_append]; exact Or.inr (h4 s hs)⟩

theorem okVars_mono : (vs : Vars) → ∀ (E E' : List Nat), (∀ x ∈ E', x ∈ E) → OkVars P E vs →
    OkVars P E' vs
  | .nil => fun _ _ _ _ => trivial
  | .cons x i vs => fun E E' hs h => by
    simp only [OkVars] at h ⊢
    refine ⟨?_, okVars_mono vs E E' hs h.2⟩
    cases i <;> first
      | exact h.1
      | (simp only [Ok] at h ⊢
         exact ⟨fun hp => by
           obtain ⟨q1, y, F, e, q2⟩ := h.1.1 hp
           cases e
           exact ⟨q1, x, E', rfl, fun w => q2 (hs x w)⟩, h.1.2⟩)

/-- An initial value that is not moved. -/
theorem init_cases (i : Rt) (x : Nat) (E : List Nat) (h : Ok P (some (x, E)) i) :
    (∃ s j, i = .alloc .heap s j ∧ s ∈ P ∧ x ∉ E ∧ Ok P none j) ∨
    (mark P true i = mark P false i ∧ Ok P none i) := by
  cases i with
  | alloc l s j =>
    simp only [Ok] at h
    by_cases hs : s ∈ P
    · obtain ⟨rfl, y, F, e, q⟩ := h.1 hs
      cases e
      exact Or.inl ⟨s, j, rfl, hs, q, h.2⟩
    · right
      simp only [mark, Ok]
      exact ⟨by simp [hs], fun q => absurd q hs, h.2⟩
  | _ => exact Or.inr ⟨rfl, h⟩

/-- The functions of a program with the allocations of a set of sites moved. -/
def markFns (P : List Nat) (prog : List Fn) : List Fn :=
  prog.map fun f => { f with body := mark P false f.body }

/-- The statement at a number of steps. -/
structure Steps (prog : List Fn) (prim : Prim) (P : List Nat) (n : Nat) : Prop where
  eval : ∀ (fr : Nat) (ρ ρ' : Env) (e : Rt) (σ σ' : State) (L : Links),
    Ok P none e → (sites e).Nodup → SiteOk fr L (sites e) → EnvOk P L (escs e) ρ ρ' →
    Inv P L σ σ' → fr < σ.frames →
    Sim P L fr (V.clean (hidden P)) (eval prog prim n fr ρ e σ)
      (eval (markFns P prog) prim n fr ρ' (mark P false e) σ')
  list : ∀ (fr : Nat) (ρ ρ' : Env) (es : Rts) (σ σ' : State) (L : Links),
    OkList P es → (sitesList es).Nodup → SiteOk fr L (sitesList es) →
    EnvOk P L (escsList es) ρ ρ' → Inv P L σ σ' → fr < σ.frames →
    Sim P L fr (fun vs => ∀ v ∈ vs, V.clean (hidden P) v) (evalList prog prim n fr ρ es σ)
      (evalList (markFns P prog) prim n fr ρ' (markList P es) σ')
  app : ∀ (fr : Nat) (f : V) (vs : List V) (σ σ' : State) (L : Links),
    f.clean (hidden P) → (∀ v ∈ vs, V.clean (hidden P) v) → Inv P L σ σ' → fr < σ.frames →
    Sim P L fr (V.clean (hidden P)) (apply prog prim n f vs σ)
      (apply (markFns P prog) prim n f vs σ')
  handle : ∀ (fr : Nat) (ρ ρ' : Env) (ks : Conts) (r r' : Res V) (L : Links),
    OkConts P ks → (sitesConts ks).Nodup → SiteOk fr L (sitesConts ks) →
    EnvOk P L (escsConts ks) ρ ρ' → Sim P L fr (V.clean (hidden P)) r r' →
    Sim P L fr (V.clean (hidden P)) (handle prog prim n fr ρ ks r)
      (handle (markFns P prog) prim n fr ρ' (markConts P ks) r')

end Verif.Heap2Stack
