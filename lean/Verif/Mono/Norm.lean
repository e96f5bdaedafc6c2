import Verif.Mono.Sound

/-!
# The normalizer, step by step
-/

namespace Verif.Mono

variable {Δ : Nat → Option Def} {pm : Nat → Prop} {n0 : Nat}

theorem bind_eq {α β} (m : M α) (f : α → M β) (s : St) : (m >>= f) s = M.bind m f s := rfl

theorem pure_eq {α} (a : α) (s : St) : (pure a : M α) s = .ok a s := rfl

theorem bind_ok {α β} {m : M α} {f : α → M β} {s s' : St} {b : β}
    (h : (m >>= f) s = .ok b s') : ∃ a s1, m s = .ok a s1 ∧ f a s1 = .ok b s' := by
  rw [bind_eq, M.bind] at h
  split at h
  · rename_i a s1 hm
    exact ⟨a, s1, hm, h⟩
  · cases h
  · cases h

/-- What is shown of the normalizer on expressions. -/
def Sem (Δ : Nat → Option Def) (pm : Nat → Prop) (n0 : Nat) (f : Ct → M Ct) : Prop :=
  ∀ t s t' s', Inv Δ pm n0 s → t.All (Ok pm s) → f t s = .ok t' s' →
    Post Δ pm n0 s s' ∧ t'.Normal (Fine Δ pm s') ∧
      Eval Δ (Used s') (t.bind s.den) (t'.bind s'.den)

variable {f : Ct → M Ct}

theorem each_sem (hf : Sem Δ pm n0 f) : ∀ (ts : List Ct) (s : St) (ts' : List Ct) (s' : St),
    Inv Δ pm n0 s → Ct.Alls (Ok pm s) ts → each f ts s = .ok ts' s' →
    Post Δ pm n0 s s' ∧ Ct.Normals (Fine Δ pm s') ts' ∧
      Evals Δ (Used s') (Ct.binds s.den ts) (Ct.binds s'.den ts')
  | [], s, ts', s', hi, _, h => by
    cases h
    exact ⟨Post.refl hi, trivial, .nil⟩
  | t :: ts, s, ts', s', hi, ha, h => by
    obtain ⟨t1, s1, h1, h⟩ := bind_ok h
    obtain ⟨ts1, s2, h2, h⟩ := bind_ok h
    cases h
    obtain ⟨p1, n1, e1⟩ := hf t s t1 s1 hi ha.1 h1
    obtain ⟨p2, n2, e2⟩ := each_sem hf ts s1 ts1 s' p1.inv (Ct.Alls.mono p1.ext.ok ts ha.2) h2
    refine ⟨p1.trans p2, ⟨Ct.Normal.mono p2.ext.fine _ n1, n2⟩, ?_⟩
    simp only [Ct.binds]
    refine .cons ?_ ?_
    · rw [p2.ext.bind (normal_ok n1)]
      exact e1.mono p2.ext.used
    · rw [← p1.ext.binds ha.2]
      exact e2

theorem eachList_sem (hf : Sem Δ pm n0 f) : ∀ (ts : List (List Ct)) (s : St) (ts' : List (List Ct))
    (s' : St), Inv Δ pm n0 s → (∀ l ∈ ts, Ct.Alls (Ok pm s) l) → eachList f ts s = .ok ts' s' →
    Post Δ pm n0 s s' ∧ (∀ l ∈ ts', Ct.Normals (Fine Δ pm s') l) ∧
      List.Forall₂ (Evals Δ (Used s')) (ts.map (·.map (Ct.bind s.den)))
        (ts'.map (·.map (Ct.bind s'.den)))
  | [], s, ts', s', hi, _, h => by
    cases h
    exact ⟨Post.refl hi, by simp, .nil⟩
  | t :: ts, s, ts', s', hi, ha, h => by
    obtain ⟨t1, s1, h1, h⟩ := bind_ok h
    obtain ⟨ts1, s2, h2, h⟩ := bind_ok h
    cases h
    have hat := ha t List.mem_cons_self
    have hats := fun l hl => ha l (List.mem_cons_of_mem t hl)
    obtain ⟨p1, n1, e1⟩ := each_sem hf t s t1 s1 hi hat h1
    obtain ⟨p2, n2, e2⟩ := eachList_sem hf ts s1 ts1 s' p1.inv
      (fun l hl => Ct.Alls.mono p1.ext.ok l (hats l hl)) h2
    refine ⟨p1.trans p2, ?_, ?_⟩
    · intro l hl
      rcases List.mem_cons.1 hl with rfl | hl
      · exact Ct.Normals.mono p2.ext.fine _ n1
      · exact n2 l hl
    · simp only [List.map_cons]
      refine .cons ?_ ?_
      · rw [← binds_eq, ← binds_eq,
          p2.ext.binds (pm := pm) (Ct.Normals.all _ (Ct.Normals.mono (fun _ h => h.ok) _ n1))]
        exact e1.mono p2.ext.used
      · have : ts.map (·.map (Ct.bind s.den)) = ts.map (·.map (Ct.bind s1.den)) := by
          apply List.map_congr_left
          intro l hl
          rw [← binds_eq, ← binds_eq, p1.ext.binds (hats l hl)]
        rw [this]
        exact e2

theorem eachEntry_sem (hf : Sem Δ pm n0 f) : ∀ (ts : List (Nat × Ct)) (s : St)
    (ts' : List (Nat × Ct)) (s' : St), Inv Δ pm n0 s → (∀ e ∈ ts, e.2.All (Ok pm s)) →
    eachEntry f ts s = .ok ts' s' →
    Post Δ pm n0 s s' ∧ (∀ e ∈ ts', e.2.Normal (Fine Δ pm s')) ∧
      List.Forall₂ (fun a b : Nat × Ct => a.1 = b.1 ∧ Eval Δ (Used s') a.2 b.2)
        (ts.map fun e => (e.1, e.2.bind s.den)) (ts'.map fun e => (e.1, e.2.bind s'.den))
  | [], s, ts', s', hi, _, h => by
    cases h
    exact ⟨Post.refl hi, by simp, .nil⟩
  | (k, t) :: ts, s, ts', s', hi, ha, h => by
    obtain ⟨t1, s1, h1, h⟩ := bind_ok h
    obtain ⟨ts1, s2, h2, h⟩ := bind_ok h
    cases h
    have hat := ha (k, t) List.mem_cons_self
    have hats := fun l hl => ha l (List.mem_cons_of_mem (k, t) hl)
    obtain ⟨p1, n1, e1⟩ := hf t s t1 s1 hi hat h1
    obtain ⟨p2, n2, e2⟩ := eachEntry_sem hf ts s1 ts1 s' p1.inv
      (fun l hl => Ct.All.mono p1.ext.ok l.2 (hats l hl)) h2
    refine ⟨p1.trans p2, ?_, ?_⟩
    · intro l hl
      rcases List.mem_cons.1 hl with rfl | hl
      · exact Ct.Normal.mono p2.ext.fine _ n1
      · exact n2 l hl
    · simp only [List.map_cons]
      refine .cons ⟨rfl, ?_⟩ ?_
      · simp only
        rw [p2.ext.bind (normal_ok n1)]
        exact e1.mono p2.ext.used
      · have : ts.map (fun e => (e.1, e.2.bind s.den)) =
            ts.map (fun e => (e.1, e.2.bind s1.den)) := by
          apply List.map_congr_left
          intro l hl
          rw [p1.ext.bind (hats l hl)]
        rw [this]
        exact e2

theorem rewriteDef_sem (hf : Sem Δ pm n0 f) (d : Def) (s : St) (d' : Def) (s' : St)
    (hi : Inv Δ pm n0 s) (hg : ¬ d.IsGeneric) (ha : ∀ t ∈ d.terms, t.All (Ok pm s))
    (h : rewriteDef f d s = .ok d' s') :
    Post Δ pm n0 s s' ∧ (∀ t ∈ d'.terms, t.Normal (Fine Δ pm s')) ∧
      DefEval Δ (Used s') (d.map (Ct.bind s.den)) (d'.map (Ct.bind s'.den)) := by
  cases d with
  | generic ps d => exact absurd trivial hg
  | «alias» t =>
    obtain ⟨t1, s1, h1, h⟩ := bind_ok h
    cases h
    obtain ⟨p, n, e⟩ := hf t s t1 s' hi (ha t (by simp [Def.terms])) h1
    exact ⟨p, by simpa [Def.terms] using n, .alias e⟩
  | table m =>
    obtain ⟨t1, s1, h1, h⟩ := bind_ok h
    cases h
    obtain ⟨p, n, e⟩ := eachEntry_sem hf m s t1 s' hi
      (fun e he => ha e.2 (List.mem_map.2 ⟨e, he, rfl⟩)) h1
    refine ⟨p, ?_, .table e⟩
    intro t ht
    obtain ⟨x, hx, rfl⟩ := List.mem_map.1 ht
    exact n x hx
  | data cs =>
    obtain ⟨t1, s1, h1, h⟩ := bind_ok h
    cases h
    obtain ⟨p, n, e⟩ := eachList_sem hf cs s t1 s' hi
      (fun l hl => (alls_iff _ _).2 fun t ht => ha t (List.mem_flatten.2 ⟨l, hl, ht⟩)) h1
    refine ⟨p, ?_, .data e⟩
    intro t ht
    obtain ⟨l, hl, ht⟩ := List.mem_flatten.1 ht
    exact (normals_iff _ _).1 (n l hl) t ht
  | struct as =>
    obtain ⟨t1, s1, h1, h⟩ := bind_ok h
    cases h
    obtain ⟨p, n, e⟩ := each_sem hf as s t1 s' hi ((alls_iff _ _).2 ha) h1
    rw [binds_eq, binds_eq] at e
    exact ⟨p, (normals_iff _ _).1 n, .struct e⟩
  | union as =>
    obtain ⟨t1, s1, h1, h⟩ := bind_ok h
    cases h
    obtain ⟨p, n, e⟩ := each_sem hf as s t1 s' hi ((alls_iff _ _).2 ha) h1
    rw [binds_eq, binds_eq] at e
    exact ⟨p, (normals_iff _ _).1 n, .union e⟩
  | function as =>
    obtain ⟨t1, s1, h1, h⟩ := bind_ok h
    cases h
    obtain ⟨p, n, e⟩ := each_sem hf as s t1 s' hi ((alls_iff _ _).2 ha) h1
    rw [binds_eq, binds_eq] at e
    exact ⟨p, (normals_iff _ _).1 n, .function e⟩

/-- What `getDef` gives. -/
def Gives (Δ : Nat → Option Def) (pm : Nat → Prop) (s : St) (c : Nat) :
    Option (Bool × Def) → Prop
  | none => DefOf Δ (s.den c) = none
  | some (true, d) => ∃ D, DefOf Δ (s.den c) = some D ∧ Rel Δ pm s .normalized d D
  | some (false, d) => ∃ D, DefOf Δ (s.den c) = some D ∧
      (Rel Δ pm s .generalized d D ∨ Rel Δ pm s .normalizing d D)

theorem getDef_sem (hf : Sem Δ pm n0 f) {c : Nat} {s s' : St} {r} (hi : Inv Δ pm n0 s)
    (hc : c < s.next) (h : getDef f c s = .ok r s') :
    Post Δ pm n0 s s' ∧ Seen s' c ∧ Gives Δ pm s' c r := by
  unfold getDef at h
  split at h
  · rename_i hd
    cases h
    exact ⟨Post.refl hi, fun d => by rw [hd]; simp, hi.undef c hc hd⟩
  · rename_i d hd
    cases h
    obtain ⟨D, hD, hr⟩ := hi.defd c _ d hd
    exact ⟨Post.refl hi, fun d => by rw [hd]; simp, D, hD, .inl hr⟩
  · rename_i d hd
    obtain ⟨D, hD, hr⟩ := hi.defd c _ d hd
    obtain ⟨u, s1, h1, h⟩ := bind_ok h
    cases h1
    obtain ⟨d', s2, h2, h⟩ := bind_ok h
    obtain ⟨u, s3, h3, h⟩ := bind_ok h
    cases h3
    cases h
    obtain ⟨hi1, he1⟩ := hi.setDef (ph := .normalizing) (d := d) hc (by simp) hD hr
      (fun d' => by rw [hd]; simp)
    obtain ⟨p, n, e⟩ := rewriteDef_sem hf d _ d' s2 hi1 (by
      have := hr.1; rw [← hr.2.1, Def.isGeneric_map] at this; exact this) hr.2.2 h2
    have hc2 : c < s2.next := Nat.lt_of_lt_of_le hc p.ext.le
    have hden : s2.den c = s.den c := p.ext.den c hc
    have hrel : Rel Δ pm s2 .normalized d' D := by
      refine ⟨?_, n⟩
      have h2 : d.map (Ct.bind s.den) = D := hr.2.1
      rw [← h2]
      exact e
    obtain ⟨hi3, he3⟩ := p.inv.setDef (ph := .normalized) (d := d') hc2 (by simp)
      (by rw [hden]; exact hD) hrel (fun d'' hd'' => by
        obtain ⟨x, hx⟩ := (p.busy c).2 ⟨d, by simp⟩
        rw [hx] at hd''
        cases hd'')
    refine ⟨⟨hi3, (he1.trans p.ext).trans he3, ?_⟩, ?_, D, ?_, hrel.ext he3⟩
    · intro b
      by_cases hb : b = c
      · subst hb
        simp [hd]
      · have := p.busy b
        simp only [Function.update_of_ne hb] at this ⊢
        exact this
    · intro d''
      simp
    · show DefOf Δ (s2.den c) = some D
      rw [hden]; exact hD
  · rename_i d hd
    cases h
    obtain ⟨D, hD, hr⟩ := hi.defd c _ d hd
    exact ⟨Post.refl hi, fun d => by rw [hd]; simp, D, hD, .inr hr⟩
  · rename_i d hd
    cases h
    obtain ⟨D, hD, hr⟩ := hi.defd c _ d hd
    exact ⟨Post.refl hi, fun d => by rw [hd]; simp, D, hD, hr⟩

theorem lookup_map_snd (g : Ct → Ct) (m : List (Nat × Ct)) (k : Nat) :
    (m.map fun e => (e.1, g e.2)).lookup k = (m.lookup k).map g := by
  induction m with
  | nil => rfl
  | cons e m ih =>
    obtain ⟨j, t⟩ := e
    simp only [List.map_cons, List.lookup]
    cases (k == j) with
    | true => rfl
    | false => exact ih

theorem lookup_forall₂ {R : Ct → Ct → Prop} {m m' : List (Nat × Ct)} {k : Nat} {x : Ct}
    (h : List.Forall₂ (fun a b : Nat × Ct => a.1 = b.1 ∧ R a.2 b.2) m m')
    (hx : m'.lookup k = some x) : ∃ y, m.lookup k = some y ∧ R y x := by
  induction h with
  | nil => simp at hx
  | @cons a b _ _ hab _ ih =>
    obtain ⟨j, t⟩ := a
    obtain ⟨j', t'⟩ := b
    obtain ⟨rfl, hr⟩ := hab
    simp only [List.lookup] at hx ⊢
    cases hk : (k == j) with
    | true => simp only [hk] at hx ⊢; cases hx; exact ⟨t, rfl, hr⟩
    | false => simp only [hk] at hx ⊢; exact ih hx

theorem lookup_mem {m : List (Nat × Ct)} {k : Nat} {x : Ct} (h : m.lookup k = some x) :
    ∃ e ∈ m, e.2 = x := by
  induction m with
  | nil => simp at h
  | cons e m ih =>
    obtain ⟨j, t⟩ := e
    simp only [List.lookup] at h
    cases hk : (k == j) with
    | true => simp only [hk] at h; cases h; exact ⟨_, List.mem_cons_self, rfl⟩
    | false =>
      simp only [hk] at h
      obtain ⟨e, he, h⟩ := ih h
      exact ⟨e, List.mem_cons_of_mem _ he, h⟩

theorem norm_sem (ht : Tidy Δ pm n0) : ∀ n, Sem Δ pm n0 (norm n)
  | 0, t, s, t', s', hi, ha, h => by simp [norm] at h
  | n + 1, .id c, s, t', s', hi, ha, h => by
    have ih := norm_sem ht n
    simp only [norm] at h
    obtain ⟨r, s1, h1, h⟩ := bind_ok h
    obtain ⟨p1, hs, hg⟩ := getDef_sem ih hi ha.1 h1
    have hc1 : c < s1.next := Nat.lt_of_lt_of_le ha.1 p1.ext.le
    have hden := p1.ext.den c ha.1
    simp only [Ct.bind]
    rw [← hden]
    have other : (∀ x, DefOf Δ (s1.den c) ≠ some (.alias x)) →
        Post Δ pm n0 s s1 ∧ (Ct.id c).Normal (Fine Δ pm s1) ∧
          Eval Δ (Used s1) (s1.den c) ((Ct.id c).bind s1.den) := by
      intro hne
      have hfine : Fine Δ pm s1 c := ⟨hc1, ha.2, hne, hs⟩
      exact ⟨p1, hfine, p1.inv.self_id c hfine⟩
    match r, hg, h with
    | none, hg, h =>
      cases h
      exact other fun x hx => by rw [show DefOf Δ (s'.den c) = none from hg] at hx; cases hx
    | some (true, .alias x), hg, h =>
      obtain ⟨D, hD, he, hn⟩ := hg
      cases h
      cases he with
      | «alias» e =>
        exact ⟨p1, hn t' (by simp [Def.terms]), p1.inv.alias_id hc1 hs hD e⟩
    | some (false, .alias x), hg, h =>
      obtain ⟨D, hD, hr⟩ := hg
      rcases hr with hr | hr
      · have h2 := hr.2
        rw [← hr.1] at h2
        exact absurd h2 id
      · obtain ⟨_, rfl, ha'⟩ := hr
        obtain ⟨p2, n2, e2⟩ := ih x s1 t' s' p1.inv (ha' x (by simp [Def.terms])) h
        refine ⟨p1.trans p2, n2, ?_⟩
        rw [← p2.ext.den c hc1]
        refine p2.inv.alias_id (Nat.lt_of_lt_of_le hc1 p2.ext.le) (p2.ext.seen c hc1 hs) ?_ e2
        rw [p2.ext.den c hc1]
        exact hD
    | some (b, .table m), hg, h
    | some (b, .generic ps d), hg, h
    | some (b, .data cs), hg, h
    | some (b, .struct cs), hg, h
    | some (b, .union cs), hg, h
    | some (b, .function cs), hg, h =>
      all_goals
        cases h
        refine other fun x hx => ?_
        cases b with
        | true =>
          obtain ⟨D, hD, he, _⟩ := hg
          rw [hx] at hD
          cases hD
          cases he
        | false =>
          obtain ⟨D, hD, hr⟩ := hg
          rw [hx] at hD
          cases hD
          rcases hr with hr | hr
          · exact absurd hr.2 id
          · have := hr.2.1
            simp [Def.map] at this
  | n + 1, .inst f as, s, t', s', hi, ha, h => by
    have ih := norm_sem ht n
    simp only [norm] at h
    obtain ⟨f1, s1, h1, h⟩ := bind_ok h
    obtain ⟨as1, s2, h2, h⟩ := bind_ok h
    obtain ⟨p1, n1, e1⟩ := ih f s f1 s1 hi ha.1 h1
    obtain ⟨p2, n2, e2⟩ := each_sem ih as s1 as1 s2 p1.inv (Ct.Alls.mono p1.ext.ok as ha.2) h2
    cases f1 with
    | id g =>
      obtain ⟨c, s3, h3, h⟩ := bind_ok h
      obtain ⟨p3, o3, hd, hg, ps, d, hgd⟩ := instantiate_sem ht p2.inv n2 h3
      obtain ⟨p4, n4, e4⟩ := ih (.id c) s3 t' s' p3.inv o3 h
      refine ⟨p1.trans (p2.trans (p3.trans p4)), n4, ?_⟩
      simp only [Ct.bind] at e1 e4 ⊢
      have p34 := p3.trans p4
      have n2' := Ct.Normals.mono p34.ext.fine _ n2
      have ok2 : Ct.Alls (Ok pm s2) as1 :=
        Ct.Normals.all _ (Ct.Normals.mono (fun _ h => h.ok) _ n2)
      rw [p1.inv.base g hg] at e1
      rw [hd] at e4
      refine inst_step (h := .id g) (vs := Ct.binds s2.den as1) (e1.mono (p2.trans p34).ext.used)
        ?_ (p4.inv.seen_generic hg hgd) ?_ ?_
      · rw [← p1.ext.binds ha.2]
        exact e2.mono p34.ext.used
      · rw [← p34.ext.binds ok2]
        exact p4.inv.selfs n2'
      · rw [← p3.ext.binds ok2]
        exact e4
    | _ => cases h
  | n + 1, .get t k, s, t', s', hi, ha, h => by
    have ih := norm_sem ht n
    simp only [norm] at h
    obtain ⟨t1, s1, h1, h⟩ := bind_ok h
    obtain ⟨p1, n1, e1⟩ := ih t s t1 s1 hi ha h1
    cases t1 with
    | id c =>
      obtain ⟨r, s2, h2, h⟩ := bind_ok h
      obtain ⟨p2, hs, hg⟩ := getDef_sem ih p1.inv n1.1 h2
      have hc2 : c < s2.next := Nat.lt_of_lt_of_le n1.1 p2.ext.le
      have hden := p2.ext.den c n1.1
      simp only [Ct.bind] at e1 ⊢
      rw [← hden] at e1
      match r, hg, h with
      | none, hg, h => cases h
      | some (b, .table m), hg, h =>
        simp only at h
        cases hl : m.lookup k with
        | none => rw [hl] at h; cases h
        | some x =>
          rw [hl] at h
          simp only at h
          cases b with
          | true =>
            obtain ⟨D, hD, he, hn⟩ := hg
            cases h
            cases he with
            | table e =>
              have hl' : (m.map fun e => (e.1, e.2.bind s'.den)).lookup k =
                  some (t'.bind s'.den) := by rw [lookup_map_snd, hl]; rfl
              obtain ⟨y, hy, hr⟩ := lookup_forall₂ e hl'
              obtain ⟨e', he', rfl⟩ := lookup_mem hl
              exact ⟨p1.trans p2, hn _ (List.mem_map.2 ⟨e', he', rfl⟩),
                .get (e1.mono p2.ext.used) hD hy hr⟩
          | false =>
            obtain ⟨D, hD, hr⟩ := hg
            rcases hr with hr | hr
            · have h2 := hr.2
              rw [← hr.1] at h2
              exact absurd h2 id
            · obtain ⟨_, rfl, ha'⟩ := hr
              obtain ⟨e', he', rfl⟩ := lookup_mem hl
              obtain ⟨p3, n3, e3⟩ := ih e'.2 s2 t' s' p2.inv
                (ha' e'.2 (List.mem_map.2 ⟨e', he', rfl⟩)) h
              refine ⟨p1.trans (p2.trans p3), n3, ?_⟩
              refine .get (e1.mono (p2.trans p3).ext.used) hD ?_ e3
              rw [lookup_map_snd, hl]; rfl
      | some (b, .alias m), hg, h
      | some (b, .generic ps d), hg, h
      | some (b, .data cs), hg, h
      | some (b, .struct cs), hg, h
      | some (b, .union cs), hg, h
      | some (b, .function cs), hg, h => all_goals cases h
    | _ => cases h
  | n + 1, .ptr t, s, t', s', hi, ha, h => by
    simp only [norm] at h
    obtain ⟨t1, s1, h1, h⟩ := bind_ok h
    cases h
    obtain ⟨p, n1, e⟩ := norm_sem ht n t s t1 s' hi ha h1
    exact ⟨p, n1, .ptr e⟩
  | n + 1, .clos as t, s, t', s', hi, ha, h => by
    have ih := norm_sem ht n
    simp only [norm] at h
    obtain ⟨as1, s1, h1, h⟩ := bind_ok h
    obtain ⟨t1, s2, h2, h⟩ := bind_ok h
    cases h
    obtain ⟨p1, n1, e1⟩ := each_sem ih as s as1 s1 hi ha.1 h1
    obtain ⟨p2, n2, e2⟩ := ih t s1 t1 s' p1.inv (Ct.All.mono p1.ext.ok t ha.2) h2
    refine ⟨p1.trans p2, ⟨Ct.Normals.mono p2.ext.fine _ n1, n2⟩, ?_⟩
    simp only [Ct.bind]
    refine .clos ?_ ?_
    · rw [p2.ext.binds (pm := pm) (Ct.Normals.all _ (Ct.Normals.mono (fun _ h => h.ok) _ n1))]
      exact e1.mono p2.ext.used
    · rw [← p1.ext.bind ha.2]
      exact e2
  | n + 1, .array t, s, t', s', hi, ha, h => by
    simp only [norm] at h
    obtain ⟨t1, s1, h1, h⟩ := bind_ok h
    cases h
    obtain ⟨p, n1, e⟩ := norm_sem ht n t s t1 s' hi ha h1
    exact ⟨p, n1, .array e⟩
  | n + 1, .syntax t, s, t', s', hi, ha, h => by
    simp only [norm] at h
    obtain ⟨t1, s1, h1, h⟩ := bind_ok h
    cases h
    obtain ⟨p, n1, e⟩ := norm_sem ht n t s t1 s' hi ha h1
    exact ⟨p, n1, .syntax e⟩
  | n + 1, .prim q, s, t', s', hi, ha, h => by
    cases h
    exact ⟨Post.refl hi, trivial, .prim⟩

/-! ## The start -/

theorem inv_start (ht : Tidy Δ pm n0) : Inv Δ pm n0 (start Δ n0) where
  le := Nat.le_refl _
  base _ _ := rfl
  high c hc := by
    cases h : Δ c with
    | none => simp [start, h]
    | some d => exact absurd (ht.dom c d h) (Nat.not_lt.2 hc)
  key g as c h := by simp [start] at h
  inst c h1 h2 := absurd h2 (Nat.not_lt.2 h1)
  uniq k c c' h := by simp [start] at h
  undef c _ h := by
    simp only [start, Option.map_eq_none_iff] at h
    exact h
  defd c ph d h := by
    simp only [start, Option.map_eq_some_iff] at h
    obtain ⟨D, hD, h⟩ := h
    simp only [Prod.mk.injEq] at h
    obtain ⟨rfl, rfl⟩ := h
    refine ⟨D, hD, ?_⟩
    have pend : ¬ D.IsGeneric → ¬ D.IsGeneric ∧ D.map (Ct.bind (start Δ n0).den) = D ∧
        ∀ t ∈ D.terms, t.All (Ok pm (start Δ n0)) := by
      intro hg
      refine ⟨hg, ?_, ht.plain c D hD hg⟩
      apply Def.map_id'
      intro t _
      exact bind_id t
    cases D with
    | generic ps d => exact ⟨rfl, trivial⟩
    | _ => exact pend (by simp [Def.IsGeneric])

end Verif.Mono
