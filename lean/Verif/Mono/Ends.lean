import Verif.Mono.Norm

/-!
# When normalization ends

Different identifiers mean different things (`Inv.inj`), and normalization ends whenever the
references that it needs are among finitely many.
-/

namespace Verif.Mono

variable {Δ : Nat → Option Def} {pm : Nat → Prop} {n0 : Nat}

/-! ## Identifiers are unique -/

theorem Inv.den_cases {s : St} (hi : Inv Δ pm n0 s) {c : Nat} (hc : c < s.next) :
    (c < n0 ∧ s.den c = .id c) ∨ n0 ≤ c ∧ ∃ g as, ((g, as), c) ∈ s.keys ∧
      s.den c = .inst (.id g) (Ct.binds s.den as) := by
  by_cases h : c < n0
  · exact .inl ⟨h, hi.base c h⟩
  · obtain ⟨g, as, hk⟩ := hi.inst c (Nat.not_lt.1 h) hc
    exact .inr ⟨Nat.not_lt.1 h, g, as, hk, (hi.key g as c hk).2.2.2.2.2⟩

mutual
theorem normal_inj {s : St} (hi : Inv Δ pm n0 s) {P Q : Nat → Prop}
    (hP : ∀ c, P c → c < s.next) (hQ : ∀ c, Q c → c < s.next)
    (h : ∀ c c', P c → Q c' → s.den c = s.den c' → c = c') :
    ∀ t u : Ct, t.Normal P → u.Normal Q → t.bind s.den = u.bind s.den → t = u
  | .id c, u, ht, hu, he => by
    rcases hi.den_cases (hP c ht) with ⟨_, hd⟩ | ⟨_, _, _, _, hd⟩ <;> cases u with
    | id c' => exact congrArg Ct.id (h c c' ht hu he)
    | inst _ _ => exact absurd hu id
    | get _ _ => exact absurd hu id
    | _ => simp [Ct.bind, hd] at he
  | .ptr t, u, ht, hu, he => by
    cases u with
    | id c' =>
      rcases hi.den_cases (hQ c' hu) with ⟨_, hd⟩ | ⟨_, _, _, _, hd⟩ <;> simp [Ct.bind, hd] at he
    | ptr u =>
      simp only [Ct.bind, Ct.ptr.injEq] at he
      rw [normal_inj hi hP hQ h t u ht hu he]
    | _ => simp [Ct.bind] at he
  | .clos as t, u, ht, hu, he => by
    cases u with
    | id c' =>
      rcases hi.den_cases (hQ c' hu) with ⟨_, hd⟩ | ⟨_, _, _, _, hd⟩ <;> simp [Ct.bind, hd] at he
    | clos bs u =>
      simp only [Ct.bind, Ct.clos.injEq] at he
      rw [normal_inj hi hP hQ h t u ht.2 hu.2 he.2, normals_inj hi hP hQ h as bs ht.1 hu.1 he.1]
    | _ => simp [Ct.bind] at he
  | .array t, u, ht, hu, he => by
    cases u with
    | id c' =>
      rcases hi.den_cases (hQ c' hu) with ⟨_, hd⟩ | ⟨_, _, _, _, hd⟩ <;> simp [Ct.bind, hd] at he
    | array u =>
      simp only [Ct.bind, Ct.array.injEq] at he
      rw [normal_inj hi hP hQ h t u ht hu he]
    | _ => simp [Ct.bind] at he
  | .syntax t, u, ht, hu, he => by
    cases u with
    | id c' =>
      rcases hi.den_cases (hQ c' hu) with ⟨_, hd⟩ | ⟨_, _, _, _, hd⟩ <;> simp [Ct.bind, hd] at he
    | «syntax» u =>
      simp only [Ct.bind, Ct.syntax.injEq] at he
      rw [normal_inj hi hP hQ h t u ht hu he]
    | _ => simp [Ct.bind] at he
  | .prim p, u, ht, hu, he => by
    cases u with
    | id c' =>
      rcases hi.den_cases (hQ c' hu) with ⟨_, hd⟩ | ⟨_, _, _, _, hd⟩ <;> simp [Ct.bind, hd] at he
    | prim q => simpa [Ct.bind] using he
    | _ => simp [Ct.bind] at he

theorem normals_inj {s : St} (hi : Inv Δ pm n0 s) {P Q : Nat → Prop}
    (hP : ∀ c, P c → c < s.next) (hQ : ∀ c, Q c → c < s.next)
    (h : ∀ c c', P c → Q c' → s.den c = s.den c' → c = c') :
    ∀ ts us : List Ct, Ct.Normals P ts → Ct.Normals Q us →
      Ct.binds s.den ts = Ct.binds s.den us → ts = us
  | [], [], _, _, _ => rfl
  | [], _ :: _, _, _, he => by simp [Ct.binds] at he
  | _ :: _, [], _, _, he => by simp [Ct.binds] at he
  | t :: ts, u :: us, ht, hu, he => by
    simp only [Ct.binds, List.cons.injEq] at he
    rw [normal_inj hi hP hQ h t u ht.1 hu.1 he.1, normals_inj hi hP hQ h ts us ht.2 hu.2 he.2]
end

/-- Different identifiers have different meanings. -/
theorem Inv.inj {s : St} (hi : Inv Δ pm n0 s) : ∀ c c', c < s.next → c' < s.next →
    s.den c = s.den c' → c = c' := by
  intro c
  induction c using Nat.strongRecOn with
  | _ c ih =>
    intro c' hc hc' he
    rcases hi.den_cases hc with ⟨_, hd⟩ | ⟨_, g, as, hk, hd⟩ <;>
      rcases hi.den_cases hc' with ⟨_, hd'⟩ | ⟨_, g', as', hk', hd'⟩
    · rw [hd, hd'] at he; cases he; rfl
    · rw [hd, hd'] at he; cases he
    · rw [hd, hd'] at he; cases he
    · rw [hd, hd'] at he
      simp only [Ct.inst.injEq, Ct.id.injEq] at he
      obtain ⟨rfl, he⟩ := he
      have n1 := (hi.key g as c hk).2.2.2.2.1
      have n2 := (hi.key g as' c' hk').2.2.2.2.1
      have : as = as' := normals_inj hi (P := fun i => i < c ∧ Fine Δ pm s i)
        (Q := fun i => i < c' ∧ Fine Δ pm s i) (fun _ h => h.2.1) (fun _ h => h.2.1)
        (fun a b ha hb e => ih a ha.1 b ha.2.1 hb.2.1 e) as as' n1 n2 he
      subst this
      exact hi.uniq _ c c' hk hk'

/-- Normal expressions with the same meaning are the same. -/
theorem Inv.normal_inj {s : St} (hi : Inv Δ pm n0 s) {t u : Ct} (ht : t.Normal (Fine Δ pm s))
    (hu : u.Normal (Fine Δ pm s)) (h : t.bind s.den = u.bind s.den) : t = u :=
  Verif.Mono.normal_inj hi (fun _ h => h.1) (fun _ h => h.1)
    (fun c c' hc hc' e => hi.inj c c' hc.1 hc'.1 e) t u ht hu h

/-- A normal expression that means a reference is an identifier. -/
theorem Inv.normal_ref {s : St} (hi : Inv Δ pm n0 s) {t : Ct} (ht : t.Normal (Fine Δ pm s)) {d}
    (hd : DefOf Δ (t.bind s.den) = some d) : ∃ c, t = .id c := by
  cases t with
  | id c => exact ⟨c, rfl⟩
  | inst _ _ => exact absurd ht id
  | get _ _ => exact absurd ht id
  | _ => simp [Ct.bind, DefOf] at hd

/-! ## Counting what is left to do -/

open Classical in
/-- How many references of `L` have not been looked at. -/
noncomputable def left (L : List Ct) (s : St) : Nat := (L.filter fun r => ¬ Used s r).length

theorem filter_length_le {α} {p q : α → Bool} (L : List α) (h : ∀ x ∈ L, q x = true → p x = true) :
    (L.filter q).length ≤ (L.filter p).length := by
  induction L with
  | nil => simp
  | cons a L ih =>
    have := ih fun x hx => h x (List.mem_cons_of_mem _ hx)
    simp only [List.filter_cons]
    by_cases hq : q a = true
    · rw [if_pos hq, if_pos (h a List.mem_cons_self hq)]
      simp only [List.length_cons]
      omega
    · rw [if_neg hq]
      split
      · simp only [List.length_cons]; omega
      · exact this

theorem filter_length_lt {α} {p q : α → Bool} (L : List α) (h : ∀ x ∈ L, q x = true → p x = true)
    {a : α} (ha : a ∈ L) (hp : p a = true) (hq : q a = false) :
    (L.filter q).length < (L.filter p).length := by
  induction L with
  | nil => cases ha
  | cons b L ih =>
    have hL := fun x hx => h x (List.mem_cons_of_mem b hx)
    simp only [List.filter_cons]
    rcases List.mem_cons.1 ha with rfl | ha
    · rw [if_pos hp, if_neg (by simp [hq])]
      have := filter_length_le L hL
      simp only [List.length_cons]
      omega
    · have := ih hL ha
      by_cases hb : q b = true
      · rw [if_pos hb, if_pos (h b List.mem_cons_self hb)]
        simp only [List.length_cons]
        omega
      · rw [if_neg hb]
        split
        · simp only [List.length_cons]; omega
        · exact this

theorem left_le {L : List Ct} {s s' : St} (h : Ext s s') : left L s' ≤ left L s := by
  apply filter_length_le
  intro x _ hx
  simp only [decide_eq_true_eq] at hx ⊢
  exact fun hu => hx (h.used x hu)

theorem left_lt {L : List Ct} {s s' : St} (h : Ext s s') {r : Ct} (hr : r ∈ L)
    (hn : ¬ Used s r) (hu : Used s' r) : left L s' < left L s := by
  refine filter_length_lt L ?_ hr (by simpa using hn) (by simpa using hu)
  intro x _ hx
  simp only [decide_eq_true_eq] at hx ⊢
  exact fun hu => hx (h.used x hu)

/-! ## Ending -/

theorem bind_to {α β} {m : M α} {f : α → M β} {s s1 : St} {a : α} {r : Res β}
    (h : m s = .ok a s1) (h' : f a s1 = r) : (m >>= f) s = r := by
  rw [bind_eq, M.bind, h]; exact h'

/-- With enough fuel there is a result. -/
def Halts {α} (m : Nat → M α) (s : St) : Prop :=
  ∃ N a s', ∀ n, N ≤ n → m n s = .ok a s'

theorem Halts.pure {α} (a : α) (s : St) : Halts (fun _ => pure a) s :=
  ⟨0, a, s, fun _ _ => rfl⟩

theorem Halts.bind {α β} {m : Nat → M α} {f : Nat → α → M β} {s : St} (hm : Halts m s)
    (hf : ∀ N a s1, (∀ n, N ≤ n → m n s = .ok a s1) → Halts (fun n => f n a) s1) :
    Halts (fun n => m n >>= f n) s := by
  obtain ⟨N, a, s1, h⟩ := hm
  obtain ⟨N', b, s', h'⟩ := hf N a s1 h
  exact ⟨max N N', b, s', fun n hn => bind_to (h n (by omega)) (h' n (by omega))⟩

theorem Halts.congr {α} {m m' : Nat → M α} {s s' : St} (h : Halts m s)
    (he : ∀ n, m' n s' = m n s) : Halts m' s' := by
  obtain ⟨N, a, s1, h⟩ := h
  exact ⟨N, a, s1, fun n hn => by rw [he, h n hn]⟩

theorem Halts.succ {t : Ct} {s : St} (h : Halts (fun n => norm (n + 1) t) s) :
    Halts (fun n => norm n t) s := by
  obtain ⟨N, a, s', h⟩ := h
  refine ⟨N + 1, a, s', fun n hn => ?_⟩
  obtain ⟨m, rfl⟩ : ∃ m, n = m + 1 := ⟨n - 1, by omega⟩
  exact h m (by omega)

section
variable (ht : Tidy Δ pm n0) {L : List Ct} {k : Nat}
variable (hW : Within Δ (· ∈ L))

/-- Everything that has a value in `L` is normalized in contexts where less than `k` is left. -/
def Less (Δ : Nat → Option Def) (pm : Nat → Prop) (n0 : Nat) (L : List Ct) (k : Nat) : Prop :=
  ∀ s t v, Inv Δ pm n0 s → t.All (Ok pm s) → Eval Δ (· ∈ L) (t.bind s.den) v → left L s < k →
    Halts (fun n => norm n t) s

include ht

theorem each_halts (hk : Less Δ pm n0 L k) : ∀ (ts : List Ct) (s : St), Inv Δ pm n0 s →
    Ct.Alls (Ok pm s) ts → (∀ t ∈ ts, ∃ v, Eval Δ (· ∈ L) (t.bind s.den) v) → left L s < k →
    Halts (fun n => each (norm n) ts) s
  | [], s, _, _, _, _ => Halts.pure [] s
  | t :: ts, s, hi, ha, he, hl => by
    obtain ⟨v, hv⟩ := he t List.mem_cons_self
    refine Halts.bind (hk s t v hi ha.1 hv hl) fun N t1 s1 h1 => ?_
    obtain ⟨p, _, _⟩ := norm_sem ht N t s t1 s1 hi ha.1 (h1 N (Nat.le_refl _))
    refine Halts.bind (each_halts hk ts s1 p.inv (Ct.Alls.mono p.ext.ok ts ha.2) ?_
      (Nat.lt_of_le_of_lt (left_le p.ext) hl)) fun _ ts1 s2 _ => Halts.pure _ s2
    intro u hu
    rw [p.ext.bind ((alls_iff _ _).1 ha.2 u hu)]
    exact he u (List.mem_cons_of_mem _ hu)

theorem eachList_halts (hk : Less Δ pm n0 L k) : ∀ (ts : List (List Ct)) (s : St), Inv Δ pm n0 s →
    (∀ l ∈ ts, Ct.Alls (Ok pm s) l) →
    (∀ l ∈ ts, ∀ t ∈ l, ∃ v, Eval Δ (· ∈ L) (t.bind s.den) v) → left L s < k →
    Halts (fun n => eachList (norm n) ts) s
  | [], s, _, _, _, _ => Halts.pure [] s
  | t :: ts, s, hi, ha, he, hl => by
    refine Halts.bind (each_halts ht hk t s hi (ha t List.mem_cons_self)
      (he t List.mem_cons_self) hl) fun N t1 s1 h1 => ?_
    obtain ⟨p, _, _⟩ := each_sem (norm_sem ht N) t s t1 s1 hi (ha t List.mem_cons_self)
      (h1 N (Nat.le_refl _))
    refine Halts.bind (eachList_halts hk ts s1 p.inv
      (fun l hl => Ct.Alls.mono p.ext.ok l (ha l (List.mem_cons_of_mem _ hl))) ?_
      (Nat.lt_of_le_of_lt (left_le p.ext) hl)) fun _ ts1 s2 _ => Halts.pure _ s2
    intro l hl u hu
    rw [p.ext.bind ((alls_iff _ _).1 (ha l (List.mem_cons_of_mem _ hl)) u hu)]
    exact he l (List.mem_cons_of_mem _ hl) u hu

theorem eachEntry_halts (hk : Less Δ pm n0 L k) : ∀ (ts : List (Nat × Ct)) (s : St),
    Inv Δ pm n0 s → (∀ e ∈ ts, e.2.All (Ok pm s)) →
    (∀ e ∈ ts, ∃ v, Eval Δ (· ∈ L) (e.2.bind s.den) v) → left L s < k →
    Halts (fun n => eachEntry (norm n) ts) s
  | [], s, _, _, _, _ => Halts.pure [] s
  | (j, t) :: ts, s, hi, ha, he, hl => by
    obtain ⟨v, hv⟩ := he (j, t) List.mem_cons_self
    have hat := ha (j, t) List.mem_cons_self
    refine Halts.bind (hk s t v hi hat hv hl) fun N t1 s1 h1 => ?_
    obtain ⟨p, _, _⟩ := norm_sem ht N t s t1 s1 hi hat (h1 N (Nat.le_refl _))
    refine Halts.bind (eachEntry_halts hk ts s1 p.inv
      (fun e h => Ct.All.mono p.ext.ok e.2 (ha e (List.mem_cons_of_mem _ h))) ?_
      (Nat.lt_of_le_of_lt (left_le p.ext) hl)) fun _ ts1 s2 _ => Halts.pure _ s2
    intro u hu
    rw [p.ext.bind (ha u (List.mem_cons_of_mem _ hu))]
    exact he u (List.mem_cons_of_mem _ hu)

theorem rewriteDef_halts (hk : Less Δ pm n0 L k) (d : Def) (s : St) (hi : Inv Δ pm n0 s)
    (hg : ¬ d.IsGeneric) (ha : ∀ t ∈ d.terms, t.All (Ok pm s))
    (he : ∀ t ∈ d.terms, ∃ v, Eval Δ (· ∈ L) (t.bind s.den) v) (hl : left L s < k) :
    Halts (fun n => rewriteDef (norm n) d) s := by
  cases d with
  | generic ps d => exact absurd trivial hg
  | «alias» t =>
    obtain ⟨v, hv⟩ := he t (by simp [Def.terms])
    exact Halts.bind (hk s t v hi (ha t (by simp [Def.terms])) hv hl)
      fun _ _ s1 _ => Halts.pure _ s1
  | table m =>
    exact Halts.bind (eachEntry_halts ht hk m s hi
      (fun e h => ha e.2 (List.mem_map.2 ⟨e, h, rfl⟩))
      (fun e h => he e.2 (List.mem_map.2 ⟨e, h, rfl⟩)) hl) fun _ _ s1 _ => Halts.pure _ s1
  | data cs =>
    exact Halts.bind (eachList_halts ht hk cs s hi
      (fun l h => (alls_iff _ _).2 fun t ht => ha t (List.mem_flatten.2 ⟨l, h, ht⟩))
      (fun l h t ht => he t (List.mem_flatten.2 ⟨l, h, ht⟩)) hl) fun _ _ s1 _ => Halts.pure _ s1
  | struct as =>
    exact Halts.bind (each_halts ht hk as s hi ((alls_iff _ _).2 ha) he hl)
      fun _ _ s1 _ => Halts.pure _ s1
  | union as =>
    exact Halts.bind (each_halts ht hk as s hi ((alls_iff _ _).2 ha) he hl)
      fun _ _ s1 _ => Halts.pure _ s1
  | function as =>
    exact Halts.bind (each_halts ht hk as s hi ((alls_iff _ _).2 ha) he hl)
      fun _ _ s1 _ => Halts.pure _ s1

include hW in
theorem getDef_halts (hk : Less Δ pm n0 L k) (s : St) (c : Nat) (hi : Inv Δ pm n0 s)
    (hc : c < s.next) (hU : s.den c ∈ L) (hl : left L s ≤ k) :
    Halts (fun n => getDef (norm n) c) s := by
  cases hd : s.defs c with
  | none => exact ⟨0, none, s, fun n _ => by simp [getDef, hd]⟩
  | some x =>
    obtain ⟨ph, d⟩ := x
    cases ph with
    | generalized => exact ⟨0, some (false, d), s, fun n _ => by simp only [getDef, hd]⟩
    | normalizing => exact ⟨0, some (false, d), s, fun n _ => by simp only [getDef, hd]⟩
    | normalized => exact ⟨0, some (true, d), s, fun n _ => by simp only [getDef, hd]⟩
    | instantiated =>
      obtain ⟨D, hD, hr⟩ := hi.defd c _ d hd
      obtain ⟨hi1, he1⟩ := hi.setDef (ph := .normalizing) (d := d) hc (by simp) hD hr
        (fun d' => by rw [hd]; simp)
      have hlt : left L { s with defs := Function.update s.defs c (some (.normalizing, d)) } <
          left L s := by
        refine left_lt he1 hU ?_ ⟨c, hc, rfl, fun d' => by simp⟩
        rintro ⟨c', hc', hdc, hs⟩
        cases hi.inj c' c hc' hc hdc
        exact hs d hd
      refine Halts.congr (m := fun n => do
          setDef c .normalizing d
          let d' ← rewriteDef (norm n) d
          setDef c .normalized d'
          pure (some (true, d'))) (s := s) ?_ (fun n => by simp only [getDef, hd])
      refine Halts.bind ⟨0, (), _, fun n _ => rfl⟩ fun N u s1 h1 => ?_
      have h1 := h1 N (Nat.le_refl _)
      cases h1
      have hng : ¬ d.IsGeneric := by
        have := hr.1; rw [← hr.2.1, Def.isGeneric_map] at this; exact this
      refine Halts.bind (rewriteDef_halts ht hk d _ hi1 hng hr.2.2 ?_ (by omega)) ?_
      · intro t htm
        refine hW (s.den c) D hU hD hr.1 _ ?_
        have : D.terms = d.terms.map (Ct.bind s.den) := by rw [← hr.2.1, Def.terms_map]
        rw [this]
        exact List.mem_map_of_mem htm
      · intro _ d' s2 _
        exact ⟨0, _, _, fun n _ => rfl⟩

include hW in
/-- An identifier is normalized if what it is an alias of is. -/
theorem id_halts (hk : Less Δ pm n0 L k) (s : St) (c : Nat) (hi : Inv Δ pm n0 s)
    (hc : Ok pm s c) (hU : s.den c ∈ L) (hl : left L s ≤ k)
    (hx : ∀ X, DefOf Δ (s.den c) = some (.alias X) → ∀ s1 t, Inv Δ pm n0 s1 → t.All (Ok pm s1) →
      t.bind s1.den = X → left L s1 ≤ k → Halts (fun n => norm n t) s1) :
    Halts (fun n => norm n (.id c)) s := by
  apply Halts.succ
  simp only [norm]
  refine Halts.bind (getDef_halts ht hW hk s c hi hc.1 hU hl) fun N r s1 h1 => ?_
  obtain ⟨p, hs, hg⟩ := getDef_sem (norm_sem ht N) hi hc.1 (h1 N (Nat.le_refl _))
  match r, hg with
  | none, _ => exact Halts.pure _ s1
  | some (true, .alias x), _ => exact Halts.pure _ s1
  | some (false, .alias x), hg =>
    obtain ⟨D, hD, hr⟩ := hg
    rcases hr with hr | hr
    · have h2 := hr.2
      rw [← hr.1] at h2
      exact absurd h2 id
    · obtain ⟨_, rfl, ha'⟩ := hr
      rw [p.ext.den c hc.1] at hD
      exact hx _ hD s1 x p.inv (ha' x (by simp [Def.terms])) rfl
        (Nat.le_trans (left_le p.ext) hl)
  | some (b, .table m), _
  | some (b, .generic ps d), _
  | some (b, .data cs), _
  | some (b, .struct cs), _
  | some (b, .union cs), _
  | some (b, .function cs), _ => all_goals exact Halts.pure _ s1

/-- Making an instance does not panic if it has a definition. -/
theorem instantiate_halts {s : St} (hi : Inv Δ pm n0 s) {g : Nat} {as : List Ct} {D : Def}
    (hD : DefOf Δ (.inst (.id g) (Ct.binds s.den as)) = some D) :
    ∃ c s', instantiate g as s = .ok c s' := by
  unfold instantiate
  cases hf : findKey g as s.keys with
  | some c => exact ⟨c, s, rfl⟩
  | none =>
    simp only [DefOf] at hD
    split at hD
    · rename_i ps d hg
      split at hD
      · rename_i hl
        rw [binds_eq, List.length_map] at hl
        rw [hi.generic (ht.dom g _ hg) hg]
        simp only
        rw [if_pos hl]
        exact ⟨_, _, rfl⟩
      · cases hD
    · cases hD

theorem id_of_den {s : St} (hi : Inv Δ pm n0 s) {t : Ct} {g : Nat}
    (hn : t.Normal (Fine Δ pm s)) (h : t.bind s.den = .id g) (hg : g < n0) : t = .id g := by
  cases t with
  | id c =>
    have : s.den c = s.den g := by rw [hi.base g hg]; exact h
    rw [hi.inj c g hn.1 (Nat.lt_of_lt_of_le hg hi.le) this]
  | _ => simp [Ct.bind] at h

theorem defOf_inst_lt {g : Nat} {vs : List Ct} {D : Def}
    (hD : DefOf Δ (.inst (.id g) vs) = some D) : g < n0 ∧ ∃ ps d, Δ g = some (.generic ps d) := by
  simp only [DefOf] at hD
  split at hD
  · rename_i ps d hg
    exact ⟨ht.dom g _ hg, ps, d, hg⟩
  · cases hD

end

section
variable (ht : Tidy Δ pm n0) {L : List Ct} {k : Nat}
variable (hW : Within Δ (· ∈ L))

/-- What is shown of an expression with a value. -/
def Runs (Δ : Nat → Option Def) (pm : Nat → Prop) (n0 : Nat) (L : List Ct) (k : Nat) (T : Ct) :
    Prop :=
  ∀ s t, Inv Δ pm n0 s → t.All (Ok pm s) → t.bind s.den = T → left L s ≤ k →
    Halts (fun n => norm n t) s

def RunsEach (Δ : Nat → Option Def) (pm : Nat → Prop) (n0 : Nat) (L : List Ct) (k : Nat)
    (Ts : List Ct) : Prop :=
  ∀ s ts, Inv Δ pm n0 s → Ct.Alls (Ok pm s) ts → Ct.binds s.den ts = Ts → left L s ≤ k →
    Halts (fun n => each (norm n) ts) s

include ht hW in
theorem runs_inst (hk : Less Δ pm n0 L k) {F g As vs D}
    (a : Eval Δ (· ∈ L) F (.id g)) (b : Evals Δ (· ∈ L) As vs) (hU : .inst (.id g) vs ∈ L)
    (hD : DefOf Δ (.inst (.id g) vs) = some D) (ra : Runs Δ pm n0 L k F)
    (rb : RunsEach Δ pm n0 L k As) (re : ∀ X, D = .alias X → Runs Δ pm n0 L k X) :
    Runs Δ pm n0 L k (.inst F As) := by
  intro s t hi hok hT hl
  obtain ⟨hg, ps, d, hgd⟩ := defOf_inst_lt ht hD
  cases t with
  | id c =>
    obtain ⟨_, hd⟩ | ⟨_, g', as, hkey, hd⟩ := hi.den_cases hok.1
    · rw [Ct.bind, hd] at hT; cases hT
    · have hT' := hT
      rw [Ct.bind, hd] at hT'
      cases hT'
      obtain ⟨_, _, hg', ⟨ps', d', hgd', _⟩, hn, _⟩ := hi.key g' as c hkey
      cases (hi.seen_generic hg' hgd').det a
      have hvs := (hi.selfs (Ct.Normals.mono (fun _ h => h.2) as hn)).det b
      have hdc : s.den c = .inst (.id g) vs := by rw [hd, hvs]
      refine id_halts ht hW hk s c hi hok (by rw [hdc]; exact hU) hl ?_
      intro X hX
      rw [hdc, hD] at hX
      exact re X (by simpa using hX)
  | inst f as =>
    simp only [Ct.bind, Ct.inst.injEq] at hT
    obtain ⟨rfl, rfl⟩ := hT
    apply Halts.succ
    simp only [norm]
    refine Halts.bind (ra s f hi hok.1 rfl hl) fun N f1 s1 h1 => ?_
    obtain ⟨p1, n1, e1⟩ := norm_sem ht N f s f1 s1 hi hok.1 (h1 N (Nat.le_refl _))
    have hbs := p1.ext.binds hok.2
    refine Halts.bind (rb s1 as p1.inv (Ct.Alls.mono p1.ext.ok as hok.2) hbs
      (Nat.le_trans (left_le p1.ext) hl)) fun N as1 s2 h2 => ?_
    obtain ⟨p2, n2, e2⟩ := each_sem (norm_sem ht N) as s1 as1 s2 p1.inv
      (Ct.Alls.mono p1.ext.ok as hok.2) (h2 N (Nat.le_refl _))
    have hf1 : f1 = .id g := id_of_den ht p1.inv n1 (e1.det a) hg
    subst hf1
    rw [hbs] at e2
    have hv : Ct.binds s2.den as1 = vs := e2.det b
    obtain ⟨c, s3, h3⟩ := instantiate_halts ht (s := s2) (as := as1) p2.inv
      (by rw [hv]; exact hD)
    refine Halts.bind ⟨0, c, s3, fun n _ => h3⟩ fun N c' s3' h3' => ?_
    have h3' := h3' N (Nat.le_refl _)
    rw [h3] at h3'
    cases h3'
    obtain ⟨p3, o3, hd, _, _, _, _⟩ := instantiate_sem ht p2.inv n2 h3
    have ok2 : Ct.Alls (Ok pm s2) as1 :=
      Ct.Normals.all _ (Ct.Normals.mono (fun _ h => h.ok) _ n2)
    rw [p3.ext.binds ok2, hv] at hd
    refine id_halts ht hW hk s3 c p3.inv o3 (by rw [hd]; exact hU) ?_ ?_
    · exact Nat.le_trans (left_le ((p1.trans p2).trans p3).ext) hl
    · intro X hX
      rw [hd, hD] at hX
      exact re X (by simpa using hX)
  | _ => simp [Ct.bind] at hT

include ht hW in
mutual
theorem runs (hk : Less Δ pm n0 L k) : ∀ {T v}, Eval Δ (· ∈ L) T v → Runs Δ pm n0 L k T
  | _, _, .idAlias (c := c) hU hD e, s, t, hi, hok, hT, hl => by
    have re := runs hk e
    clear e
    cases t with
    | id c' =>
      obtain ⟨_, hd⟩ | ⟨_, _, _, _, hd⟩ := hi.den_cases hok.1
      · have hT' := hT
        rw [Ct.bind, hd] at hT'
        cases hT'
        refine id_halts ht hW hk s c hi hok (by rw [hd]; exact hU) hl ?_
        intro X hX
        rw [hd] at hX
        have : some (Def.alias X) = _ := hX.symm.trans hD
        cases this
        exact re
      · rw [Ct.bind, hd] at hT; cases hT
    | _ => simp [Ct.bind] at hT
  | _, _, .idSelf (c := c) hU hD, s, t, hi, hok, hT, hl => by
    cases t with
    | id c' =>
      obtain ⟨_, hd⟩ | ⟨_, _, _, _, hd⟩ := hi.den_cases hok.1
      · have hT' := hT
        rw [Ct.bind, hd] at hT'
        cases hT'
        refine id_halts ht hW hk s c hi hok (by rw [hd]; exact hU) hl ?_
        intro X hX
        rw [hd] at hX
        exact absurd hX (hD X)
      · rw [Ct.bind, hd] at hT; cases hT
    | _ => simp [Ct.bind] at hT
  | _, _, .instAlias a b hU hD e, s, t, hi, hok, hT, hl => by
    have re := runs hk e
    exact runs_inst ht hW hk a b hU hD (runs hk a) (runsEach hk b) (fun X hX => by
      clear e
      cases hX; exact re) s t hi hok hT hl
  | _, _, .instSelf a b hU hD e, s, t, hi, hok, hT, hl =>
    runs_inst ht hW hk a b hU hD (runs hk a) (runsEach hk b) (fun X hX => absurd hX (e X))
      s t hi hok hT hl
  | _, _, .get a hD hx e, s, t, hi, hok, hT, hl => by
    have ra := runs hk a
    have re := runs hk e
    clear e
    cases t with
    | id c =>
      obtain ⟨_, hd⟩ | ⟨_, _, _, _, hd⟩ := hi.den_cases hok.1 <;>
        · rw [Ct.bind, hd] at hT; cases hT
    | get t j' =>
      simp only [Ct.bind, Ct.get.injEq] at hT
      obtain ⟨rfl, rfl⟩ := hT
      apply Halts.succ
      simp only [norm]
      refine Halts.bind (ra s t hi hok rfl hl) fun N t1 s1 h1 => ?_
      obtain ⟨p1, n1, e1⟩ := norm_sem ht N t s t1 s1 hi hok (h1 N (Nat.le_refl _))
      have hr := e1.det a
      rw [← hr] at hD
      obtain ⟨c, rfl⟩ := p1.inv.normal_ref n1 hD
      simp only [Ct.bind] at hD
      have hseen := n1.2.2.2
      cases hd : s1.defs c with
      | none => rw [p1.inv.undef c n1.1 hd] at hD; cases hD
      | some x =>
        obtain ⟨ph, d⟩ := x
        obtain ⟨D', hD', hrel⟩ := p1.inv.defd c ph d hd
        rw [hD] at hD'
        cases hD'
        cases ph with
        | generalized => exact absurd hrel.2 id
        | instantiated => exact absurd hd (hseen d)
        | normalizing =>
          refine Halts.bind ⟨0, some (false, d), s1, fun n _ => by simp only [getDef, hd]⟩
            fun N r s2 h2 => ?_
          have h2 := h2 N (Nat.le_refl _)
          simp only [getDef, hd] at h2
          cases h2
          obtain ⟨_, hm, hok'⟩ := hrel
          cases d with
          | table m =>
            simp only [Def.map, Def.table.injEq] at hm
            rw [← hm, lookup_map_snd] at hx
            obtain ⟨x, hlx, hxe⟩ := Option.map_eq_some_iff.1 hx
            simp only [hlx]
            obtain ⟨e', he', rfl⟩ := lookup_mem hlx
            exact re s1 e'.2 p1.inv (hok' _ (List.mem_map.2 ⟨e', he', rfl⟩)) hxe
              (Nat.le_trans (left_le p1.ext) hl)
          | _ => simp [Def.map] at hm
        | normalized =>
          refine Halts.bind ⟨0, some (true, d), s1, fun n _ => by simp only [getDef, hd]⟩
            fun N r s2 h2 => ?_
          have h2 := h2 N (Nat.le_refl _)
          simp only [getDef, hd] at h2
          cases h2
          obtain ⟨hde, _⟩ := hrel
          cases d with
          | table m =>
            cases hde with
            | table hf2 =>
              have : ∃ y, m.lookup j' = some y := by
                cases hm : m.lookup j' with
                | some y => exact ⟨y, rfl⟩
                | none =>
                  exfalso
                  have hm' : (m.map fun e => (e.1, e.2.bind s1.den)).lookup j' = none := by
                    rw [lookup_map_snd, hm]; rfl
                  generalize (m.map fun e => (e.1, e.2.bind s1.den)) = m' at hf2 hm'
                  clear * - hf2 hm' hx
                  induction hf2 with
                  | nil => simp at hx
                  | @cons a b _ _ hab _ ih =>
                    obtain ⟨i, t⟩ := a
                    obtain ⟨i', t'⟩ := b
                    obtain ⟨rfl, _⟩ := hab
                    simp only [List.lookup] at hx hm'
                    cases hk : (j' == i) with
                    | true => simp only [hk] at hm'; cases hm'
                    | false => simp only [hk] at hx hm'; exact ih hx hm'
              obtain ⟨y, hy⟩ := this
              simp only [hy]
              exact Halts.pure _ s1
          | _ => cases hde
    | _ => simp [Ct.bind] at hT
  | _, _, .ptr a, s, t, hi, hok, hT, hl => by
    have ra := runs hk a
    clear a
    cases t with
    | id c =>
      obtain ⟨_, hd⟩ | ⟨_, _, _, _, hd⟩ := hi.den_cases hok.1 <;>
        · rw [Ct.bind, hd] at hT; cases hT
    | ptr t =>
      simp only [Ct.bind, Ct.ptr.injEq] at hT
      apply Halts.succ
      simp only [norm]
      exact Halts.bind (ra s t hi hok hT hl) fun _ _ s1 _ => Halts.pure _ s1
    | _ => simp [Ct.bind] at hT
  | _, _, .clos a b, s, t, hi, hok, hT, hl => by
    have ra := runsEach hk a
    have rb := runs hk b
    clear a b
    cases t with
    | id c =>
      obtain ⟨_, hd⟩ | ⟨_, _, _, _, hd⟩ := hi.den_cases hok.1 <;>
        · rw [Ct.bind, hd] at hT; cases hT
    | clos as t =>
      simp only [Ct.bind, Ct.clos.injEq] at hT
      apply Halts.succ
      simp only [norm]
      refine Halts.bind (ra s as hi hok.1 hT.1 hl) fun N as1 s1 h1 => ?_
      obtain ⟨p, _, _⟩ := each_sem (norm_sem ht N) as s as1 s1 hi hok.1 (h1 N (Nat.le_refl _))
      exact Halts.bind (rb s1 t p.inv (Ct.All.mono p.ext.ok t hok.2)
        (by rw [p.ext.bind hok.2]; exact hT.2) (Nat.le_trans (left_le p.ext) hl))
        fun _ _ s2 _ => Halts.pure _ s2
    | _ => simp [Ct.bind] at hT
  | _, _, .array a, s, t, hi, hok, hT, hl => by
    have ra := runs hk a
    clear a
    cases t with
    | id c =>
      obtain ⟨_, hd⟩ | ⟨_, _, _, _, hd⟩ := hi.den_cases hok.1 <;>
        · rw [Ct.bind, hd] at hT; cases hT
    | array t =>
      simp only [Ct.bind, Ct.array.injEq] at hT
      apply Halts.succ
      simp only [norm]
      exact Halts.bind (ra s t hi hok hT hl) fun _ _ s1 _ => Halts.pure _ s1
    | _ => simp [Ct.bind] at hT
  | _, _, .syntax a, s, t, hi, hok, hT, hl => by
    have ra := runs hk a
    clear a
    cases t with
    | id c =>
      obtain ⟨_, hd⟩ | ⟨_, _, _, _, hd⟩ := hi.den_cases hok.1 <;>
        · rw [Ct.bind, hd] at hT; cases hT
    | «syntax» t =>
      simp only [Ct.bind, Ct.syntax.injEq] at hT
      apply Halts.succ
      simp only [norm]
      exact Halts.bind (ra s t hi hok hT hl) fun _ _ s1 _ => Halts.pure _ s1
    | _ => simp [Ct.bind] at hT
  | _, _, .prim, s, t, hi, hok, hT, hl => by
    cases t with
    | id c =>
      obtain ⟨_, hd⟩ | ⟨_, _, _, _, hd⟩ := hi.den_cases hok.1 <;>
        · rw [Ct.bind, hd] at hT; cases hT
    | prim p =>
      apply Halts.succ
      simp only [norm]
      exact Halts.pure _ s
    | _ => simp [Ct.bind] at hT

theorem runsEach (hk : Less Δ pm n0 L k) :
    ∀ {Ts vs}, Evals Δ (· ∈ L) Ts vs → RunsEach Δ pm n0 L k Ts
  | _, _, .nil, s, ts, hi, hok, hT, hl => by
    cases ts with
    | nil => exact Halts.pure [] s
    | cons t ts => simp [Ct.binds] at hT
  | _, _, .cons a b, s, ts, hi, hok, hT, hl => by
    have ra := runs hk a
    have rb := runsEach hk b
    clear a b
    cases ts with
    | nil => simp [Ct.binds] at hT
    | cons t ts =>
      simp only [Ct.binds, List.cons.injEq] at hT
      refine Halts.bind (ra s t hi hok.1 hT.1 hl) fun N t1 s1 h1 => ?_
      obtain ⟨p, _, _⟩ := norm_sem ht N t s t1 s1 hi hok.1 (h1 N (Nat.le_refl _))
      exact Halts.bind (rb s1 ts p.inv (Ct.Alls.mono p.ext.ok ts hok.2)
        (by rw [p.ext.binds hok.2]; exact hT.2) (Nat.le_trans (left_le p.ext) hl))
        fun _ _ s2 _ => Halts.pure _ s2
end

include ht hW in
theorem less (k : Nat) : Less Δ pm n0 L k := by
  induction k with
  | zero => intro s t v _ _ _ h; exact absurd h (Nat.not_lt_zero _)
  | succ k ih =>
    intro s t v hi hok he hl
    exact runs ht hW ih he s t hi hok rfl (by omega)

end

end Verif.Mono
