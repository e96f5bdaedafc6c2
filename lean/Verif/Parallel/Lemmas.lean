import Verif.Parallel.Spec
namespace Verif.Parallel

open Spec

variable {P : Type} [DecidableEq P]

/-! ## Setting up -/

theorem flatten_modify_count (m : Nat) (mid : Nat) : ∀ (fs : List (List Nat)) (j : Nat), j < fs.length →
    (fs.modify j (· ++ [mid])).flatten.count m = fs.flatten.count m + (if mid = m then 1 else 0)
  | [], _, h => by simp at h
  | f :: fs, 0, _ => by
    simp only [List.modify_zero_cons, List.flatten_cons, List.count_append]
    rw [List.count_singleton]
    simp only [beq_iff_eq]
    omega
  | f :: fs, j + 1, h => by
    simp only [List.modify_succ_cons, List.flatten_cons, List.count_append]
    rw [flatten_modify_count m mid fs j (by simpa using h)]
    omega

/-- What the loop over the dependencies of module `mid` does. -/
theorem addDep_loop (ids : HMap P Nat) (mid : Nat) (deps : List P) : ∀ (c : Nat) (fs : List (List Nat)),
    (∀ p j, HMap.get ids p = some j → j < fs.length) → c = 1 + fs.flatten.count mid →
    let r := deps.foldl (addDep ids mid) (c, fs)
    r.2.length = fs.length ∧ r.1 = 1 + r.2.flatten.count mid ∧
      (∀ d, ((r.2).getD d []).count mid = (fs.getD d []).count mid + deps.countP (fun p => HMap.get ids p = some d)) ∧
      (∀ d m, m ≠ mid → ((r.2).getD d []).count m = (fs.getD d []).count m) ∧ (∀ m, m ≠ mid → r.2.flatten.count m = fs.flatten.count m) := by
  induction deps with
  | nil => intro c fs _ hc; simp [hc]
  | cons p deps ih =>
    intro c fs hids hc
    simp only [List.foldl_cons]
    cases hp : HMap.get ids p with
    | none =>
      have : addDep ids mid (c, fs) p = (c, fs) := by simp [addDep, hp]
      rw [this]
      obtain ⟨h1, h2, h3, h4, h5⟩ := ih c fs hids hc
      refine ⟨h1, h2, fun d => ?_, h4, h5⟩
      rw [h3 d, List.countP_cons]
      simp [hp]
    | some j =>
      have : addDep ids mid (c, fs) p = (c + 1, fs.modify j (· ++ [mid])) := by simp [addDep, hp]
      rw [this]
      have hj := hids p j hp
      have hmod : ∀ d m, ((fs.modify j (· ++ [mid])).getD d []).count m = (fs.getD d []).count m + (if j = d ∧ mid = m then 1 else 0) := by
        intro d m
        rw [List.getD_eq_getElem?_getD, List.getD_eq_getElem?_getD, List.getElem?_modify]
        by_cases hjd : j = d
        · subst hjd
          rw [List.getElem?_eq_getElem hj]
          simp [List.count_append, List.count_singleton]
        · cases fs[d]? <;> simp [hjd]
      obtain ⟨h1, h2, h3, h4, h5⟩ := ih (c + 1) (fs.modify j (· ++ [mid])) (fun q k hq => by
        rw [List.length_modify]; exact hids q k hq) (by
        rw [flatten_modify_count mid mid fs j hj]; simp; omega)
      refine ⟨by rw [h1, List.length_modify], h2, fun d => ?_, fun d m hm => ?_, fun m hm => ?_⟩
      · rw [h3 d, hmod, List.countP_cons]
        by_cases hjd : j = d
        · simp [hjd, hp]; omega
        · simp [hjd, hp]
      · rw [h4 d m hm, hmod]
        rw [if_neg (fun h => hm h.2.symm), Nat.add_zero]
      · rw [h5 m hm, flatten_modify_count m mid fs j hj]
        rw [if_neg (fun h => hm h.symm), Nat.add_zero]

/-- The tables after the first sources. -/
structure Built (ss : List (Source P)) (t : Setup P) : Prop where
  lenL : t.leader.length = ss.length
  lenF : t.followers.length = ss.length
  ids : ∀ p j, HMap.get t.ids p = some j ↔ ∃ s, ss[j]? = some s ∧ s.path = p
  leader : ∀ m < ss.length, t.leader.getD m 0 = 1 + t.followers.flatten.count m
  mem : ∀ m, ss.length ≤ m → t.followers.flatten.count m = 0
  fol : ∀ d m b a, ss[d]? = some b → ss[m]? = some a → d < m → (t.followers.getD d []).count m = a.deps.count b.path
  fol0 : ∀ d m, m ≤ d → (t.followers.getD d []).count m = 0

theorem getD_append_len {α} (l : List α) (x d : α) : (l ++ [x]).getD l.length d = x := by
  simp [List.getD_eq_getElem?_getD]

theorem getD_append_lt {α} (l : List α) (x d : α) {k} (h : k < l.length) : (l ++ [x]).getD k d = l.getD k d := by
  simp [List.getD_eq_getElem?_getD, List.getElem?_append_left h]

theorem getD_ge {α} (l : List α) (d : α) {k} (h : l.length ≤ k) : l.getD k d = d := by
  simp [List.getD_eq_getElem?_getD, List.getElem?_eq_none h]

theorem count_getD_flatten (fs : List (List Nat)) (d m : Nat) (h : fs.flatten.count m = 0) : (fs.getD d []).count m = 0 := by
  rw [List.getD_eq_getElem?_getD]
  cases hd : fs[d]? with
  | none => simp
  | some f =>
    simp only [Option.getD_some]
    rw [List.count_eq_zero] at h ⊢
    intro hm
    exact h (List.mem_flatten.2 ⟨f, List.mem_of_getElem? hd, hm⟩)

theorem Built.step {ss : List (Source P)} {t : Setup P} (h : Built ss t) (s : Source P) (hnew : s.path ∉ ss.map (·.path)) :
    Built (ss ++ [s]) (addSource t s) := by
  obtain ⟨h1, h2, h3, h4, h5⟩ := addDep_loop t.ids t.leader.length s.deps 1 t.followers (by
    intro p j hp
    obtain ⟨s', hs', -⟩ := (h.ids p j).1 hp
    rw [h.lenF]
    exact (List.getElem?_eq_some_iff.1 hs').1) (by rw [h.lenL, h.mem _ (Nat.le_refl _)])
  have hlen := h.lenL
  refine ⟨?_, ?_, ?_, ?_, ?_, ?_, ?_⟩
  · simp [addSource, h.lenL]
  · simp [addSource, h1, h.lenF]
  · intro p j
    simp only [addSource]
    rw [HMap.get_insert]
    constructor
    · intro hj
      split at hj
      · next hp =>
        cases hj
        refine ⟨s, ?_, hp.symm⟩
        rw [hlen]; simp
      · obtain ⟨s', hs', hp'⟩ := (h.ids p j).1 hj
        exact ⟨s', by rw [List.getElem?_append_left (List.getElem?_eq_some_iff.1 hs').1]; exact hs', hp'⟩
    · rintro ⟨s', hs', rfl⟩
      by_cases hj : j < ss.length
      · rw [List.getElem?_append_left hj] at hs'
        have hne : s'.path ≠ s.path := by
          intro he
          exact hnew (by rw [← he]; exact List.mem_map_of_mem (List.mem_of_getElem? hs'))
        rw [if_neg hne]
        exact (h.ids _ j).2 ⟨s', hs', rfl⟩
      · rw [List.getElem?_append_right (by omega)] at hs'
        have : j - ss.length = 0 := by
          have := (List.getElem?_eq_some_iff.1 hs').1
          simp at this
          omega
        rw [this] at hs'
        simp only [List.getElem?_cons_zero, Option.some.injEq] at hs'
        subst hs'
        rw [if_pos rfl, hlen]
        congr 1
        omega
  · intro m hm
    simp only [addSource]
    rw [List.flatten_append]
    simp only [List.flatten_cons, List.flatten_nil, List.append_nil]
    by_cases hml : m = t.leader.length
    · subst hml
      rw [getD_append_len, h2]
    · rw [getD_append_lt _ _ _ (by simp at hm; omega), h.leader m (by simp at hm; omega), h5 m hml]
  · intro m hm
    simp only [addSource]
    rw [List.flatten_append]
    simp only [List.flatten_cons, List.flatten_nil, List.append_nil]
    simp at hm
    rw [h5 m (by omega)]
    exact h.mem m (by omega)
  · intro d m b a hb ha hdm
    simp only [addSource]
    have hml : m < ss.length + 1 := by
      have := (List.getElem?_eq_some_iff.1 ha).1
      simpa using this
    rw [getD_append_lt _ _ _ (by rw [h1, h.lenF]; omega)]
    rw [List.getElem?_append_left (by omega)] at hb
    by_cases hm : m = t.leader.length
    · subst hm
      have hz := count_getD_flatten t.followers d t.leader.length (h.mem _ (by omega))
      rw [h3 d, hz, Nat.zero_add]
      have hs : a = s := by
        rw [hlen] at ha
        simpa using ha.symm
      subst hs
      unfold List.count
      apply List.countP_congr
      intro p _
      simp only [decide_eq_true_eq, beq_iff_eq]
      rw [h.ids p d]
      constructor
      · rintro ⟨s', hs', rfl⟩
        rw [hb] at hs'
        cases hs'
        rfl
      · intro hp
        exact ⟨b, hb, hp.symm⟩
    · rw [h4 d m hm]
      rw [List.getElem?_append_left (by omega)] at ha
      exact h.fol d m b a hb ha hdm
  · intro d m hmd
    simp only [addSource]
    by_cases hd : d < t.followers.length
    · rw [getD_append_lt _ _ _ (by rw [h1]; exact hd), h4 d m (by rw [hlen, ← h.lenF]; omega)]
      exact h.fol0 d m hmd
    · by_cases hd' : d = t.followers.length
      · have := getD_append_len (s.deps.foldl (addDep t.ids t.leader.length) (1, t.followers)).2 ([] : List Nat) []
        rw [h1, ← hd'] at this
        rw [this]; rfl
      · rw [getD_ge _ _ (by simp [h1]; omega)]; rfl

theorem built_setup (ss : List (Source P)) (h : (ss.map (·.path)).Nodup) : Built ss (setup ss) := by
  have key : ∀ (post pre : List (Source P)) (t : Setup P), ((pre ++ post).map (·.path)).Nodup → Built pre t → Built (pre ++ post) (post.foldl addSource t) := by
    intro post
    induction post with
    | nil => intro pre t _ hb; simpa using hb
    | cons s post ih =>
      intro pre t hn hb
      rw [List.foldl_cons]
      have := ih (pre ++ [s]) (addSource t s) (by simpa using hn) (hb.step s (by
        simp only [List.map_append, List.map_cons, List.nodup_append] at hn
        intro hm
        exact hn.2.2 _ hm _ (by simp) rfl))
      simpa using this
  have := key ss [] ⟨[], [], []⟩ (by simpa using h) ⟨rfl, rfl, by simp [HMap.get], by simp, by simp, by simp, by simp⟩
  simpa [setup] using this

/-! ## Sums -/

def total (n : Nat) (f : Nat → Nat) : Nat := ((List.range n).map f).sum

theorem total_succ (n : Nat) (f : Nat → Nat) : total (n + 1) f = total n f + f n := by
  simp [total, List.range_succ]

theorem total_congr {n : Nat} {f g : Nat → Nat} (h : ∀ x < n, f x = g x) : total n f = total n g := by
  induction n with
  | zero => rfl
  | succ n ih => rw [total_succ, total_succ, ih (fun x hx => h x (by omega)), h n (by omega)]

theorem total_change {n d : Nat} {f g : Nat → Nat} (hd : d < n) (h : ∀ x, x ≠ d → f x = g x) : total n f + g d = total n g + f d := by
  induction n with
  | zero => omega
  | succ n ih =>
    rw [total_succ, total_succ]
    by_cases hdn : d = n
    · subst hdn
      rw [total_congr (fun x hx => h x (by omega))]
      omega
    · have := ih (by omega)
      rw [h n (fun h => hdn h.symm)]
      omega

theorem total_eq_zero {n : Nat} {f : Nat → Nat} : total n f = 0 ↔ ∀ x < n, f x = 0 := by
  induction n with
  | zero => simp [total]
  | succ n ih =>
    rw [total_succ, Nat.add_eq_zero_iff, ih]
    constructor
    · rintro ⟨h1, h2⟩ x hx
      by_cases hxn : x = n
      · rw [hxn]; exact h2
      · exact h1 x (by omega)
    · intro h
      exact ⟨fun x hx => h x (by omega), h n (by omega)⟩

theorem total_succ' (n : Nat) (f : Nat → Nat) : total (n + 1) f = f 0 + total n (fun x => f (x + 1)) := by
  simp [total, List.range_succ_eq_map, List.map_map, Function.comp_def]

theorem flatten_count_total (fs : List (List Nat)) (m : Nat) : fs.flatten.count m = total fs.length (fun d => (fs.getD d []).count m) := by
  induction fs with
  | nil => rfl
  | cons f fs ih =>
    rw [List.flatten_cons, List.count_append, ih, List.length_cons, total_succ']
    simp

/-! ## The invariant of the runs -/

/-- What the actions left in a thread look like. -/
inductive Shape (fol : Nat → List Nat) : List Act → Prop
  | decs (ms : List Nat) : Shape fol (ms.map .dec)
  | spawn (m : Nat) (ms : List Nat) : Shape fol (.spawn m :: ms.map .dec)
  | start (m) : Shape fol [.start m]
  | finish (m) : Shape fol [.finish m]
  | add (m) : Shape fol (.add m :: .write m true :: (fol m).map .dec)
  | written (m) : Shape fol (.write m true :: (fol m).map .dec)
  | failed (m) : Shape fol [.write m false]

def Act.mod : Act → Nat
  | .dec m => m
  | .spawn m => m
  | .start m => m
  | .finish m => m
  | .add m => m
  | .write m _ => m

def State.acts (s : State) : List Act := s.threads.flatten

structure Inv (fol : Nat → List Nat) (outcome : Nat → Bool) (n : Nat) (s : State) : Prop where
  shape : ∀ t ∈ s.threads, Shape fol t
  bound : ∀ a ∈ s.acts, a.mod < n
  cnt : ∀ m < n, s.count m = s.acts.count (.dec m) + total n (fun d => if .finished d true ∈ s.trace then 0 else (fol d).count m)
  tok : ∀ m < n, s.acts.count (.spawn m) + s.acts.count (.start m) + s.trace.count (.started m) = if s.count m = 0 then 1 else 0
  fin : ∀ m, s.acts.count (.finish m) + s.trace.count (.finished m true) + s.trace.count (.finished m false) = s.trace.count (.started m)
  add : ∀ m, s.acts.count (.add m) + s.trace.count (.added m) = s.trace.count (.finished m true)
  wr : ∀ m b, s.acts.count (.write m b) + s.trace.count (.wrote m b) = s.trace.count (.finished m b)
  res : ∀ m b, s.result m = some b ↔ .wrote m b ∈ s.trace
  out : ∀ m b, .finished m b ∈ s.trace → b = outcome m
  trb : ∀ m, .started m ∈ s.trace → m < n
  ord : ∀ pre post m, s.trace = pre ++ .started m :: post → ∀ d < n, m ∈ fol d → .wrote d true ∈ pre ∧ .added d ∈ pre

theorem Shape.write_true {fol : Nat → List Nat} {t : List Act} {d m : Nat} (h : Shape fol t) (hw : .write d true ∈ t) (hm : m ∈ fol d) : .dec m ∈ t := by
  cases h <;> simp at hw ⊢
  · subst hw; exact hm
  · subst hw; exact hm

theorem Shape.add_mem {fol : Nat → List Nat} {t : List Act} {d m : Nat} (h : Shape fol t) (hw : .add d ∈ t) (hm : m ∈ fol d) : .dec m ∈ t := by
  cases h <;> simp at hw ⊢
  · subst hw; exact hm

theorem count_dec (ms : List Nat) (m : Nat) : (ms.map Act.dec).count (.dec m) = ms.count m := by
  induction ms with
  | nil => rfl
  | cons x ms ih => simp [List.count_cons, ih]

theorem count_dec_other (ms : List Nat) (a : Act) (ha : ∀ m, a ≠ .dec m) : (ms.map Act.dec).count a = 0 := by
  rw [List.count_eq_zero]
  intro hm
  obtain ⟨m, -, rfl⟩ := List.mem_map.1 hm
  exact ha m rfl

theorem initial_inv {fol : Nat → List Nat} {outcome : Nat → Bool} {n : Nat} {leader : Nat → Nat}
    (hl : ∀ m < n, leader m = 1 + total n (fun d => (fol d).count m)) : Inv fol outcome n (initial leader n) := by
  have hacts : (initial leader n).acts = (List.range n).map .dec := by simp [State.acts, initial]
  have hc : ∀ m < n, ((List.range n).map Act.dec).count (.dec m) = 1 := by
    intro m hm
    rw [count_dec, List.nodup_range.count]
    simp [hm]
  have h0 : ∀ a : Act, (∀ m, a ≠ .dec m) → ((List.range n).map Act.dec).count a = 0 := by
    intro a ha
    rw [List.count_eq_zero]
    intro hm
    obtain ⟨m, -, rfl⟩ := List.mem_map.1 hm
    exact ha m rfl
  refine ⟨?_, ?_, ?_, ?_, ?_, ?_, ?_, ?_, ?_, ?_, ?_⟩
  · intro t ht
    simp [initial] at ht
    subst ht
    exact .decs _
  · rw [hacts]
    intro a ha
    obtain ⟨m, hm, rfl⟩ := List.mem_map.1 ha
    exact List.mem_range.1 hm
  · intro m hm
    rw [hacts, hc m hm]
    simp only [initial, List.not_mem_nil, if_false]
    exact hl m hm
  · intro m hm
    rw [hacts, h0 _ (by simp), h0 _ (by simp)]
    have := hl m hm
    show _ = if leader m = 0 then 1 else 0
    rw [if_neg (by omega)]
    simp [initial]
  · intro m; rw [hacts, h0 _ (by simp)]; simp [initial]
  · intro m; rw [hacts, h0 _ (by simp)]; simp [initial]
  · intro m b; rw [hacts, h0 _ (by simp)]; simp [initial]
  · simp [initial]
  · simp [initial]
  · simp [initial]
  · intro pre post m h
    simp [initial] at h

theorem count_pre (pre post : List (List Act)) (t : List Act) (new : List (List Act)) (x : Act) :
    (pre ++ t :: post ++ new).flatten.count x = pre.flatten.count x + post.flatten.count x + t.count x + new.flatten.count x := by
  simp [List.count_append]
  omega

theorem trace_cases {tr pre post : List Event} {e : Event} {m : Nat} (h : tr ++ [e] = pre ++ .started m :: post) :
    (∃ post', tr = pre ++ .started m :: post') ∨ (e = .started m ∧ tr = pre) := by
  rcases List.append_eq_append_iff.1 h with ⟨as, h1, h2⟩ | ⟨bs, h1, h2⟩
  · cases as with
    | nil =>
      simp at h1 h2
      exact .inr ⟨h2.1, h1.symm⟩
    | cons a as => simp at h2
  · cases bs with
    | nil =>
      simp at h1 h2
      exact .inr ⟨h2.1.symm, h1⟩
    | cons b bs =>
      simp at h2
      obtain ⟨rfl, -⟩ := h2
      exact .inl ⟨bs, h1⟩

theorem Shape.tail_decs {fol : Nat → List Nat} {rest : List Act} {m : Nat} (h : Shape fol (.dec m :: rest)) : ∃ ms : List Nat, rest = ms.map .dec := by
  generalize ht : (Act.dec m :: rest) = t at h
  cases h with
  | decs ms =>
    cases ms with
    | nil => simp at ht
    | cons x ms => simp at ht; exact ⟨ms, ht.2⟩
  | _ => simp at ht

theorem Shape.tail_spawn {fol : Nat → List Nat} {rest : List Act} {m : Nat} (h : Shape fol (.spawn m :: rest)) : ∃ ms : List Nat, rest = ms.map .dec := by
  generalize ht : (Act.spawn m :: rest) = t at h
  cases h with
  | decs ms => cases ms <;> simp at ht
  | spawn m' ms => simp at ht; exact ⟨ms, ht.2⟩
  | _ => simp at ht

theorem Shape.tail_start {fol : Nat → List Nat} {rest : List Act} {m : Nat} (h : Shape fol (.start m :: rest)) : rest = [] := by
  generalize ht : (Act.start m :: rest) = t at h
  cases h with
  | decs ms => cases ms <;> simp at ht
  | start m' => simp at ht; exact ht.2
  | _ => simp at ht

theorem Shape.tail_finish {fol : Nat → List Nat} {rest : List Act} {m : Nat} (h : Shape fol (.finish m :: rest)) : rest = [] := by
  generalize ht : (Act.finish m :: rest) = t at h
  cases h with
  | decs ms => cases ms <;> simp at ht
  | finish m' => simp at ht; exact ht.2
  | _ => simp at ht

theorem Shape.tail_add {fol : Nat → List Nat} {rest : List Act} {m : Nat} (h : Shape fol (.add m :: rest)) :
    rest = .write m true :: (fol m).map .dec := by
  generalize ht : (Act.add m :: rest) = t at h
  cases h with
  | decs ms => cases ms <;> simp at ht
  | add m' => simp at ht; obtain ⟨rfl, h⟩ := ht; exact h
  | _ => simp at ht

theorem Shape.tail_write {fol : Nat → List Nat} {rest : List Act} {m : Nat} {b : Bool} (h : Shape fol (.write m b :: rest)) :
    ∃ ms : List Nat, rest = ms.map .dec := by
  generalize ht : (Act.write m b :: rest) = t at h
  cases h with
  | decs ms => cases ms <;> simp at ht
  | written m' => simp at ht; exact ⟨_, ht.2⟩
  | failed m' => simp at ht; exact ⟨[], by simp [ht.2]⟩
  | _ => simp at ht

/-- At the moment a module is started, its dependencies were built, added and published. -/
theorem Inv.start_ready {fol : Nat → List Nat} {outcome n s} (h : Inv fol outcome n s) {m : Nat} (hm : m < n) (hs : .start m ∈ s.acts)
    {d : Nat} (hd : d < n) (hmd : m ∈ fol d) : .wrote d true ∈ s.trace ∧ .added d ∈ s.trace := by
  have htok := h.tok m hm
  have hpos : 0 < s.acts.count (.start m) := List.count_pos_iff.2 hs
  have hc : s.count m = 0 := by
    by_cases hc : s.count m = 0
    · exact hc
    · rw [if_neg hc] at htok; omega
  have hcnt := h.cnt m hm
  rw [hc] at hcnt
  have hdec : s.acts.count (.dec m) = 0 := by omega
  have htot := total_eq_zero.1 (show total n (fun d => if .finished d true ∈ s.trace then 0 else (fol d).count m) = 0 by omega) d hd
  have hfin : .finished d true ∈ s.trace := by
    by_cases hf : .finished d true ∈ s.trace
    · exact hf
    · simp only [hf, if_false] at htot
      exact absurd hmd (List.count_eq_zero.1 htot)
  have hfp : 0 < s.trace.count (.finished d true) := List.count_pos_iff.2 hfin
  have hno : ∀ t ∈ s.threads, .dec m ∉ t := by
    intro t ht hmem
    exact List.count_eq_zero.1 hdec (List.mem_flatten.2 ⟨t, ht, hmem⟩)
  constructor
  · have hw := h.wr d true
    have : s.acts.count (.write d true) = 0 := by
      rw [List.count_eq_zero]
      intro hmem
      obtain ⟨t, ht, hmt⟩ := List.mem_flatten.1 hmem
      exact hno t ht ((h.shape t ht).write_true hmt hmd)
    exact List.count_pos_iff.1 (by omega)
  · have hw := h.add d
    have : s.acts.count (.add d) = 0 := by
      rw [List.count_eq_zero]
      intro hmem
      obtain ⟨t, ht, hmt⟩ := List.mem_flatten.1 hmem
      exact hno t ht ((h.shape t ht).add_mem hmt hmd)
    exact List.count_pos_iff.1 (by omega)

theorem ord_snoc {fol : Nat → List Nat} {n : Nat} {tr : List Event} {e : Event}
    (h : ∀ pre post m, tr = pre ++ .started m :: post → ∀ d < n, m ∈ fol d → .wrote d true ∈ pre ∧ .added d ∈ pre)
    (he : ∀ m, e = .started m → ∀ d < n, m ∈ fol d → .wrote d true ∈ tr ∧ .added d ∈ tr) :
    ∀ pre post m, tr ++ [e] = pre ++ .started m :: post → ∀ d < n, m ∈ fol d → .wrote d true ∈ pre ∧ .added d ∈ pre := by
  intro pre post m heq
  rcases trace_cases heq with ⟨post', hp⟩ | ⟨h1, rfl⟩
  · exact h pre post' m hp
  · exact he m h1

theorem step_inv {fol : Nat → List Nat} {outcome n} (hfol : ∀ d, ∀ m ∈ fol d, m < n) {s s' : State} (h : Inv fol outcome n s)
    (hst : Step fol outcome s s') : Inv fol outcome n s' := by
  obtain ⟨pre, post, a, rest, hth⟩ := hst
  have hold : ∀ x, s.acts.count x = pre.flatten.count x + post.flatten.count x + (a :: rest).count x := by
    intro x
    unfold State.acts
    rw [hth]
    have := count_pre pre post (a :: rest) [] x
    simpa using this
  have hshape := h.shape (a :: rest) (by rw [hth]; simp)
  have hothers : ∀ t, t ∈ pre ∨ t ∈ post → Shape fol t := fun t ht => h.shape t (by rw [hth]; simp; rcases ht with ht | ht <;> simp [ht])
  have hamem : a ∈ s.acts := List.mem_flatten.2 ⟨a :: rest, by rw [hth]; simp, by simp⟩
  have hrestmem : ∀ x ∈ rest, x ∈ s.acts := fun x hx => List.mem_flatten.2 ⟨a :: rest, by rw [hth]; simp, by simp [hx]⟩
  have hpremem : ∀ t x, (t ∈ pre ∨ t ∈ post) → x ∈ t → x ∈ s.acts := fun t x ht hx => List.mem_flatten.2 ⟨t, by rw [hth]; simp; rcases ht with ht | ht <;> simp [ht], hx⟩
  have ham := h.bound a hamem
  have shapes : ∀ (t' : List Act) (new : List (List Act)), Shape fol t' → (∀ t ∈ new, Shape fol t) →
      ∀ t ∈ pre ++ t' :: post ++ new, Shape fol t := by
    intro t' new h1 h2 t ht
    simp only [List.append_assoc, List.cons_append, List.mem_append, List.mem_cons] at ht
    rcases ht with ht | ht | ht | ht
    · exact hothers t (.inl ht)
    · rw [ht]; exact h1
    · exact hothers t (.inr ht)
    · exact h2 t ht
  have bounds : ∀ (t' : List Act) (new : List (List Act)), (∀ x ∈ t', x.mod < n) → (∀ t ∈ new, ∀ x ∈ t, x.mod < n) →
      ∀ x ∈ (pre ++ t' :: post ++ new).flatten, x.mod < n := by
    intro t' new h1 h2 x hx
    obtain ⟨t, ht, hxt⟩ := List.mem_flatten.1 hx
    simp only [List.append_assoc, List.cons_append, List.mem_append, List.mem_cons] at ht
    rcases ht with ht | ht | ht | ht
    · exact h.bound x (hpremem t x (.inl ht) hxt)
    · rw [ht] at hxt; exact h1 x hxt
    · exact h.bound x (hpremem t x (.inr ht) hxt)
    · exact h2 t ht x hxt
  have hnew := count_pre pre post (act fol outcome s rest a).1 (act fol outcome s rest a).2.1
  cases a with
  | dec m =>
    obtain ⟨ms, rfl⟩ := hshape.tail_decs
    have hcm := h.cnt m ham
    have hcp : 0 < s.acts.count (.dec m) := List.count_pos_iff.2 hamem
    by_cases h1 : s.count m = 1
    · simp only [act, h1, if_true] at hnew ⊢
      refine ⟨?_, ?_, ?_, ?_, ?_, ?_, ?_, h.res, h.out, h.trb, h.ord⟩
      · exact shapes _ _ (.spawn m ms) (by simp)
      · exact bounds _ _ (by
          intro x hx
          rcases List.mem_cons.1 hx with rfl | hx
          · exact ham
          · exact h.bound x (hrestmem x hx)) (by simp)
      · intro m' hm'
        have := h.cnt m' hm'
        simp only [State.acts]
        rw [hnew]
        rw [hold] at this
        unfold upd
        by_cases he : m' = m
        · subst he
          simp [List.count_cons] at this ⊢
          omega
        · have he' : ¬ m = m' := fun h => he h.symm
          simp [List.count_cons, he, he'] at this ⊢
          omega
      · intro m' hm'
        have := h.tok m' hm'
        simp only [State.acts]
        rw [hnew, hnew]
        rw [hold, hold] at this
        unfold upd
        by_cases he : m' = m
        · subst he
          simp [List.count_cons, h1] at this ⊢
          omega
        · have he' : ¬ m = m' := fun h => he h.symm
          simp [List.count_cons, he, he'] at this ⊢
          omega
      · intro m'
        have := h.fin m'
        simp only [State.acts]
        rw [hnew]
        rw [hold] at this
        simp [List.count_cons] at this ⊢
        omega
      · intro m'
        have := h.add m'
        simp only [State.acts]
        rw [hnew]
        rw [hold] at this
        simp [List.count_cons] at this ⊢
        omega
      · intro m' b
        have := h.wr m' b
        simp only [State.acts]
        rw [hnew]
        rw [hold] at this
        simp [List.count_cons] at this ⊢
        omega
    · simp only [act, h1, if_false] at hnew ⊢
      refine ⟨?_, ?_, ?_, ?_, ?_, ?_, ?_, h.res, h.out, h.trb, h.ord⟩
      · exact shapes _ _ (.decs ms) (by simp)
      · exact bounds _ _ (fun x hx => h.bound x (hrestmem x hx)) (by simp)
      · intro m' hm'
        have := h.cnt m' hm'
        simp only [State.acts]
        rw [hnew]
        rw [hold] at this
        unfold upd
        by_cases he : m' = m
        · subst he
          simp [List.count_cons] at this ⊢
          omega
        · have he' : ¬ m = m' := fun h => he h.symm
          simp [List.count_cons, he, he'] at this ⊢
          omega
      · intro m' hm'
        have := h.tok m' hm'
        simp only [State.acts]
        rw [hnew, hnew]
        rw [hold, hold] at this
        unfold upd
        by_cases he : m' = m
        · subst he
          have h0 : s.count m' ≠ 0 := by omega
          simp [List.count_cons, h0] at this ⊢
          have h2 : s.count m' - 1 ≠ 0 := by omega
          simp [h2]
          omega
        · have he' : ¬ m = m' := fun h => he h.symm
          simp [List.count_cons, he, he'] at this ⊢
          omega
      · intro m'
        have := h.fin m'
        simp only [State.acts]
        rw [hnew]
        rw [hold] at this
        simp [List.count_cons] at this ⊢
        omega
      · intro m'
        have := h.add m'
        simp only [State.acts]
        rw [hnew]
        rw [hold] at this
        simp [List.count_cons] at this ⊢
        omega
      · intro m' b
        have := h.wr m' b
        simp only [State.acts]
        rw [hnew]
        rw [hold] at this
        simp [List.count_cons] at this ⊢
        omega
  | spawn m =>
    obtain ⟨ms, rfl⟩ := hshape.tail_spawn
    simp only [act] at hnew ⊢
    refine ⟨?_, ?_, ?_, ?_, ?_, ?_, ?_, h.res, h.out, h.trb, h.ord⟩
    · exact shapes _ _ (.decs ms) (by intro t ht; simp at ht; subst ht; exact .start m)
    · exact bounds _ _ (fun x hx => h.bound x (hrestmem x hx)) (by
        intro t ht x hx
        simp at ht; subst ht; simp at hx; subst hx; exact ham)
    · intro m' hm'
      have := h.cnt m' hm'
      simp only [State.acts]
      rw [hnew]
      rw [hold] at this
      simp [List.count_cons] at this ⊢
      omega
    · intro m' hm'
      have := h.tok m' hm'
      simp only [State.acts]
      rw [hnew, hnew]
      rw [hold, hold] at this
      simp [List.count_cons] at this ⊢
      omega
    · intro m'
      have := h.fin m'
      simp only [State.acts]
      rw [hnew]
      rw [hold] at this
      simp [List.count_cons] at this ⊢
      omega
    · intro m'
      have := h.add m'
      simp only [State.acts]
      rw [hnew]
      rw [hold] at this
      simp [List.count_cons] at this ⊢
      omega
    · intro m' b
      have := h.wr m' b
      simp only [State.acts]
      rw [hnew]
      rw [hold] at this
      simp [List.count_cons] at this ⊢
      omega
  | start m =>
    obtain rfl := hshape.tail_start
    simp only [act] at hnew ⊢
    refine ⟨?_, ?_, ?_, ?_, ?_, ?_, ?_, ?_, ?_, ?_, ?_⟩
    · exact shapes _ _ (.finish m) (by simp)
    · exact bounds _ _ (by intro x hx; simp at hx; subst hx; exact ham) (by simp)
    · intro m' hm'
      have := h.cnt m' hm'
      simp only [State.acts]
      rw [hnew]
      rw [hold] at this
      simp [List.count_cons] at this ⊢
      omega
    · intro m' hm'
      have := h.tok m' hm'
      simp only [State.acts]
      rw [hnew, hnew]
      rw [hold, hold] at this
      simp [List.count_cons, List.count_append] at this ⊢
      omega
    · intro m'
      have := h.fin m'
      simp only [State.acts]
      rw [hnew]
      rw [hold] at this
      simp [List.count_cons, List.count_append] at this ⊢
      omega
    · intro m'
      have := h.add m'
      simp only [State.acts]
      rw [hnew]
      rw [hold] at this
      simp [List.count_cons, List.count_append] at this ⊢
      omega
    · intro m' b
      have := h.wr m' b
      simp only [State.acts]
      rw [hnew]
      rw [hold] at this
      simp [List.count_cons, List.count_append] at this ⊢
      omega
    · intro m' b; rw [h.res]; simp
    · intro m' b hb; simp at hb; exact h.out m' b hb
    · intro m' hm'
      simp at hm'
      rcases hm' with hm' | hm'
      · exact h.trb m' hm'
      · subst hm'; exact ham
    · refine ord_snoc h.ord ?_
      intro m' he d hd hmd
      cases he
      exact h.start_ready ham hamem hd hmd
  | finish m =>
    obtain rfl := hshape.tail_finish
    have hfin := h.fin m
    have hfp : 0 < s.acts.count (.finish m) := List.count_pos_iff.2 hamem
    have htok := h.tok m ham
    have hle : s.trace.count (.started m) ≤ 1 := by split at htok <;> omega
    have hnf : ∀ b, .finished m b ∉ s.trace := by
      intro b hb
      have := List.count_pos_iff.2 hb
      cases b <;> omega
    by_cases hout : outcome m = true
    · simp only [act, hout, if_true] at hnew ⊢
      refine ⟨?_, ?_, ?_, ?_, ?_, ?_, ?_, ?_, ?_, ?_, ?_⟩
      · exact shapes _ _ (by rw [List.append_nil]; exact .add m) (by simp)
      · exact bounds _ _ (by
          intro x hx
          simp at hx
          rcases hx with rfl | rfl | ⟨y, hy, rfl⟩
          · exact ham
          · exact ham
          · exact hfol m y hy) (by simp)
      · intro m' hm'
        have := h.cnt m' hm'
        simp only [State.acts]
        rw [hnew]
        rw [hold] at this
        have hch := total_change (n := n) (d := m) (f := fun d => if .finished d true ∈ s.trace then 0 else (fol d).count m')
          (g := fun d => if .finished d true ∈ s.trace ++ [.finished m true] then 0 else (fol d).count m') ham (by
            intro x hx
            simp [hx])
        simp only [hnf true, if_false] at hch
        simp at hch
        simp [List.count_cons, count_dec] at this ⊢
        omega
      · intro m' hm'
        have := h.tok m' hm'
        simp only [State.acts]
        rw [hnew, hnew]
        rw [hold, hold] at this
        simp [List.count_cons, List.count_append, count_dec_other] at this ⊢
        omega
      · intro m'
        have := h.fin m'
        simp only [State.acts]
        rw [hnew]
        rw [hold] at this
        simp [List.count_cons, List.count_append, count_dec_other] at this ⊢
        omega
      · intro m'
        have := h.add m'
        simp only [State.acts]
        rw [hnew]
        rw [hold] at this
        simp [List.count_cons, List.count_append, count_dec_other] at this ⊢
        omega
      · intro m' b
        have := h.wr m' b
        simp only [State.acts]
        rw [hnew]
        rw [hold] at this
        cases b <;> simp [List.count_cons, List.count_append, count_dec_other] at this ⊢ <;> omega
      · intro m' b; rw [h.res]; simp
      · intro m' b hb
        simp at hb
        rcases hb with hb | ⟨rfl, rfl⟩
        · exact h.out m' b hb
        · exact hout.symm
      · intro m' hm'; simp at hm'; exact h.trb m' hm'
      · exact ord_snoc h.ord (by intro m' he; cases he)
    · simp only [Bool.not_eq_true] at hout
      simp only [act, hout] at hnew ⊢
      simp only [Bool.false_eq_true, if_false] at hnew ⊢
      refine ⟨?_, ?_, ?_, ?_, ?_, ?_, ?_, ?_, ?_, ?_, ?_⟩
      · exact shapes _ _ (.failed m) (by simp)
      · exact bounds _ _ (by
          intro x hx
          simp at hx
          subst hx
          exact ham) (by simp)
      · intro m' hm'
        have := h.cnt m' hm'
        simp only [State.acts]
        rw [hnew]
        rw [hold] at this
        simp [List.count_cons, count_dec] at this ⊢
        omega
      · intro m' hm'
        have := h.tok m' hm'
        simp only [State.acts]
        rw [hnew, hnew]
        rw [hold, hold] at this
        simp [List.count_cons, List.count_append, count_dec_other] at this ⊢
        omega
      · intro m'
        have := h.fin m'
        simp only [State.acts]
        rw [hnew]
        rw [hold] at this
        simp [List.count_cons, List.count_append, count_dec_other] at this ⊢
        omega
      · intro m'
        have := h.add m'
        simp only [State.acts]
        rw [hnew]
        rw [hold] at this
        simp [List.count_cons, List.count_append, count_dec_other] at this ⊢
        omega
      · intro m' b
        have := h.wr m' b
        simp only [State.acts]
        rw [hnew]
        rw [hold] at this
        cases b <;> simp [List.count_cons, List.count_append, count_dec_other] at this ⊢ <;> omega
      · intro m' b; rw [h.res]; simp
      · intro m' b hb
        simp at hb
        rcases hb with hb | ⟨rfl, rfl⟩
        · exact h.out m' b hb
        · exact hout.symm
      · intro m' hm'; simp at hm'; exact h.trb m' hm'
      · exact ord_snoc h.ord (by intro m' he; cases he)
  | add m =>
    obtain rfl := hshape.tail_add
    simp only [act] at hnew ⊢
    refine ⟨?_, ?_, ?_, ?_, ?_, ?_, ?_, ?_, ?_, ?_, ?_⟩
    · exact shapes _ _ (.written m) (by simp)
    · exact bounds _ _ (fun x hx => h.bound x (hrestmem x hx)) (by simp)
    · intro m' hm'
      have := h.cnt m' hm'
      simp only [State.acts]
      rw [hnew]
      rw [hold] at this
      simp [List.count_cons] at this ⊢
      omega
    · intro m' hm'
      have := h.tok m' hm'
      simp only [State.acts]
      rw [hnew, hnew]
      rw [hold, hold] at this
      simp [List.count_cons, List.count_append] at this ⊢
      omega
    · intro m'
      have := h.fin m'
      simp only [State.acts]
      rw [hnew]
      rw [hold] at this
      simp [List.count_cons, List.count_append] at this ⊢
      omega
    · intro m'
      have := h.add m'
      simp only [State.acts]
      rw [hnew]
      rw [hold] at this
      simp [List.count_cons, List.count_append] at this ⊢
      omega
    · intro m' b
      have := h.wr m' b
      simp only [State.acts]
      rw [hnew]
      rw [hold] at this
      simp [List.count_cons, List.count_append] at this ⊢
      omega
    · intro m' b; rw [h.res]; simp
    · intro m' b hb; simp at hb; exact h.out m' b hb
    · intro m' hm'; simp at hm'; exact h.trb m' hm'
    · exact ord_snoc h.ord (by intro m' he; cases he)
  | write m ok =>
    obtain ⟨ms, rfl⟩ := hshape.tail_write
    simp only [act] at hnew ⊢
    have hfin := h.fin m
    have htok := h.tok m ham
    have hle : s.trace.count (.started m) ≤ 1 := by split at htok <;> omega
    have hwp : 0 < s.acts.count (.write m ok) := List.count_pos_iff.2 hamem
    have hw := h.wr m ok
    have hnw : ∀ b, .wrote m b ∉ s.trace := by
      intro b hb
      have h1 := List.count_pos_iff.2 hb
      have h2 := h.wr m b
      cases b <;> cases ok <;> omega
    refine ⟨?_, ?_, ?_, ?_, ?_, ?_, ?_, ?_, ?_, ?_, ?_⟩
    · exact shapes _ _ (.decs ms) (by simp)
    · exact bounds _ _ (fun x hx => h.bound x (hrestmem x hx)) (by simp)
    · intro m' hm'
      have := h.cnt m' hm'
      simp only [State.acts]
      rw [hnew]
      rw [hold] at this
      simp [List.count_cons] at this ⊢
      omega
    · intro m' hm'
      have := h.tok m' hm'
      simp only [State.acts]
      rw [hnew, hnew]
      rw [hold, hold] at this
      simp [List.count_cons, List.count_append] at this ⊢
      omega
    · intro m'
      have := h.fin m'
      simp only [State.acts]
      rw [hnew]
      rw [hold] at this
      simp [List.count_cons, List.count_append] at this ⊢
      omega
    · intro m'
      have := h.add m'
      simp only [State.acts]
      rw [hnew]
      rw [hold] at this
      simp [List.count_cons, List.count_append] at this ⊢
      omega
    · intro m' b
      have := h.wr m' b
      simp only [State.acts]
      rw [hnew]
      rw [hold] at this
      simp [List.count_cons, List.count_append] at this ⊢
      omega
    · intro m' b
      unfold upd
      by_cases he : m' = m
      · subst he
        simp [hnw b]
        exact eq_comm
      · simp [he]
        exact h.res m' b
    · intro m' b hb; simp at hb; exact h.out m' b hb
    · intro m' hm'; simp at hm'; exact h.trb m' hm'
    · exact ord_snoc h.ord (by intro m' he; cases he)

end Verif.Parallel
