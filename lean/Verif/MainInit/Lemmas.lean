import Verif.MainInit.Spec
namespace Verif.MainInit

open Verif.MainInit.Spec

variable {E : Type}

theorem own_append (a b : List (InitExpr E)) : own (a ++ b) = own a ++ own b := by
  induction a with
  | nil => rfl
  | cons i a ih => cases i <;> simp [own, ih]

theorem own_evals (q : List (InitExpr E)) : own q = q.flatMap InitExpr.evals := by
  induction q with
  | nil => rfl
  | cons i q ih => cases i <;> simp [own, InitExpr.evals, ih]

/-- Everything `v` needs was scheduled. -/
def Done (inits : Nat → List (InitExpr E)) (v : Nat) (q : List (InitExpr E)) : Prop := ∀ k, Needs inits v k → ∀ e ∈ own (inits k), e ∈ own q

theorem Done.append {inits : Nat → List (InitExpr E)} {v q} (h : Done inits v q) (w : List (InitExpr E)) : Done inits v (q ++ w) := by
  intro k hk e he
  rw [own_append]
  exact List.mem_append_left _ (h k hk e he)

/-- What visiting adds to a state. -/
structure Visit (inits : Nat → List (InitExpr E)) (V : List Nat) (Q : List (InitExpr E)) (N : List Nat) (W : List (InitExpr E)) : Prop where
  nodup : N.Nodup
  fresh : ∀ v ∈ N, v ∉ V
  closed : ∀ v ∈ N, ∀ n, .ensure n ∈ inits v → n ∈ N ++ V
  done : ∀ v ∈ N, Done inits v (Q ++ W)
  ord : ∀ v ∈ N, ∀ a n b, inits v = a ++ .ensure n :: b → ∃ x y, W = x ++ y ∧ Done inits n (Q ++ x) ∧ (own b).Sublist (own y)
  sub : ∀ v ∈ N, (own (inits v)).Sublist (own W)

theorem Visit.nil (inits : Nat → List (InitExpr E)) (V Q W) : Visit inits V Q [] W :=
  ⟨List.nodup_nil, by simp, by simp, by simp, by simp, by simp⟩

/-- A visit with more around it. -/
theorem Visit.seq {inits : Nat → List (InitExpr E)} {V Q N W N' W'} (h : Visit inits V Q N W) (h' : Visit inits (N ++ V) (Q ++ W) N' W') :
    Visit inits V Q (N' ++ N) (W ++ W') := by
  refine ⟨?_, ?_, ?_, ?_, ?_, ?_⟩
  · rw [List.nodup_append]
    refine ⟨h'.nodup, h.nodup, ?_⟩
    intro a ha b hb hab
    subst hab
    exact h'.fresh _ ha (List.mem_append_left _ hb)
  · intro v hv hvV
    rcases List.mem_append.1 hv with hv | hv
    · exact h'.fresh v hv (List.mem_append_right _ hvV)
    · exact h.fresh v hv hvV
  · intro v hv n hn
    rcases List.mem_append.1 hv with hv | hv
    · rw [List.append_assoc]
      exact h'.closed v hv n hn
    · rw [List.append_assoc]
      exact List.mem_append_right _ (h.closed v hv n hn)
  · intro v hv
    rw [← List.append_assoc]
    rcases List.mem_append.1 hv with hv | hv
    · exact h'.done v hv
    · exact (h.done v hv).append _
  · intro v hv a n b hab
    rcases List.mem_append.1 hv with hv | hv
    · obtain ⟨x, y, rfl, h1, h2⟩ := h'.ord v hv a n b hab
      exact ⟨W ++ x, y, by rw [List.append_assoc], by rw [← List.append_assoc]; exact h1, h2⟩
    · obtain ⟨x, y, rfl, h1, h2⟩ := h.ord v hv a n b hab
      exact ⟨x, y ++ W', by rw [List.append_assoc], h1, by rw [own_append]; exact h2.trans (List.sublist_append_left _ _)⟩
  · intro v hv
    rw [own_append]
    rcases List.mem_append.1 hv with hv | hv
    · exact (h'.sub v hv).trans (List.sublist_append_right _ _)
    · exact (h.sub v hv).trans (List.sublist_append_left _ _)

/-- Adding something to the queue first. -/
theorem Visit.after {inits : Nat → List (InitExpr E)} {V Q N W} (w : List (InitExpr E)) (h : Visit inits V (Q ++ w) N W) : Visit inits V Q N (w ++ W) := by
  refine ⟨h.nodup, h.fresh, h.closed, ?_, ?_, ?_⟩
  · intro v hv
    rw [← List.append_assoc]
    exact h.done v hv
  · intro v hv a n b hab
    obtain ⟨x, y, rfl, h1, h2⟩ := h.ord v hv a n b hab
    exact ⟨w ++ x, y, by rw [List.append_assoc], by rw [← List.append_assoc]; exact h1, h2⟩
  · intro v hv
    rw [own_append]
    exact (h.sub v hv).trans (List.sublist_append_right _ _)

structure Map (inits : Nat → List (InitExpr E)) (r : Nat → Nat) (map : HMap Nat (List (InitExpr E))) : Prop where
  agree : ∀ m x, HMap.get map m = some x → x = inits m
  rank : ∀ m ∈ HMap.keys map, ∀ n, .ensure n ∈ inits m → r n < r m ∧ n ∈ HMap.keys map

/-- The number of modules up to the rank of `m`. -/
def below (r : Nat → Nat) (keys : List Nat) (m : Nat) : Nat := (keys.filter fun k => decide (r k ≤ r m)).length

theorem below_le (r : Nat → Nat) (keys : List Nat) (m : Nat) : below r keys m ≤ keys.length := List.length_filter_le _ _

theorem below_lt (r : Nat → Nat) {keys : List Nat} {m n : Nat} (hm : m ∈ keys) (h : r n < r m) : below r keys n < below r keys m := by
  unfold below
  induction keys with
  | nil => cases hm
  | cons k keys ih =>
    have mono : (keys.filter fun k => decide (r k ≤ r n)).length ≤ (keys.filter fun k => decide (r k ≤ r m)).length := by
      clear ih hm
      induction keys with
      | nil => exact Nat.le_refl _
      | cons k keys ih =>
        simp only [List.filter_cons]
        by_cases h1 : r k ≤ r n
        · have h2 : r k ≤ r m := by omega
          simp only [h1, h2, decide_true, if_true, List.length_cons]
          omega
        · by_cases h2 : r k ≤ r m
          · simp only [h1, h2, decide_true, if_true, decide_false, List.length_cons]
            simp only [Bool.false_eq_true, if_false]
            omega
          · simp only [h1, h2, decide_false, Bool.false_eq_true, if_false]
            exact ih
    simp only [List.filter_cons]
    rcases List.mem_cons.1 hm with rfl | hm
    · have h1 : ¬ r m ≤ r n := by omega
      simp only [h1, decide_false, Bool.false_eq_true, if_false, Nat.le_refl, decide_true, if_true, List.length_cons]
      omega
    · have := ih hm
      by_cases h1 : r k ≤ r n
      · have h2 : r k ≤ r m := by omega
        simp only [h1, h2, decide_true, if_true, List.length_cons]
        omega
      · by_cases h2 : r k ≤ r m
        · simp only [h1, h2, decide_true, if_true, decide_false, List.length_cons]
          simp only [Bool.false_eq_true, if_false]
          omega
        · simp only [h1, h2, decide_false, Bool.false_eq_true, if_false]
          exact this

theorem loop_spec {inits : Nat → List (InitExpr E)} {r : Nat → Nat} {keys : List Nat} {m : Nat}
    (visit : Nat → List Nat × List (InitExpr E) → Option (List Nat × List (InitExpr E)))
    (hv : ∀ n V Q, n ∈ keys → r n < r m → (∀ v ∈ V, r v ≤ r n → Done inits v Q) →
      ∃ N W, visit n (V, Q) = some (N ++ V, Q ++ W) ∧ n ∈ N ++ V ∧ Visit inits V Q N W ∧ (∀ v ∈ N, Needs inits n v ∧ v ∈ keys ∧ r v ≤ r n) ∧
        (own W).Perm (N.flatMap fun v => own (inits v))) :
    ∀ (l : List (InitExpr E)) (V : List Nat) (Q : List (InitExpr E)), (∀ n, .ensure n ∈ l → n ∈ keys ∧ r n < r m) →
      (∀ v ∈ V, r v < r m → Done inits v Q) →
      ∃ N W, initLoop visit l (V, Q) = some (N ++ V, Q ++ W) ∧ (∀ n, .ensure n ∈ l → n ∈ N ++ V) ∧ Visit inits V Q N W ∧
        (∀ v ∈ N, v ∈ keys ∧ r v < r m ∧ ∃ n, .ensure n ∈ l ∧ Needs inits n v) ∧
        (own W).Perm (own l ++ N.flatMap fun v => own (inits v)) ∧
        (∀ n, .ensure n ∈ l → Done inits n (Q ++ W)) ∧ (own l).Sublist (own W) ∧
        (∀ a n b, l = a ++ .ensure n :: b → ∃ x y, W = x ++ y ∧ Done inits n (Q ++ x) ∧ (own b).Sublist (own y)) := by
  intro l
  induction l with
  | nil =>
    intro V Q _ _
    refine ⟨[], [], by simp [initLoop], by simp, Visit.nil _ _ _ _, by simp, by simp [own], by simp, by simp [own], ?_⟩
    intro a n b h
    simp at h
  | cons i l ih =>
    intro V Q hens hdone
    cases i with
    | eval e =>
      obtain ⟨N, W, h1, h2, h3, h4, h5, h6, h7, h8⟩ := ih V (Q ++ [.eval e]) (fun n hn => hens n (by simp [hn])) (fun v hv hr => (hdone v hv hr).append _)
      refine ⟨N, .eval e :: W, by simp [initLoop, h1], ?_, h3.after [.eval e], ?_, ?_, ?_, ?_, ?_⟩
      · intro n hn
        exact h2 n (by simpa using hn)
      · intro v hv
        obtain ⟨g1, g2, n, g3, g4⟩ := h4 v hv
        exact ⟨g1, g2, n, by simp [g3], g4⟩
      · simp only [own, List.cons_append]
        exact h5.cons e
      · intro n hn
        have := h6 n (by simpa using hn)
        simpa using this
      · simp only [own]
        exact h7.cons_cons e
      · intro a n b hab
        cases a with
        | nil => simp at hab
        | cons j a =>
          simp only [List.cons_append, List.cons.injEq] at hab
          obtain ⟨x, y, rfl, g1, g2⟩ := h8 a n b hab.2
          exact ⟨.eval e :: x, y, rfl, by simpa using g1, g2⟩
    | ensure n =>
      obtain ⟨hnk, hnr⟩ := hens n (by simp)
      obtain ⟨N1, W1, g1, g2, g3, g4, g5⟩ := hv n V (Q ++ [.ensure n]) hnk hnr (fun v hv hr => (hdone v hv (by omega)).append _)
      have hdone1 : ∀ v ∈ N1 ++ V, r v < r m → Done inits v (Q ++ [.ensure n] ++ W1) := by
        intro v hvm hr
        rcases List.mem_append.1 hvm with hvm | hvm
        · exact g3.done v hvm
        · exact ((hdone v hvm hr).append _).append _
      have hn1 : Done inits n (Q ++ [.ensure n] ++ W1) := hdone1 n g2 hnr
      obtain ⟨N, W, h1, h2, h3, h4, h5, h6, h7, h8⟩ := ih (N1 ++ V) (Q ++ [.ensure n] ++ W1) (fun k hk => hens k (by simp [hk])) hdone1
      have hvis := (g3.seq h3).after [.ensure n]
      refine ⟨N ++ N1, .ensure n :: (W1 ++ W), ?_, ?_, hvis, ?_, ?_, ?_, ?_, ?_⟩
      · simp only [initLoop, g1, h1]
        simp
      · intro k hk
        rcases List.mem_cons.1 hk with he | hk
        · cases he
          rw [List.append_assoc]
          exact List.mem_append_right _ g2
        · rw [List.append_assoc]
          exact h2 k hk
      · intro v hvm
        rcases List.mem_append.1 hvm with hvm | hvm
        · obtain ⟨e1, e2, k, e3, e4⟩ := h4 v hvm
          exact ⟨e1, e2, k, by simp [e3], e4⟩
        · obtain ⟨e1, e2, e3⟩ := g4 v hvm
          exact ⟨e2, by omega, n, by simp, e1⟩
      · simp only [own, own_append, List.flatMap_append]
        refine (List.Perm.append g5 h5).trans ?_
        refine List.perm_append_comm.trans ?_
        rw [List.append_assoc]
      · intro k hk
        rw [show Q ++ .ensure n :: (W1 ++ W) = Q ++ [.ensure n] ++ W1 ++ W by simp]
        rcases List.mem_cons.1 hk with he | hk
        · cases he
          exact hn1.append _
        · exact h6 k hk
      · simp only [own, own_append]
        exact h7.trans (List.sublist_append_right _ _)
      · intro a k b hab
        cases a with
        | nil =>
          simp only [List.nil_append, List.cons.injEq, InitExpr.ensure.injEq] at hab
          obtain ⟨rfl, rfl⟩ := hab
          exact ⟨.ensure n :: W1, W, rfl, by simpa using hn1, h7⟩
        | cons j a =>
          simp only [List.cons_append, List.cons.injEq] at hab
          obtain ⟨x, y, rfl, e1, e2⟩ := h8 a k b hab.2
          exact ⟨.ensure n :: (W1 ++ x), y, by simp, by simpa using e1, e2⟩

theorem enqueue_spec {inits : Nat → List (InitExpr E)} {r : Nat → Nat} {map : HMap Nat (List (InitExpr E))} (hmap : Map inits r map) :
    ∀ (f m : Nat) (V : List Nat) (Q : List (InitExpr E)), m ∈ HMap.keys map → below r (HMap.keys map) m ≤ f → (∀ v ∈ V, r v ≤ r m → Done inits v Q) →
      ∃ N W, enqueue map (f + 1) m (V, Q) = some (N ++ V, Q ++ W) ∧ m ∈ N ++ V ∧ Visit inits V Q N W ∧
        (∀ v ∈ N, Needs inits m v ∧ v ∈ HMap.keys map ∧ r v ≤ r m) ∧ (own W).Perm (N.flatMap fun v => own (inits v)) := by
  intro f
  induction f with
  | zero =>
    intro m V Q hm hf _
    have : m ∈ (HMap.keys map).filter fun k => decide (r k ≤ r m) := List.mem_filter.2 ⟨hm, by simp⟩
    have := List.length_pos_of_mem this
    unfold below at hf
    omega
  | succ f ih =>
    intro m V Q hm hf hpre
    unfold enqueue
    by_cases hin : m ∈ V
    · refine ⟨[], [], by simp [hin], by simpa using hin, Visit.nil _ _ _ _, by simp, by simp [own]⟩
    · rw [if_neg hin]
      obtain ⟨x, hx⟩ := Option.isSome_iff_exists.1 ((HMap.mem_keys_iff map m).1 hm)
      have hxi := hmap.agree m x hx
      subst hxi
      rw [hx]
      obtain ⟨N, W, h1, h2, h3, h4, h5, h6, h7, h8⟩ := loop_spec (inits := inits) (r := r) (keys := HMap.keys map) (m := m) (enqueue map (f + 1))
        (fun n V Q hn hr hp => ih n V Q hn (by have := below_lt r hm hr; omega) hp) (inits m) (m :: V) Q
        (fun n hn => (hmap.rank m hm n hn).symm) (by
          intro v hv hr
          rcases List.mem_cons.1 hv with rfl | hv
          · omega
          · exact hpre v hv (by omega))
      have hmN : m ∉ N := fun h => h3.fresh m h (by simp)
      have hdm : Done inits m (Q ++ W) := by
        intro k hk e he
        cases hk with
        | refl =>
          rw [own_append]
          exact List.mem_append_right _ (h7.subset he)
        | step hn hk => exact h6 _ hn k hk e he
      refine ⟨N ++ [m], W, by simp only []; rw [h1]; simp, by simp, ?_, ?_, ?_⟩
      · refine ⟨?_, ?_, ?_, ?_, ?_, ?_⟩
        · rw [List.nodup_append]
          exact ⟨h3.nodup, by simp, fun a ha b hb hab => hmN (by rw [List.mem_singleton.1 hb] at hab; exact hab ▸ ha)⟩
        · intro v hv
          rcases List.mem_append.1 hv with hv | hv
          · intro hvV
            exact h3.fresh v hv (by simp [hvV])
          · rw [List.mem_singleton.1 hv]
            exact hin
        · intro v hv n hn
          rw [List.append_assoc]
          rcases List.mem_append.1 hv with hv | hv
          · exact h3.closed v hv n hn
          · rw [List.mem_singleton.1 hv] at hn
            exact h2 n hn
        · intro v hv
          rcases List.mem_append.1 hv with hv | hv
          · exact h3.done v hv
          · rw [List.mem_singleton.1 hv]
            exact hdm
        · intro v hv
          rcases List.mem_append.1 hv with hv | hv
          · exact h3.ord v hv
          · rw [List.mem_singleton.1 hv]
            exact h8
        · intro v hv
          rcases List.mem_append.1 hv with hv | hv
          · exact h3.sub v hv
          · rw [List.mem_singleton.1 hv]
            exact h7
      · intro v hv
        rcases List.mem_append.1 hv with hv | hv
        · obtain ⟨e1, e2, n, e3, e4⟩ := h4 v hv
          exact ⟨.step e3 e4, e1, by omega⟩
        · rw [List.mem_singleton.1 hv]
          exact ⟨.refl _, hm, Nat.le_refl _⟩
      · simp only [List.flatMap_append, List.flatMap_cons, List.flatMap_nil, List.append_nil]
        exact h5.trans List.perm_append_comm

/-- Visiting does not look at the queue. -/
theorem loop_append (visit : Nat → List Nat × List (InitExpr E) → Option (List Nat × List (InitExpr E)))
    (hv : ∀ n V P Q, visit n (V, P ++ Q) = (visit n (V, Q)).map fun s => (s.1, P ++ s.2)) :
    ∀ (l : List (InitExpr E)) (V : List Nat) (P Q : List (InitExpr E)), initLoop visit l (V, P ++ Q) = (initLoop visit l (V, Q)).map fun s => (s.1, P ++ s.2) := by
  intro l
  induction l with
  | nil => intro V P Q; rfl
  | cons i l ih =>
    intro V P Q
    cases i with
    | eval e =>
      simp only [initLoop]
      rw [List.append_assoc, ih]
    | ensure n =>
      simp only [initLoop]
      rw [List.append_assoc, hv]
      cases visit n (V, Q ++ [.ensure n]) with
      | none => rfl
      | some s => exact ih s.1 P s.2

theorem enqueue_append (map : HMap Nat (List (InitExpr E))) : ∀ (f m : Nat) (V : List Nat) (P Q : List (InitExpr E)),
    enqueue map f m (V, P ++ Q) = (enqueue map f m (V, Q)).map fun s => (s.1, P ++ s.2) := by
  intro f
  induction f with
  | zero => intro m V P Q; rfl
  | succ f ih =>
    intro m V P Q
    unfold enqueue
    by_cases hm : m ∈ V
    · simp [hm]
    · simp only [if_neg hm]
      cases HMap.get map m with
      | none => rfl
      | some x => exact loop_append _ (fun n V P Q => ih n V P Q) x (m :: V) P Q

theorem mem_added {reqs : List (Req E)} {m : Nat} : m ∈ added reqs ↔ ∃ x entry, Req.add m x entry ∈ reqs := by
  induction reqs with
  | nil => simp [added]
  | cons q reqs ih =>
    cases q with
    | add n x entry =>
      simp only [added, List.mem_cons, ih, Req.add.injEq]
      constructor
      · rintro (rfl | ⟨y, e, h⟩)
        · exact ⟨x, entry, .inl ⟨rfl, rfl, rfl⟩⟩
        · exact ⟨y, e, .inr h⟩
      · rintro ⟨y, e, ⟨rfl, -, -⟩ | h⟩
        · exact .inl rfl
        · exact .inr ⟨y, e, h⟩
    | «macro» => simp [added, ih]

theorem added_append (a b : List (Req E)) : added (a ++ b) = added a ++ added b := by
  induction a with
  | nil => rfl
  | cons q a ih => cases q <;> simp [added, ih]

/-- The requests, one after the other, without taking anything from the queue. -/
def feedOne (st : HMap Nat (List (InitExpr E)) × List Nat × List (InitExpr E)) : Req E → Option (HMap Nat (List (InitExpr E)) × List Nat × List (InitExpr E))
  | .add m x true => (enqueue (HMap.insert st.1 m x) ((HMap.insert st.1 m x).length + 1) m (st.2.1, st.2.2)).map fun s => (HMap.insert st.1 m x, s.1, s.2)
  | .add m x false => some (HMap.insert st.1 m x, st.2.1, st.2.2)
  | .macro => some st

inductive Feed : List (Req E) → HMap Nat (List (InitExpr E)) × List Nat × List (InitExpr E) → Prop
  | nil : Feed [] ([], [], [])
  | snoc {reqs st q st'} : Feed reqs st → feedOne st q = some st' → Feed (reqs ++ [q]) st'

theorem Feed.det {reqs : List (Req E)} {st st'} (h : Feed reqs st) (h' : Feed reqs st') : st = st' := by
  induction h generalizing st' with
  | nil =>
    generalize hr : ([] : List (Req E)) = l at h'
    cases h' with
    | nil => rfl
    | snoc => simp at hr
  | @snoc reqs st q u _ hq ih =>
    generalize hr : reqs ++ [q] = l at h'
    cases h' with
    | nil => simp at hr
    | @snoc reqs2 st2 q2 _ h2 hq2 =>
      obtain ⟨h1, h3⟩ := List.append_inj' hr rfl
      cases h3
      subst h1
      have := ih h2
      subst this
      rw [hq] at hq2
      exact Option.some.inj hq2

/-- The modules needed by the entry modules of the requests. -/
def Wanted (inits : Nat → List (InitExpr E)) (reqs : List (Req E)) (m : Nat) : Prop := ∃ e x, Req.add e x true ∈ reqs ∧ Needs inits e m

structure Fed (inits : Nat → List (InitExpr E)) (reqs : List (Req E)) (st : HMap Nat (List (InitExpr E)) × List Nat × List (InitExpr E)) : Prop where
  keys : ∀ m, m ∈ HMap.keys st.1 ↔ m ∈ added reqs
  agree : ∀ m x, HMap.get st.1 m = some x → x = inits m
  visit : Visit inits [] [] st.2.1 st.2.2
  wanted : ∀ m, m ∈ st.2.1 ↔ Wanted inits reqs m
  perm : (own st.2.2).Perm (st.2.1.flatMap fun v => own (inits v))

theorem idx_lt {l : List Nat} {pre post : List Nat} {m n : Nat} (hl : l = pre ++ m :: post) (hn : l.Nodup) (h : n ∈ pre) : l.idxOf n < l.idxOf m := by
  subst hl
  have hm : m ∉ pre := by
    intro hm
    exact (List.nodup_append.1 hn).2.2 m hm m (by simp) rfl
  rw [List.idxOf_append, List.idxOf_append, if_pos h, if_neg hm]
  have := List.idxOf_lt_length_of_mem h
  simp
  omega

/-- Feeding the requests of a build does not get stuck. -/
theorem feed_step {inits : Nat → List (InitExpr E)} {reqs pre post : List (Req E)} {q : Req E} (hr : Requests inits reqs) (hs : reqs = pre ++ q :: post)
    {st} (h : Fed inits pre st) : ∃ st' W, feedOne st q = some st' ∧ Fed inits (pre ++ [q]) st' ∧ st'.2.2 = st.2.2 ++ W := by
  cases q with
  | «macro» =>
    refine ⟨st, [], rfl, ⟨?_, h.agree, h.visit, ?_, h.perm⟩, by simp⟩
    · intro m
      rw [h.keys, added_append]
      simp [added]
    · intro m
      rw [h.wanted]
      simp [Wanted]
  | add m x entry =>
    have hx : x = inits m := hr.given m x entry (by rw [hs]; simp)
    subst hx
    have hkeys : ∀ k, k ∈ HMap.keys (HMap.insert st.1 m (inits m)) ↔ k ∈ added (pre ++ [.add m (inits m) entry]) := by
      intro k
      rw [added_append, HMap.mem_keys_iff, HMap.get_insert]
      simp only [added, List.mem_append, List.mem_singleton]
      by_cases hk : k = m
      · simp [hk]
      · rw [if_neg hk, ← HMap.mem_keys_iff, h.keys]
        simp [hk]
    have hagree : ∀ k y, HMap.get (HMap.insert st.1 m (inits m)) k = some y → y = inits k := by
      intro k y hy
      rw [HMap.get_insert] at hy
      split at hy
      · next hk => cases hy; rw [hk]
      · exact h.agree k y hy
    cases entry with
    | false =>
      refine ⟨_, [], rfl, ⟨hkeys, hagree, h.visit, ?_, h.perm⟩, by simp⟩
      intro k
      rw [h.wanted]
      simp [Wanted]
    | true =>
      have hrank : ∀ k ∈ added (pre ++ [Req.add m (inits m) true]), ∀ n, .ensure n ∈ inits k →
          (added reqs).idxOf n < (added reqs).idxOf k ∧ n ∈ added (pre ++ [Req.add m (inits m) true]) := by
        intro k hk n hn
        obtain ⟨y, e, hy⟩ := mem_added.1 hk
        obtain ⟨p1, p2, hp⟩ := List.append_of_mem hy
        have hreq : reqs = p1 ++ .add k y e :: (p2 ++ post) := by
          rw [hs, show pre ++ Req.add m (inits m) true :: post = (pre ++ [Req.add m (inits m) true]) ++ post by simp, hp]
          simp
        have hnp := hr.order p1 k y e _ hreq n hn
        refine ⟨idx_lt (by rw [hreq, added_append]; rfl) hr.once hnp, ?_⟩
        rw [hp, added_append]
        exact List.mem_append_left _ hnp
      have hmap : Map inits (fun k => (added reqs).idxOf k) (HMap.insert st.1 m (inits m)) :=
        ⟨hagree, fun k hk n hn => by
          obtain ⟨g1, g2⟩ := hrank k ((hkeys k).1 hk) n hn
          exact ⟨g1, (hkeys n).2 g2⟩⟩
      have hmk : m ∈ HMap.keys (HMap.insert st.1 m (inits m)) := by rw [HMap.mem_keys_iff, HMap.get_insert]; simp
      obtain ⟨N, W, h1, h2, h3, h4, h5⟩ := enqueue_spec hmap (HMap.insert st.1 m (inits m)).length m st.2.1 st.2.2 hmk
        (by have := below_le (fun k => (added reqs).idxOf k) (HMap.keys (HMap.insert st.1 m (inits m))) m; rw [HMap.keys, List.length_map] at this; exact this)
        (fun v hv _ => by simpa using h.visit.done v hv)
      refine ⟨(HMap.insert st.1 m (inits m), N ++ st.2.1, st.2.2 ++ W), W, by simp only [feedOne, h1, Option.map_some], ⟨hkeys, hagree, ?_, ?_, ?_⟩, rfl⟩
      · have := Visit.seq (N' := N) (W' := W) h.visit (by simpa using h3)
        exact this
      · intro k
        have hcl : ∀ v, Needs inits m v → v ∈ N ++ st.2.1 := by
          have : ∀ {a v}, Needs inits a v → a ∈ N ++ st.2.1 → v ∈ N ++ st.2.1 := by
            intro a v hav
            induction hav with
            | refl => exact id
            | step hn _ ih =>
              intro ha
              apply ih
              rcases List.mem_append.1 ha with ha | ha
              · exact h3.closed _ ha _ hn
              · exact List.mem_append_right _ (by simpa using h.visit.closed _ ha _ hn)
          intro v hv
          exact this hv h2
        constructor
        · intro hk
          rcases List.mem_append.1 hk with hk | hk
          · exact ⟨m, inits m, by simp, (h4 k hk).1⟩
          · obtain ⟨e, y, he, hn⟩ := (h.wanted k).1 hk
            exact ⟨e, y, List.mem_append_left _ he, hn⟩
        · rintro ⟨e, y, he, hn⟩
          rcases List.mem_append.1 he with he | he
          · exact List.mem_append_right _ ((h.wanted k).2 ⟨e, y, he, hn⟩)
          · simp only [List.mem_singleton, Req.add.injEq] at he
            obtain ⟨rfl, -, -⟩ := he
            exact hcl k hn
      · simp only [own_append, List.flatMap_append]
        exact (List.Perm.append h.perm h5).trans List.perm_append_comm

theorem feed_prefix {inits : Nat → List (InitExpr E)} {reqs : List (Req E)} (hr : Requests inits reqs) {pre st} (h : Feed pre st) :
    ∀ post, reqs = pre ++ post → Fed inits pre st := by
  induction h with
  | nil =>
    intro post _
    refine ⟨by simp [HMap.keys, added], by simp [HMap.get_nil], Visit.nil _ _ _ _, by simp [Wanted], by simp [own]⟩
  | @snoc p st q st' _ hq ih =>
    intro post hs
    have hs' : reqs = p ++ q :: post := by rw [hs]; simp
    obtain ⟨st2, W, h1, h2, -⟩ := feed_step hr hs' (ih _ hs')
    rw [hq] at h1
    cases h1
    exact h2

/-- The invariant of the loop: what was given to the backend and what is scheduled is what the requests so far ask for. -/
def Inv (reqs : List (Req E)) (k : Nat) (s : State E) : Prop :=
  ∃ pre P, reqs = pre ++ s.pending ∧ Feed pre (s.modules, s.visited, P ++ s.queue) ∧ s.out = own P ∧ k = pre.length + P.length

theorem run_inv {reqs : List (Req E)} {k s} (hr : Run reqs k s) : Inv reqs k s := by
  induction hr with
  | nil => exact ⟨[], [], rfl, .nil, rfl, rfl⟩
  | cons _ hst ih =>
    obtain ⟨pre, P, h1, h2, h3, h4⟩ := ih
    cases hst with
    | @addModule m x rest hp =>
      refine ⟨pre ++ [.add m x false], P, by rw [h1, hp]; simp, .snoc h2 rfl, h3, by simp; omega⟩
    | @addEntry m x rest v q hp he =>
      refine ⟨pre ++ [.add m x true], P, by rw [h1, hp]; simp, .snoc h2 ?_, h3, by simp; omega⟩
      simp only [feedOne]
      rw [enqueue_append, he]
      rfl
    | @«macro» rest hp => exact ⟨pre ++ [.macro], P, by rw [h1, hp]; simp, .snoc h2 rfl, h3, by simp; omega⟩
    | @dequeue i rest hq =>
      refine ⟨pre, P ++ [i], h1, by rw [List.append_assoc]; rw [hq] at h2; exact h2, ?_, by simp; omega⟩
      rw [h3, own_append, own_evals [i]]
      simp

end Verif.MainInit
