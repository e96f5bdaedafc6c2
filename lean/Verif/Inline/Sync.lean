import Verif.Inline.Sim

/-!
# Related expressions end alike
-/
namespace Verif.Inline

open Verif.Closure

/-- With enough fuel the first ends as the second does, if it ends; `l`, `r` say which may be stuck instead. -/
def Lim {α : Type} (l r : Prop) (S : Nat → M α) (m : M α) : Prop :=
  ∀ s, m s = .timeout ∨ ∃ N, ∀ n, N ≤ n → (l ∧ S n s = .stuck) ∨ (r ∧ m s = .stuck) ∨ S n s = m s

/-- Up to a fuel, each ends as the other, if the source is not stuck. -/
def Sync {α : Type} (k : Nat) (S T : Nat → M α) : Prop :=
  (∀ j, j ≤ k → Lim False True T (S j)) ∧ (∀ j, j ≤ k → Lim True False S (T j))

section
variable {α β : Type}

theorem Lim.refl (l r : Prop) (m : M α) : Lim l r (fun _ => m) m := fun _ => .inr ⟨0, fun _ _ => .inr (.inr rfl)⟩

theorem Sync.refl (k : Nat) (m : M α) : Sync k (fun _ => m) (fun _ => m) := ⟨fun _ _ => .refl _ _ _, fun _ _ => .refl _ _ _⟩

theorem Lim.bind {l r : Prop} {S : Nat → M α} {m : M α} {F : Nat → α → M β} {G : α → M β} (h : Lim l r S m)
    (hF : ∀ a s s', m s = .ok a s' → Lim l r (fun n => F n a) (G a)) : Lim l r (fun n => (S n).bind (F n)) (m.bind G) := by
  intro s
  rcases h s with ht | ⟨N, hN⟩
  · left; simp [M.bind, ht]
  · cases hm : m s with
    | timeout => left; simp [M.bind, hm]
    | stuck =>
      right
      refine ⟨N, fun n hn => ?_⟩
      rcases hN n hn with ⟨hl, e⟩ | ⟨hr, _⟩ | e
      · left; exact ⟨hl, by simp [M.bind, e]⟩
      · right; left; exact ⟨hr, by simp [M.bind, hm]⟩
      · right; right; simp [M.bind, e, hm]
    | ret v s' =>
      right
      refine ⟨N, fun n hn => ?_⟩
      rcases hN n hn with ⟨hl, e⟩ | ⟨_, e⟩ | e
      · left; exact ⟨hl, by simp [M.bind, e]⟩
      · rw [hm] at e; cases e
      · right; right; simp [M.bind, e, hm]
    | ok a s' =>
      rcases hF a s s' hm s' with ht | ⟨N', hN'⟩
      · left; simp [M.bind, hm, ht]
      · right
        refine ⟨max N N', fun n hn => ?_⟩
        rcases hN n (Nat.le_trans (Nat.le_max_left _ _) hn) with ⟨hl, e⟩ | ⟨_, e⟩ | e
        · left; exact ⟨hl, by simp [M.bind, e]⟩
        · rw [hm] at e; cases e
        · have := hN' n (Nat.le_trans (Nat.le_max_right _ _) hn)
          simp only [M.bind, e, hm]
          exact this

/-- The values the target can have. -/
def Vals? (T : Nat → M α) (a : α) : Prop := ∃ n s s', T n s = .ok a s'

theorem Sync.bindV {k : Nat} {S T : Nat → M α} {F G : Nat → α → M β} (h : Sync k S T)
    (hF : ∀ a, Vals? T a → Sync k (fun n => F n a) (fun n => G n a)) : Sync k (fun n => (S n).bind (F n)) (fun n => (T n).bind (G n)) := by
  refine ⟨fun j hj => ?_, fun j hj => (h.2 j hj).bind fun a s s' e => (hF a ⟨j, s, s', e⟩).2 j hj⟩
  refine (h.1 j hj).bind fun a s s' e => (hF a ?_).1 j hj
  rcases h.1 j hj s with ht | ⟨N, hN⟩
  · rw [e] at ht; cases ht
  · rcases hN N (Nat.le_refl _) with ⟨hl, _⟩ | ⟨_, e'⟩ | e'
    · exact hl.elim
    · rw [e] at e'; cases e'
    · exact ⟨N, s, s', e'.trans e⟩

theorem Sync.bind {k : Nat} {S T : Nat → M α} {F G : Nat → α → M β} (h : Sync k S T)
    (hF : ∀ a, Sync k (fun n => F n a) (fun n => G n a)) : Sync k (fun n => (S n).bind (F n)) (fun n => (T n).bind (G n)) :=
  h.bindV fun a _ => hF a

theorem Sync.of_stuck {k : Nat} {S : Nat → M α} {F : Nat → α → M β} {T : Nat → M β} (h : Sync k S fun _ => M.stuck) :
    Sync k (fun n => (S n).bind (F n)) T := by
  refine ⟨fun j hj s => ?_, fun j hj s => ?_⟩
  · rcases h.1 j hj s with ht | ⟨N, hN⟩
    · left; simp [M.bind, ht]
    · right
      refine ⟨0, fun n _ => .inr (.inl ⟨trivial, ?_⟩)⟩
      rcases hN N (Nat.le_refl _) with ⟨hl, _⟩ | ⟨_, e⟩ | e
      · exact hl.elim
      · simp [M.bind, e]
      · simp [M.bind, ← e, M.stuck]
  · rcases h.2 j hj s with ht | ⟨N, hN⟩
    · cases ht
    · right
      refine ⟨N, fun n hn => .inl ⟨trivial, ?_⟩⟩
      rcases hN n hn with ⟨_, e⟩ | ⟨hr, _⟩ | e
      · simp [M.bind, e]
      · exact hr.elim
      · simp [M.bind, e, M.stuck]

theorem Lim.catch {l r : Prop} {S : Nat → M Val} {m : M Val} (h : Lim l r S m) : Lim l r (fun n => (S n).catch) m.catch := by
  intro s
  rcases h s with ht | ⟨N, hN⟩
  · left; simp [M.catch, ht]
  · right
    refine ⟨N, fun n hn => ?_⟩
    rcases hN n hn with ⟨hl, e⟩ | ⟨hr, e⟩ | e
    · left; exact ⟨hl, by simp [M.catch, e]⟩
    · right; left; exact ⟨hr, by simp [M.catch, e]⟩
    · right; right; simp [M.catch, e]

theorem Sync.catch {k : Nat} {S T : Nat → M Val} (h : Sync k S T) : Sync k (fun n => (S n).catch) (fun n => (T n).catch) :=
  ⟨fun j hj => (h.1 j hj).catch, fun j hj => (h.2 j hj).catch⟩

theorem Lim.branch {l r : Prop} {S S' : Nat → M Val} {m m' : M Val} (v : Val) (h : Lim l r S m) (h' : Lim l r S' m') :
    Lim l r (fun n => Closure.branch v (S n) (S' n)) (Closure.branch v m m') := by
  cases v <;> simp only [Closure.branch] <;> try exact .refl _ _ _
  split
  · exact h'
  · exact h

theorem Sync.branch {k : Nat} {S S' T T' : Nat → M Val} (v : Val) (h : Sync k S T) (h' : Sync k S' T') :
    Sync k (fun n => Closure.branch v (S n) (S' n)) (fun n => Closure.branch v (T n) (T' n)) :=
  ⟨fun j hj => (h.1 j hj).branch v (h'.1 j hj), fun j hj => (h.2 j hj).branch v (h'.2 j hj)⟩

theorem Lim.loop {l r : Prop} {C B : Nat → M Val} {c b : M Val} (hc : Lim l r C c) (hb : Lim l r B b) :
    ∀ j i, Lim l r (fun n => Closure.loop (n - i) (C n) (B n)) (Closure.loop j c b)
  | 0, i => fun _ => .inl rfl
  | j + 1, i => by
    have h : Lim l r (fun n => (C n).bind fun v => Closure.branch v ((B n).bind fun _ => Closure.loop (n - (i + 1)) (C n) (B n)) (M.pure unit))
        (Closure.loop (j + 1) c b) :=
      hc.bind fun v _ _ _ => (hb.bind fun _ _ _ _ => Lim.loop hc hb j (i + 1)).branch v (.refl _ _ _)
    intro s
    rcases h s with ht | ⟨N, hN⟩
    · exact .inl ht
    · refine .inr ⟨max N (i + 1), fun n hn => ?_⟩
      have h1 := hN n (Nat.le_trans (Nat.le_max_left _ _) hn)
      have h2 : n - i = (n - (i + 1)) + 1 := by
        have := Nat.le_trans (Nat.le_max_right _ _) hn
        omega
      simp only [h2, Closure.loop]
      exact h1

theorem Sync.loop {k : Nat} {C B C' B' : Nat → M Val} (hc : Sync k C C') (hb : Sync k B B') :
    Sync k (fun n => Closure.loop n (C n) (B n)) (fun n => Closure.loop n (C' n) (B' n)) :=
  ⟨fun j hj => Lim.loop (hc.1 j hj) (hb.1 j hj) j 0, fun j hj => Lim.loop (hc.2 j hj) (hb.2 j hj) j 0⟩

/-- A family a step later. -/
theorem Sync.later {k : Nat} {S T S' : Nat → M α} (h : Sync k S T) (h0 : ∀ s, S' 0 s = .timeout) (h1 : ∀ n, S' (n + 1) = S n) : Sync k S' T := by
  refine ⟨fun j hj => ?_, fun j hj s => ?_⟩
  · cases j with
    | zero => exact fun s => .inl (h0 s)
    | succ j => rw [h1]; exact h.1 j (Nat.le_of_succ_le hj)
  · rcases h.2 j hj s with ht | ⟨N, hN⟩
    · exact .inl ht
    · refine .inr ⟨N + 1, fun n hn => ?_⟩
      cases n with
      | zero => cases hn
      | succ n => rw [h1]; exact hN n (Nat.le_of_succ_le_succ hn)

theorem Sync.later2 {k : Nat} {S T S' T' : Nat → M α} (h : Sync k S T) (h0 : ∀ s, S' 0 s = .timeout) (h1 : ∀ n, S' (n + 1) = S n)
    (h0' : ∀ s, T' 0 s = .timeout) (h1' : ∀ n, T' (n + 1) = T n) : Sync (k + 1) S' T' := by
  refine ⟨fun j hj s => ?_, fun j hj s => ?_⟩
  · cases j with
    | zero => exact .inl (h0 s)
    | succ j =>
      rw [h1]
      rcases h.1 j (Nat.le_of_succ_le_succ hj) s with ht | ⟨N, hN⟩
      · exact .inl ht
      · refine .inr ⟨N + 1, fun n hn => ?_⟩
        cases n with
        | zero => cases hn
        | succ n => rw [h1']; exact hN n (Nat.le_of_succ_le_succ hn)
  · cases j with
    | zero => exact .inl (h0' s)
    | succ j =>
      rw [h1']
      rcases h.2 j (Nat.le_of_succ_le_succ hj) s with ht | ⟨N, hN⟩
      · exact .inl ht
      · refine .inr ⟨N + 1, fun n hn => ?_⟩
        cases n with
        | zero => cases hn
        | succ n => rw [h1]; exact hN n (Nat.le_of_succ_le_succ hn)

end

/-! ## Without a return -/

/-- Does not return from the function. -/
def NR {α : Type} (m : M α) : Prop := ∀ s v s', m s ≠ .ret v s'

section
variable {α β : Type}

theorem NR.bind {m : M α} {f : α → M β} (h : NR m) (hf : ∀ a, NR (f a)) : NR (m.bind f) := by
  intro s v s' e
  simp only [M.bind] at e
  cases hm : m s with
  | timeout => rw [hm] at e; cases e
  | stuck => rw [hm] at e; cases e
  | ok a s1 => rw [hm] at e; exact hf a _ _ _ e
  | ret w s1 => exact h _ _ _ hm

theorem NR.pure (a : α) : NR (M.pure a) := fun _ _ _ h => by cases h

theorem NR.stuck : NR (M.stuck : M α) := fun _ _ _ h => by cases h

theorem NR.of (o : Option α) : NR (M.of o) := by
  cases o
  · exact .stuck
  · exact .pure _

theorem NR.catch (m : M Val) : NR m.catch := by
  intro s v s' e
  simp only [M.catch] at e
  cases hm : m s <;> rw [hm] at e <;> cases e

theorem NR.catch_eq {m : M Val} (h : NR m) : m.catch = m := by
  funext s
  simp only [M.catch]
  cases hm : m s with
  | ret v s' => exact (h _ _ _ hm).elim
  | _ => rfl

theorem NR.branch {m m' : M Val} (v : Val) (h : NR m) (h' : NR m') : NR (Closure.branch v m m') := by
  cases v <;> simp only [Closure.branch] <;> try exact .stuck
  split
  · exact h'
  · exact h

theorem NR.loop {c b : M Val} (hc : NR c) (hb : NR b) : ∀ k, NR (Closure.loop k c b)
  | 0 => fun _ _ _ h => by cases h
  | k + 1 => hc.bind fun v => (hb.bind fun _ => NR.loop hc hb k).branch v (.pure _)

end

theorem NR.prim (p : Prim) (vs : Vals) : NR (primStep p vs) := by
  intro s v s' e
  unfold primStep at e
  split at e <;> first | cases e | (split at e <;> cases e)

theorem NR.apply (P : Prog) (k : Nat) (v : Val) (vs : Vals) : NR (Closure.apply P k v vs) := by
  cases k with
  | zero => intro s w s' e; unfold Closure.apply at e; cases e
  | succ k =>
    cases v <;> unfold Closure.apply <;> try exact .stuck
    · exact (NR.of _).bind fun d => by
        cases d.env
        · exact (NR.of _).bind fun _ => .catch _
        · exact .stuck
    · exact (NR.of _).bind fun d => by
        cases d.env
        · exact .stuck
        · exact (NR.of _).bind fun _ => (NR.of _).bind fun _ => .catch _
    · exact (NR.of _).bind fun d => (NR.of _).bind fun _ => .catch _

mutual
theorem NR.eval {app : Val → Vals → M Val} (ha : ∀ v vs, NR (app v vs)) {k : Nat} : ∀ (e : Expr) (ρ : Env), NoRet.go e → NR (Closure.eval app k e ρ)
  | .var x, ρ, _ => by simp only [Closure.eval]; exact .of _
  | .lfun x, ρ, _ => by simp only [Closure.eval]; exact .of _
  | .sfun c, ρ, _ => by simp only [Closure.eval]; exact .pure _
  | .sfunEnv c e, ρ, h => by
    simp only [Closure.eval]
    refine (NR.eval ha e ρ h).bind fun v => ?_
    cases v <;> first | exact .pure _ | exact .stuck
  | .int n, ρ, _ => by simp only [Closure.eval]; exact .pure _
  | .call f as, ρ, h => by
    simp only [Closure.eval]
    exact (NR.eval ha f ρ h.1).bind fun v => (NR.evals ha as ρ h.2).bind fun vs => ha v vs
  | .prim p as, ρ, h => by
    simp only [Closure.eval]
    exact (NR.evals ha as ρ h).bind fun vs => .prim p vs
  | .seq a b, ρ, h => by
    simp only [Closure.eval]
    exact (NR.eval ha a ρ h.1).bind fun _ => NR.eval ha b ρ h.2
  | .ite a b c, ρ, h => by
    simp only [Closure.eval]
    exact (NR.eval ha a ρ h.1).bind fun v => (NR.eval ha b ρ h.2.1).branch v (NR.eval ha c ρ h.2.2)
  | .while a b, ρ, h => by
    simp only [Closure.eval]
    exact NR.loop (NR.eval ha a ρ h.1) (NR.eval ha b ρ h.2) k
  | .case e cs, ρ, h => by
    simp only [Closure.eval]
    exact (NR.eval ha e ρ h.1).bind fun v => NR.clauses ha cs v ρ h.2
  | .ret e, ρ, h => nomatch h
  | .never, ρ, h => by simp only [Closure.eval]; exact .stuck
  | .letVar x a b, ρ, h => by
    simp only [Closure.eval]
    exact (NR.eval ha a ρ h.1).bind fun _ => NR.eval ha b _ h.2
  | .letFun fs b, ρ, h => by
    simp only [Closure.eval]
    exact NR.eval ha b _ h
theorem NR.evals {app : Val → Vals → M Val} (ha : ∀ v vs, NR (app v vs)) {k : Nat} : ∀ (es : Exprs) (ρ : Env), NoRet.gos es → NR (Closure.evals app k es ρ)
  | .nil, ρ, _ => by simp only [Closure.evals]; exact .pure _
  | .cons e es, ρ, h => by
    simp only [Closure.evals]
    exact (NR.eval ha e ρ h.1).bind fun v => (NR.evals ha es ρ h.2).bind fun vs => .pure _
theorem NR.clauses {app : Val → Vals → M Val} (ha : ∀ v vs, NR (app v vs)) {k : Nat} : ∀ (cs : Clauses) (v : Val) (ρ : Env), NoRet.goc cs →
    NR (Closure.evalClauses app k cs v ρ)
  | .nil, v, ρ, _ => by simp only [Closure.evalClauses]; exact .stuck
  | .cons p b cs, v, ρ, h => by
    intro s w s' e
    simp only [Closure.evalClauses] at e
    cases hp : pmatch s.mem p v ρ with
    | yes ρ1 => rw [hp] at e; exact NR.eval ha b ρ1 h.1 _ _ _ e
    | no => rw [hp] at e; exact NR.clauses ha cs v ρ h.2 _ _ _ e
    | stuck => rw [hp] at e; cases e
end

/-! ## The same expression with calls that end alike -/

/-- Programs whose calls end alike. -/
def SyncA (P P' : Prog) (k : Nat) : Prop := ∀ v vs, Sync k (fun n => Closure.apply P n v vs) (fun n => Closure.apply P' n v vs)

/-- Choosing by the state. -/
theorem Sync.mk {α : Type} {k : Nat} {S T : Nat → M α} (h : ∀ s, ∃ S1 T1 : Nat → M α, Sync k S1 T1 ∧ (∀ n, S n s = S1 n s) ∧ ∀ n, T n s = T1 n s) :
    Sync k S T := by
  refine ⟨fun j hj s => ?_, fun j hj s => ?_⟩
  · obtain ⟨S1, T1, h1, h2, h3⟩ := h s
    rcases h1.1 j hj s with ht | ⟨N, hN⟩
    · exact .inl ((h2 j).trans ht)
    · refine .inr ⟨N, fun n hn => ?_⟩
      rw [h2, h3]
      exact hN n hn
  · obtain ⟨S1, T1, h1, h2, h3⟩ := h s
    rcases h1.2 j hj s with ht | ⟨N, hN⟩
    · exact .inl ((h3 j).trans ht)
    · refine .inr ⟨N, fun n hn => ?_⟩
      rw [h2, h3]
      exact hN n hn

mutual
theorem same {P P' : Prog} {k : Nat} (ha : SyncA P P' k) : ∀ (e : Expr) (ρ : Env),
    Sync k (fun n => eval (apply P n) n e ρ) (fun n => eval (apply P' n) n e ρ)
  | .var x, ρ => by simp only [eval]; exact .refl _ _
  | .lfun x, ρ => by simp only [eval]; exact .refl _ _
  | .sfun c, ρ => by simp only [eval]; exact .refl _ _
  | .sfunEnv c e, ρ => by simp only [eval]; exact (same ha e ρ).bind fun _ => .refl _ _
  | .int n, ρ => by simp only [eval]; exact .refl _ _
  | .call f as, ρ => by simp only [eval]; exact (same ha f ρ).bind fun v => (sames ha as ρ).bind fun vs => ha v vs
  | .prim p as, ρ => by simp only [eval]; exact (sames ha as ρ).bind fun vs => .refl _ _
  | .seq a b, ρ => by simp only [eval]; exact (same ha a ρ).bind fun _ => same ha b ρ
  | .ite a b c, ρ => by simp only [eval]; exact (same ha a ρ).bind fun v => (same ha b ρ).branch v (same ha c ρ)
  | .while a b, ρ => by simp only [eval]; exact (same ha a ρ).loop (same ha b ρ)
  | .case e cs, ρ => by simp only [eval]; exact (same ha e ρ).bind fun v => samec ha cs v ρ
  | .ret e, ρ => by simp only [eval]; exact (same ha e ρ).bind fun _ => .refl _ _
  | .never, ρ => by simp only [eval]; exact .refl _ _
  | .letVar x a b, ρ => by simp only [eval]; exact (same ha a ρ).bind fun _ => same ha b _
  | .letFun fs b, ρ => by simp only [eval]; exact same ha b _
theorem sames {P P' : Prog} {k : Nat} (ha : SyncA P P' k) : ∀ (es : Exprs) (ρ : Env),
    Sync k (fun n => evals (apply P n) n es ρ) (fun n => evals (apply P' n) n es ρ)
  | .nil, ρ => by simp only [evals]; exact .refl _ _
  | .cons e es, ρ => by simp only [evals]; exact (same ha e ρ).bind fun _ => (sames ha es ρ).bind fun _ => .refl _ _
theorem samec {P P' : Prog} {k : Nat} (ha : SyncA P P' k) : ∀ (cs : Clauses) (v : Val) (ρ : Env),
    Sync k (fun n => evalClauses (apply P n) n cs v ρ) (fun n => evalClauses (apply P' n) n cs v ρ)
  | .nil, v, ρ => by simp only [evalClauses]; exact .refl _ _
  | .cons p b cs, v, ρ => by
    refine .mk fun s => ?_
    simp only [evalClauses]
    cases hp : pmatch s.mem p v ρ with
    | yes ρ1 => exact ⟨_, _, same ha b ρ1, fun _ => rfl, fun _ => rfl⟩
    | no => exact ⟨_, _, samec ha cs v ρ, fun _ => rfl, fun _ => rfl⟩
    | stuck => exact ⟨_, _, .refl k M.stuck, fun _ => rfl, fun _ => rfl⟩
end

/-! ## Related expressions -/

theorem apply_sclos {P : Prog} {c : Ct} {d : Def} (hd : P c = some d) (he : d.env = none) (n : Nat) (vs : Vals) :
    apply P (n + 1) (.sclos c) vs = (M.of (Env.bindAll d.params vs .nil)).bind fun ρ => (eval (apply P n) n d.body ρ).catch := by
  simp only [apply]
  rw [hd]
  show (match d.env with
    | none => (M.of (Env.bindAll d.params vs .nil)).bind fun ρ => (eval (apply P n) n d.body ρ).catch
    | some _ => M.stuck) = _
  rw [he]

theorem Sync.pureR {k : Nat} {P' : Prog} {ρ' : Env} {a : Expr} (hp : Pure a) {v : Val} (hv : pval ρ' a = some v) :
    Sync k (fun _ => M.pure v) (fun n => eval (apply P' n) n a ρ') := by
  have : (fun n => eval (apply P' n) n a ρ') = fun _ => M.pure v := by
    funext n
    rw [pure_eval a hp, hv]
    rfl
  rw [this]
  exact .refl _ _

mutual
theorem sim {P P' : Prog} {k : Nat} (ha : SyncA P P' k) : ∀ {σ : Sig} {e e' : Expr} {ρ ρ' : Env}, R P σ e e' → Agree σ ρ ρ' →
    Sync k (fun n => eval (apply P n) n e ρ) (fun n => eval (apply P' n) n e' ρ')
  | σ, _, _, ρ, ρ', .var h, g => by
    obtain ⟨hp, v, h1, h2⟩ := g _ _ h
    simp only [eval, h1]
    exact .pureR hp h2
  | σ, _, _, ρ, ρ', .sfun c, g => by simp only [eval]; exact .refl _ _
  | σ, _, _, ρ, ρ', .sfunEnv c h, g => by simp only [eval]; exact (sim ha h g).bind fun _ => .refl _ _
  | σ, _, _, ρ, ρ', .int n, g => by simp only [eval]; exact .refl _ _
  | σ, _, _, ρ, ρ', .call h hs, g => by simp only [eval]; exact (sim ha h g).bind fun v => (sims ha hs g).bind fun vs => ha v vs
  | σ, _, _, ρ, ρ', .prim p hs, g => by simp only [eval]; exact (sims ha hs g).bind fun vs => .refl _ _
  | σ, _, _, ρ, ρ', .seq h1 h2, g => by simp only [eval]; exact (sim ha h1 g).bind fun _ => sim ha h2 g
  | σ, _, _, ρ, ρ', .ite h1 h2 h3, g => by simp only [eval]; exact (sim ha h1 g).bind fun v => (sim ha h2 g).branch v (sim ha h3 g)
  | σ, _, _, ρ, ρ', .while h1 h2, g => by simp only [eval]; exact (sim ha h1 g).loop (sim ha h2 g)
  | σ, _, _, ρ, ρ', .case h hs, g => by simp only [eval]; exact (sim ha h g).bind fun v => simc ha hs v g
  | σ, _, _, ρ, ρ', .ret h, g => by simp only [eval]; exact (sim ha h g).bind fun _ => .refl _ _
  | σ, _, _, ρ, ρ', .never, g => by simp only [eval]; exact .refl _ _
  | σ, _, _, ρ, ρ', .letVar h1 h2, g => by simp only [eval]; exact (sim ha h1 g).bind fun v => sim ha h2 (g.bind _ _ v)
  | σ, _, _, ρ, ρ', .inline (c := c) (d := d) (as := as) (as' := as') (b' := b') hf hd he hr hs hp hn hl hb, g => by
    have k1 := sim ha hf g
    have k2 := sims ha hs g
    simp only [eval] at k1 ⊢
    have e2 : (fun n => evals (apply P' n) n as' ρ') = fun _ => M.of (pvals ρ' as') := by
      funext n
      exact pures_eval as' hp
    rw [e2] at k2
    have key : ∀ v, v = Val.sclos c → Sync k (fun n => (evals (apply P n) n as ρ).bind fun vs => apply P n v vs) (fun n => eval (apply P' n) n b' ρ') := by
      rintro _ rfl
      cases hv : pvals ρ' as' with
      | none =>
        rw [hv] at k2
        exact k2.of_stuck
      | some vs =>
        rw [hv] at k2
        have : (fun n => eval (apply P' n) n b' ρ') = fun n => (M.of (some vs)).bind fun _ => eval (apply P' n) n b' ρ' := by
          funext n; rfl
        rw [this]
        refine k2.bindV fun ws hw => ?_
        obtain ⟨_, s, s', hw⟩ := hw
        simp only [M.of, M.pure] at hw
        cases hw
        -- the call
        cases hρ : Env.bindAll d.params vs .nil with
        | none =>
          have q : (Sync k (fun _ => (M.stuck : M Val)) fun _ => M.stuck) := .refl _ _
          have q2 : Sync k (fun _ => (M.stuck : M Val)) (fun n => eval (apply P' n) n b' ρ') := by
            have := q.of_stuck (F := fun _ v => M.pure v) (T := fun n => eval (apply P' n) n b' ρ')
            exact this
          refine q2.later (fun s => by simp only [apply]) fun n => ?_
          rw [apply_sclos hd he, hρ]
          rfl
        | some ρ1 =>
          obtain ⟨_, g1⟩ := agree_params d.params as' vs .nil ρ1 ρ' hp hv hn hl hρ
          refine (sim ha hb g1).later (fun s => by simp only [apply]) fun n => ?_
          rw [apply_sclos hd he, hρ]
          have : (eval (apply P n) n d.body ρ1).catch = eval (apply P n) n d.body ρ1 := (NR.eval (NR.apply P n) d.body ρ1 hr).catch_eq
          exact this
    have : (fun n => eval (apply P' n) n b' ρ') = fun n => (M.pure (Val.sclos c)).bind fun _ => eval (apply P' n) n b' ρ' := by
      funext n; rfl
    rw [this]
    refine k1.bindV fun v hv => key v ?_
    obtain ⟨_, s, s', hv⟩ := hv
    simp only [M.pure] at hv
    cases hv
    rfl
theorem sims {P P' : Prog} {k : Nat} (ha : SyncA P P' k) : ∀ {σ : Sig} {es es' : Exprs} {ρ ρ' : Env}, Rs P σ es es' → Agree σ ρ ρ' →
    Sync k (fun n => evals (apply P n) n es ρ) (fun n => evals (apply P' n) n es' ρ')
  | σ, _, _, ρ, ρ', .nil, g => by simp only [evals]; exact .refl _ _
  | σ, _, _, ρ, ρ', .cons h hs, g => by simp only [evals]; exact (sim ha h g).bind fun _ => (sims ha hs g).bind fun _ => .refl _ _
theorem simc {P P' : Prog} {k : Nat} (ha : SyncA P P' k) : ∀ {σ : Sig} {cs cs' : Clauses} {ρ ρ' : Env}, Rc P σ cs cs' → (v : Val) → Agree σ ρ ρ' →
    Sync k (fun n => evalClauses (apply P n) n cs v ρ) (fun n => evalClauses (apply P' n) n cs' v ρ')
  | σ, _, _, ρ, ρ', .nil, v, g => by simp only [evalClauses]; exact .refl _ _
  | σ, _, _, ρ, ρ', .cons (p := p) (p' := p') hp h hs, v, g => by
    refine .mk fun s => ?_
    simp only [evalClauses]
    have hm := pmatch_sim (mem := s.mem) p p' v hp g
    cases h1 : pmatch s.mem p v ρ <;> cases h2 : pmatch s.mem p' v ρ' <;> rw [h1, h2] at hm <;> simp only [MatchR] at hm
    · exact ⟨_, _, .refl k M.stuck, fun _ => rfl, fun _ => rfl⟩
    · exact ⟨_, _, simc ha hs v g, fun _ => rfl, fun _ => rfl⟩
    · exact ⟨_, _, sim ha h hm, fun _ => rfl, fun _ => rfl⟩
end

/-! ## Programs -/

/-- Variables that are themselves. -/
def own (V : List Id) : Sig := fun x => if x ∈ V then some (.var x) else none

/-- What is in scope in a static function. -/
def Def.vars (d : Def) : List Id := d.params ++ (match d.env with | some (e, ys) => e :: ys | none => [])

/-- A function as it was or related. -/
def DefR (P : Prog) (d d' : Def) : Prop := d'.env = d.env ∧ d'.params = d.params ∧ (d'.body = d.body ∨ R P (own (Def.vars d)) d.body d'.body)

/-- Programs related function by function. -/
def ProgR (P P' : Prog) : Prop := ∀ c, (P c = none ∧ P' c = none) ∨ ∃ d d', P c = some d ∧ P' c = some d' ∧ DefR P d d'

theorem lookup_bindAll {z : Id} : ∀ (xs : List Id) (vs : Vals) (ρ ρ1 : Env), Env.bindAll xs vs ρ = some ρ1 →
    (z ∈ xs ∨ (ρ.lookupVar z).isSome) → (ρ1.lookupVar z).isSome
  | [], .nil, ρ, ρ1, h, hz => by
    cases h
    exact hz.elim (nomatch ·) id
  | x :: xs, .cons v vs, ρ, ρ1, h, hz => by
    refine lookup_bindAll xs vs _ ρ1 h ?_
    simp only [Env.lookupVar]
    by_cases e : x = z
    · right; simp [e]
    · rw [if_neg e]
      rcases hz with hz | hz
      · rcases List.mem_cons.1 hz with hz | hz
        · exact (e hz.symm).elim
        · exact .inl hz
      · exact .inr hz
  | [], .cons _ _, _, _, h, _ => by cases h
  | _ :: _, .nil, _, _, h, _ => by cases h

theorem agree_own {V : List Id} {ρ : Env} (h : ∀ x ∈ V, (ρ.lookupVar x).isSome) : Agree (own V) ρ ρ := by
  intro x a hx
  simp only [own] at hx
  split at hx
  · rename_i hm
    cases hx
    obtain ⟨v, hv⟩ := Option.isSome_iff_exists.1 (h x hm)
    exact ⟨trivial, v, hv, by simp only [pval]; exact hv⟩
  · cases hx

theorem body_sim {P P' : Prog} {k : Nat} (ha : SyncA P P' k) {d d' : Def} (h : DefR P d d') {ρ : Env} (hρ : ∀ x ∈ Def.vars d, (ρ.lookupVar x).isSome) :
    Sync k (fun n => eval (apply P n) n d.body ρ) (fun n => eval (apply P' n) n d'.body ρ) := by
  rcases h.2.2 with e | e
  · rw [e]; exact same ha _ _
  · exact sim ha e (agree_own hρ)

theorem syncA {P P' : Prog} (h : ProgR P P') : ∀ k, SyncA P P' k
  | 0 => fun v vs => by
    refine ⟨fun j hj s => .inl ?_, fun j hj s => .inl ?_⟩ <;>
      (obtain rfl : j = 0 := Nat.le_zero.1 hj) <;> simp only [apply]
  | k + 1 => fun v vs => by
    have ih := syncA h k
    cases v with
    | int n =>
      refine (Sync.refl k (M.stuck : M Val)).later2 ?_ ?_ ?_ ?_ <;> intros <;> simp only [apply]
    | data t ws => refine (Sync.refl k (M.stuck : M Val)).later2 ?_ ?_ ?_ ?_ <;> intros <;> simp only [apply]
    | ptr a => refine (Sync.refl k (M.stuck : M Val)).later2 ?_ ?_ ?_ ?_ <;> intros <;> simp only [apply]
    | env ws => refine (Sync.refl k (M.stuck : M Val)).later2 ?_ ?_ ?_ ?_ <;> intros <;> simp only [apply]
    | sclos c =>
      have q : Sync k (fun n => (M.of (P c)).bind fun d => match d.env with
          | none => (M.of (Env.bindAll d.params vs .nil)).bind fun ρ => (eval (apply P n) n d.body ρ).catch
          | some _ => M.stuck) (fun n => (M.of (P' c)).bind fun d => match d.env with
          | none => (M.of (Env.bindAll d.params vs .nil)).bind fun ρ => (eval (apply P' n) n d.body ρ).catch
          | some _ => M.stuck) := by
        rcases h c with ⟨h1, h2⟩ | ⟨d, d', h1, h2, hd⟩
        · rw [h1, h2]; exact .refl _ _
        · rw [h1, h2]
          show Sync k (fun n => match d.env with
            | none => (M.of (Env.bindAll d.params vs .nil)).bind fun ρ => (eval (apply P n) n d.body ρ).catch
            | some _ => M.stuck) (fun n => match d'.env with
            | none => (M.of (Env.bindAll d'.params vs .nil)).bind fun ρ => (eval (apply P' n) n d'.body ρ).catch
            | some _ => M.stuck)
          rw [hd.1, hd.2.1]
          cases he : d.env with
          | some _ => exact .refl _ _
          | none =>
            cases hb : Env.bindAll d.params vs .nil with
            | none => exact .refl _ _
            | some ρ =>
              refine Sync.catch (body_sim ih hd fun x hx => lookup_bindAll _ _ _ _ hb (.inl ?_))
              simp only [Def.vars, he, List.append_nil] at hx
              exact hx
      refine q.later2 ?_ ?_ ?_ ?_ <;> intros <;> simp only [apply] <;> rfl
    | sclosEnv c ws =>
      have q : Sync k (fun n => (M.of (P c)).bind fun d => match d.env with
          | some env => (M.of (entry (some env) ws)).bind fun ρ => (M.of (Env.bindAll d.params vs ρ)).bind fun ρ => (eval (apply P n) n d.body ρ).catch
          | none => M.stuck) (fun n => (M.of (P' c)).bind fun d => match d.env with
          | some env => (M.of (entry (some env) ws)).bind fun ρ => (M.of (Env.bindAll d.params vs ρ)).bind fun ρ => (eval (apply P' n) n d.body ρ).catch
          | none => M.stuck) := by
        rcases h c with ⟨h1, h2⟩ | ⟨d, d', h1, h2, hd⟩
        · rw [h1, h2]; exact .refl _ _
        · rw [h1, h2]
          show Sync k (fun n => match d.env with
            | some env => (M.of (entry (some env) ws)).bind fun ρ => (M.of (Env.bindAll d.params vs ρ)).bind fun ρ => (eval (apply P n) n d.body ρ).catch
            | none => M.stuck) (fun n => match d'.env with
            | some env => (M.of (entry (some env) ws)).bind fun ρ => (M.of (Env.bindAll d'.params vs ρ)).bind fun ρ => (eval (apply P' n) n d'.body ρ).catch
            | none => M.stuck)
          rw [hd.1, hd.2.1]
          cases he : d.env with
          | none => exact .refl _ _
          | some env =>
            obtain ⟨e, ys⟩ := env
            cases h0 : entry (some (e, ys)) ws with
            | none =>
              simp only [h0]
              exact .refl _ _
            | some ρ0 =>
              simp only [h0]
              show Sync k (fun n => (M.of (Env.bindAll d.params vs ρ0)).bind fun ρ => (eval (apply P n) n d.body ρ).catch)
                (fun n => (M.of (Env.bindAll d.params vs ρ0)).bind fun ρ => (eval (apply P' n) n d'.body ρ).catch)
              cases hb : Env.bindAll d.params vs ρ0 with
              | none => exact .refl _ _
              | some ρ =>
                show Sync k (fun n => (eval (apply P n) n d.body ρ).catch) (fun n => (eval (apply P' n) n d'.body ρ).catch)
                refine Sync.catch (body_sim ih hd fun x hx => lookup_bindAll _ _ _ _ hb ?_)
                simp only [Def.vars, he, List.mem_append] at hx
                refine hx.imp id fun hx => ?_
                simp only [entry] at h0
                refine lookup_bindAll _ _ _ _ h0 ?_
                rcases List.mem_cons.1 hx with rfl | hx
                · right; simp [Env.lookupVar]
                · exact .inl hx
      refine q.later2 ?_ ?_ ?_ ?_ <;> intros <;> simp only [apply] <;> rfl
    | lclos fs f ρ =>
      have q : Sync k (fun n => (M.of (fs.find f)).bind fun d => (M.of (Env.bindAll d.1 vs (.funs fs ρ))).bind fun ρ =>
          (eval (apply P n) n d.2 ρ).catch) (fun n => (M.of (fs.find f)).bind fun d => (M.of (Env.bindAll d.1 vs (.funs fs ρ))).bind fun ρ =>
          (eval (apply P' n) n d.2 ρ).catch) :=
        (Sync.refl _ _).bind fun d => (Sync.refl _ _).bind fun ρ => (same ih _ _).catch
      refine q.later2 ?_ ?_ ?_ ?_ <;> intros <;> simp only [apply]

/-- Runs of related programs end alike. -/
theorem run_sync {P P' : Prog} (h : ProgR P P') {main main' : Expr} (hm : main' = main ∨ R P (own []) main main') (k : Nat) :
    Sync k (fun n => (eval (apply P n) n main .nil).catch) (fun n => (eval (apply P' n) n main' .nil).catch) := by
  refine Sync.catch ?_
  rcases hm with e | e
  · rw [e]; exact same (syncA h k) _ _
  · exact sim (syncA h k) e (agree_own (by simp))

end Verif.Inline
