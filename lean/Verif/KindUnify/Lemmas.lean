import Verif.KindUnify.Model

/-! # Correctness of kind unification: lemmas -/
namespace Verif.KindUnify
open Verif Verif.Unify Verif.Unify.Cell

mutual
def AKind.size : AKind → Nat
  | .func args ret => AKind.sizes args + ret.size + 1
  | _ => 0
def AKind.sizes : List AKind → Nat
  | [] => 0
  | a :: as => a.size + AKind.sizes as
end

theorem size_le_sizes {a : AKind} {as : List AKind} (h : a ∈ as) : a.size ≤ AKind.sizes as := by
  induction as with
  | nil => simp at h
  | cons b as ih =>
    simp only [AKind.sizes]
    rcases List.mem_cons.1 h with rfl | h
    · omega
    · have := ih h; omega

/-- The kind a cell stands for under an assignment of kinds to indices. -/
def Kind.sem (σ : Nat → AKind) : Kind → AKind
  | .var v => σ v
  | .type => .type
  | .constraint => .constraint
  | .satisfaction => .satisfaction
  | .value => .value
  | .mac => .mac
  | .func lo hi ret => .func ((vars lo hi).map σ) (σ ret)

instance : Alg Kind AKind where
  sem := Kind.sem
  sem_var := by intro σ k v h; cases k <;> simp_all [asVar, Kind.sem]
  sem_congr := by
    intro σ τ k h
    cases k <;> simp_all [refs, asVar, Kind.sem, children]
  size := AKind.size
  size_lt := by
    intro σ k h j hj
    cases k <;> simp_all [asVar, Kind.sem, children]
    rw [AKind.size]
    rcases hj with hj | rfl
    · have := size_le_sizes (List.mem_map_of_mem (f := σ) hj); omega
    · omega

@[simp] theorem sem_eq (σ : Nat → AKind) (k : Kind) : Alg.sem σ k = k.sem σ := rfl

abbrev Assign := Nat → AKind

/-- Functions have arguments: `new_fun` (kind.rs:219-220) never makes a function without. -/
def Kind.Proper : Kind → Prop
  | .func lo hi _ => lo < hi
  | _ => True

def AllProper (p : Pool) : Prop := ∀ k ∈ p, k.Proper

/-- What one run of unification establishes about the pool, for the equation `E`. -/
structure Unified (p : Pool) (E : Assign → Prop) (res : Except Error Unit) (p' : Pool) : Prop where
  len : p'.length = p.length
  wf : ∃ r, WF r p'
  sub : ∀ σ : Assign, Sol p' σ → Sol p σ
  ok : res = .ok () → ∀ σ : Assign, Sol p' σ ↔ Sol p σ ∧ E σ
  err : ∀ e, res = .error e → ∀ σ : Assign, Sol p σ → ¬ E σ
  roots : ∀ i, IsRoot p' i → IsRoot p i
  nodes : ∀ (i : Nat) (k : Kind), asVar k = none → p[i]? = some k → p'[i]? = some k
  proper : AllProper p → AllProper p'
  measure : numRoots p' < numRoots p ∨ Compress p p'

theorem Unified.congr {p p' : Pool} {E E' : Assign → Prop} {res : Except Error Unit} (h : Unified p E res p')
    (hE : ∀ σ : Assign, Sol p σ → (E σ ↔ E' σ)) : Unified p E' res p' :=
  { h with
    ok := fun hr σ => by rw [h.ok hr σ]; exact and_congr_right (hE σ)
    err := fun e he σ hs hE' => h.err e he σ hs ((hE σ hs).2 hE') }

theorem Unified.good {p p' : Pool} {E : Assign → Prop} {res : Except Error Unit} (h : Unified p E res p') {k : Kind} (hg : Good p k) :
    Good p' k := fun j hj => by rw [h.len]; exact hg j hj

theorem Unified.of_compress {r : Nat → Nat} {p p' : Pool} (hw : WF r p) (h : Compress p p') {E : Assign → Prop} {res : Except Error Unit}
    (hok : res = .ok () → ∀ σ : Assign, Sol p σ → E σ) (herr : ∀ e, res = .error e → ∀ σ : Assign, Sol p σ → ¬ E σ) : Unified p E res p' where
  len := h.length
  wf := ⟨r, h.wf hw⟩
  sub := fun σ => (h.sol hw σ).1
  ok := fun hr σ => by rw [h.sol hw σ]; exact ⟨fun hs => ⟨hs, hok hr σ hs⟩, fun hs => hs.1⟩
  err := herr
  roots := fun i => (h.isRoot hw i).1
  nodes := fun i k hk hi => h.node hk hi
  proper := fun hp k hk => hp k (h.cells k hk)
  measure := .inr h

theorem Unified.before {r : Nat → Nat} {p p1 p' : Pool} (hw : WF r p) (h : Compress p p1) {E : Assign → Prop} {res : Except Error Unit}
    (hu : Unified p1 E res p') : Unified p E res p' where
  len := by rw [hu.len, h.length]
  wf := hu.wf
  sub := fun σ hs => (h.sol hw σ).1 (hu.sub σ hs)
  ok := fun hr σ => by rw [hu.ok hr σ, h.sol hw σ]
  err := fun e he σ hs => hu.err e he σ ((h.sol hw σ).2 hs)
  roots := fun i hi => (h.isRoot hw i).1 (hu.roots i hi)
  nodes := fun i k hk hi => hu.nodes i k hk (h.node hk hi)
  proper := fun hp => hu.proper (fun k hk => hp k (h.cells k hk))
  measure := by
    rcases hu.measure with hm | hm
    · rw [h.numRoots hw] at hm; exact .inl hm
    · exact .inr (h.trans hm)

theorem Unified.seq {r : Nat → Nat} {p p1 p' : Pool} (hw : WF r p) {E1 E2 : Assign → Prop} {res : Except Error Unit} (h1 : Unified p E1 (.ok ()) p1)
    (h2 : Unified p1 E2 res p') : Unified p (fun σ => E1 σ ∧ E2 σ) res p' where
  len := by rw [h2.len, h1.len]
  wf := h2.wf
  sub := fun σ hs => h1.sub σ (h2.sub σ hs)
  ok := fun hr σ => by rw [h2.ok hr σ, h1.ok rfl σ, and_assoc]
  err := fun e he σ hs hE => h2.err e he σ ((h1.ok rfl σ).2 ⟨hs, hE.1⟩) hE.2
  roots := fun i hi => h1.roots i (h2.roots i hi)
  nodes := fun i k hk hi => h2.nodes i k hk (h1.nodes i k hk hi)
  proper := fun hp => h2.proper (h1.proper hp)
  measure := by
    obtain ⟨r1, hw1⟩ := h1.wf
    rcases h1.measure with hm1 | hm1 <;> rcases h2.measure with hm2 | hm2
    · exact .inl (by omega)
    · exact .inl (by rw [hm2.numRoots hw1]; exact hm1)
    · rw [hm1.numRoots hw] at hm2; exact .inl hm2
    · exact .inr (hm1.trans hm2)

theorem Unified.seq_err {p p1 : Pool} {E1 E2 : Assign → Prop} {e : Error} (h1 : Unified p E1 (.error e) p1) :
    Unified p (fun σ => E1 σ ∧ E2 σ) (.error e) p1 :=
  { h1 with
    ok := fun h => by cases h
    err := fun e' he σ hs hE => h1.err e' he σ hs hE.1 }

theorem runAll_occurs (v : Nat) (L : List Kind) :
    runAll (fun k _ => if k = Kind.var v then (.error () : Except Unit Unit) else .ok ()) L () =
      if Kind.var v ∈ L then .error () else .ok () := by
  induction L with
  | nil => rfl
  | cons x L ih =>
    rw [runAll]
    by_cases h : x = Kind.var v
    · simp [h]
    · simp [h, ih, Ne.symm h]

/-- Binding an unknown. -/
theorem bindVar_spec {r : Nat → Nat} {R : Nat} {p : Pool} (hw : WF r p) {v : Nat} (hv : p[v]? = some (.var v)) {k : Kind} (hg : Good p k)
    (hc : Canon p k) (hk : k ≠ .var v) (hR : RankLt r R k) (hpr : k.Proper ∨ ∃ i : Nat, p[i]? = some k) :
    ∃ res p', (∀ n, R < n → bindVar n v k p = some (res, p')) ∧ Unified p (fun σ => σ v = k.sem σ) res p' := by
  obtain ⟨L, p1, h1, h2, h3⟩ := dfs_spec (fun k _ => if k = Kind.var v then (.error () : Except Unit Unit) else .ok ()) () hw hg hR
  rw [runAll_occurs] at h1
  have hv' : p1[v]? = some (.var v) := (h2.root hw rfl).2 hv
  have hkv : asVar k ≠ some v := by
    intro h; cases k <;> simp_all [asVar]
  by_cases hm : Kind.var v ∈ L
  · rw [if_pos hm] at h1
    refine ⟨.error .occursCheckFailed, p1, fun n hn => by simp only [bindVar, occursCheck, h1 n hn],
      Unified.of_compress hw h2 (fun h => by cases h) ?_⟩
    intro e _ σ hs hE
    have hcell := (h3 _).1 hm
    cases ha : asVar k with
    | none =>
      have := hcell.size hs ha (v := v) rfl
      rw [sem_eq, ← hE] at this
      omega
    | some w =>
      rw [CellOf.of_var ha, occ_canon (hc w ha) hc] at hcell
      rw [children_var k w ha] at hcell
      simp at hcell
      exact hk hcell.symm
  · rw [if_neg hm] at h1
    refine ⟨.ok (), p1.set v k, fun n hn => by simp only [bindVar, occursCheck, h1 n hn], Unified.before hw h2 ?_⟩
    have hw1 := h2.wf hw
    have hno : ¬ CellOf p1 k (.var v) := by rw [CellOf.compress h2 hw, ← h3]; exact hm
    refine ⟨by simp, bind_wf hw1 hv' rfl (h2.good hg) (h2.canon hw hc) hkv hno, fun σ hs => ((bind_sol hv' rfl σ).1 hs).1,
      fun _ σ => bind_sol hv' rfl σ, fun e he => by (cases he), fun i hi => ((bind_isRoot hv' hkv i).1 hi).1, fun i c hn hi => ?_,
      fun hp c hc => ?_, .inl (bind_numRoots hv' rfl hkv)⟩
    · rw [get_set_ne (by rintro rfl; rw [hv'] at hi; cases hi; cases hn)]
      exact hi
    · rcases List.mem_or_eq_of_mem_set hc with h | rfl
      · exact hp c h
      · rcases hpr with h | ⟨i, hi⟩
        · exact h
        · cases ha : asVar c with
          | some w => cases c <;> first | trivial | cases ha
          | none => exact hp c (List.mem_of_getElem? (h2.node ha hi))

/-- A pool unification went on to. -/
def Ext (p p' : Pool) : Prop := p'.length = p.length ∧ (∃ r, WF r p') ∧ (numRoots p' < numRoots p ∨ Compress p p')

theorem forEach2_spec {r : Nat → Nat} {p : Pool} (hw : WF r p) {f : Nat → Nat → Nat → Pool → Option (Except Error Unit × Pool)} :
    ∀ (l : List (Nat × Nat)),
    (∀ c ∈ l, ∀ q, Ext p q → ∃ res q' n0, (∀ n, n0 ≤ n → f n c.1 c.2 q = some (res, q')) ∧ Unified q (fun σ => σ c.1 = σ c.2) res q') →
    ∀ q, Ext p q → ∃ res q' n0, (∀ n, n0 ≤ n → forEach2 (f n) l q = some (res, q')) ∧ Unified q (fun σ => ∀ c ∈ l, σ c.1 = σ c.2) res q' ∧
      Ext p q' := by
  intro l
  induction l with
  | nil =>
    intro _ q hq
    obtain ⟨r', hw'⟩ := hq.2.1
    exact ⟨.ok (), q, 0, fun n _ => rfl, Unified.of_compress hw' .refl (fun _ σ _ => by simp) (fun e he => by cases he), hq⟩
  | cons c l ih =>
    intro hl q hq
    obtain ⟨r', hw'⟩ := hq.2.1
    obtain ⟨res, q1, n1, h1, h2⟩ := hl c (by simp) q hq
    have hq1 : Ext p q1 := by
      refine ⟨by rw [h2.len, hq.1], h2.wf, ?_⟩
      rcases hq.2.2 with hm | hm <;> rcases h2.measure with hm' | hm'
      · exact .inl (by omega)
      · exact .inl (by rw [hm'.numRoots hw']; exact hm)
      · exact .inl (by rw [hm.numRoots hw] at hm'; exact hm')
      · exact .inr (hm.trans hm')
    obtain ⟨c1, c2⟩ := c
    cases res with
    | error e =>
      refine ⟨.error e, q1, n1, fun n hn => by simp only [forEach2, h1 n hn], ?_, hq1⟩
      exact (Unified.seq_err (E2 := fun σ => ∀ c ∈ l, σ c.1 = σ c.2) h2).congr (fun σ _ => by simp)
    | ok u =>
      obtain ⟨res2, q2, n2, h3, h4, h5⟩ := ih (fun c hc => hl c (by simp [hc])) q1 hq1
      refine ⟨res2, q2, max n1 n2, fun n hn => ?_, (Unified.seq hw' h2 h4).congr (fun σ _ => by simp), h5⟩
      simp only [forEach2, h1 n (by omega), h3 n (by omega)]

theorem mem_vars {lo hi i : Nat} : i ∈ vars lo hi ↔ lo ≤ i ∧ i < hi := by
  simp only [vars, List.mem_range']
  constructor
  · rintro ⟨j, h1, h2⟩; omega
  · rintro ⟨h1, h2⟩; exact ⟨i - lo, by omega, by omega⟩

theorem map_zip_eq {σ : Assign} : ∀ {as bs : List Nat}, as.length = bs.length →
    ((∀ c ∈ as.zip bs, σ c.1 = σ c.2) ↔ as.map σ = bs.map σ)
  | [], [], _ => by simp
  | a :: as, b :: bs, h => by
    have := map_zip_eq (σ := σ) (as := as) (bs := bs) (by simpa using h)
    simp [← this]

theorem sem_resolved {r : Nat → Nat} {p p' : Pool} {k k' : Kind} (hw : WF r p) (hc : Compress p p')
    (h : (∃ v, asVar k = some v ∧ p'[v]? = some k' ∧ ∀ j ∈ children k', r j < r v) ∨ (asVar k = none ∧ k' = k ∧ p' = p)) {σ : Assign} (hs : Sol p σ) : k.sem σ = k'.sem σ := by
  rcases h with ⟨v, h1, h2, -⟩ | ⟨-, rfl, rfl⟩
  · have := (hc.sol hw σ).2 hs v k' h2
    rw [← sem_eq, Alg.sem_var σ k v h1, this, sem_eq]
  · rfl

/-- **Unification terminates and does what it should.** -/
theorem unify_spec : ∀ (N R : Nat) (r : Nat → Nat) (p : Pool) (a b : Kind), WF r p → numRoots p ≤ N → Low r R a → Good p a → Good p b →
    a.Proper → b.Proper → ∃ res p' n0, (∀ n, n0 ≤ n → unify n a b p = some (res, p')) ∧ Unified p (fun σ => a.sem σ = b.sem σ) res p' := by
  intro N
  induction N using Nat.strongRecOn with
  | ind N ihN =>
    intro R
    induction R using Nat.strongRecOn with
    | ind R ihR =>
      intro r p a b hw hN hLa hga hgb hpa hpb
      have hRa := hLa.rankLt
      obtain ⟨Rb, hRb⟩ := exists_rankLt r b
      obtain ⟨a', p1, a1, a2, a3, a4, a5, a6, -, a8⟩ := resolve_spec hw hga hRa
      have hw1 := a2.wf hw
      obtain ⟨b', p2, b1, b2, b3, b4, b5, b6, -, b8⟩ := resolve_spec hw1 (a2.good hgb) hRb
      have hw2 := b2.wf hw1
      have hpp : Compress p p2 := a2.trans b2
      have hsa : ∀ σ : Assign, Sol p2 σ → a.sem σ = a'.sem σ := fun σ hs => sem_resolved hw a2 a8 ((hpp.sol hw σ).1 hs)
      have hsb : ∀ σ : Assign, Sol p2 σ → b.sem σ = b'.sem σ := fun σ hs => sem_resolved hw1 b2 b8 ((b2.sol hw1 σ).1 hs)
      -- it is enough to unify the resolved kinds
      suffices hmain : ∃ res p' n0, (∀ n, n0 ≤ n → (if a' = b' then some (.ok (), p2) else
          match a', b' with
          | .var v, k => bindVar n v k p2
          | k, .var v => bindVar n v k p2
          | .func alo ahi ar, .func blo bhi br =>
            if ahi - alo ≠ bhi - blo then some (.error .mismatch, p2)
            else
              match forEach2 (fun a b => unify n (.var a) (.var b)) ((vars alo ahi).zip (vars blo bhi)) p2 with
              | none => none
              | some (.error e, p) => some (.error e, p)
              | some (.ok (), p) => unify n (.var ar) (.var br) p
          | _, _ => some (.error .mismatch, p2)) = some (res, p')) ∧ Unified p2 (fun σ => a'.sem σ = b'.sem σ) res p' by
        obtain ⟨res, p', n0, h1, h2⟩ := hmain
        refine ⟨res, p', max n0 (max R Rb) + 1, fun n hn => ?_, Unified.before hw hpp (h2.congr fun σ hs => by rw [hsa σ hs, hsb σ hs])⟩
        obtain ⟨n, rfl⟩ : ∃ m, n = m + 1 := ⟨n - 1, by omega⟩
        rw [unify]
        simp only [a1 n (by omega), b1 n (by omega)]
        exact h1 n (by omega)
      by_cases hab : a' = b'
      · exact ⟨.ok (), p2, 0, fun n _ => by rw [if_pos hab], Unified.of_compress hw2 .refl (fun _ σ _ => by rw [hab]) (fun e he => by cases he)⟩
      · simp only [if_neg hab]
        have hpa' : a'.Proper ∨ ∃ i : Nat, p2[i]? = some a' := by
          rcases a8 with ⟨v, h1, h2, -⟩ | ⟨-, rfl, -⟩
          · cases ha : asVar a' with
            | some w => exact .inl (by cases a' <;> first | trivial | cases ha)
            | none => exact .inr ⟨v, b2.node ha h2⟩
          · exact .inl hpa
        have hpb' : b'.Proper ∨ ∃ i : Nat, p2[i]? = some b' := by
          rcases b8 with ⟨v, h1, h2, -⟩ | ⟨-, rfl, -⟩
          · exact .inr ⟨v, h2⟩
          · exact .inl hpb
        have a3' := b2.canon hw1 a3
        have a4' := b2.good a4
        have hmis : ∀ {k k' : Kind}, (∀ σ : Assign, k.sem σ ≠ k'.sem σ) →
            ∃ res p' n0, (∀ n, n0 ≤ n → some ((Except.error Error.mismatch : Except Error Unit), p2) = some (res, p')) ∧
              Unified p2 (fun σ => k.sem σ = k'.sem σ) res p' := fun h =>
          ⟨_, p2, 0, fun n _ => rfl, Unified.of_compress hw2 .refl (fun h => by cases h) (fun e _ σ _ => h σ)⟩
        cases a' with
        | var v =>
          obtain ⟨res, p', h1, h2⟩ := bindVar_spec hw2 (a3' v rfl) b4 b3 (Ne.symm hab) b6 hpb'
          exact ⟨res, p', Rb + 1, fun n hn => h1 n (by omega), h2⟩
        | func alo ahi ar =>
          cases b' with
          | var v =>
            obtain ⟨res, p', h1, h2⟩ := bindVar_spec hw2 (b3 v rfl) a4' a3' hab a6 hpa'
            exact ⟨res, p', R + 1, fun n hn => h1 n (by omega), h2.congr fun σ _ => eq_comm⟩
          | func blo bhi br =>
            by_cases hlen : ahi - alo ≠ bhi - blo
            · simp only [if_pos hlen]
              refine hmis (fun σ h => hlen ?_)
              simp only [Kind.sem, AKind.func.injEq] at h
              have := congrArg List.length h.1
              simpa [vars] using this
            · simp only [if_neg hlen]
              have hchild : ∀ c, c ∈ vars alo ahi ∨ c = ar → r c + 1 < R ∧ c < p2.length := by
                intro c hc
                have hm : c ∈ children (Kind.func alo ahi ar) := by simpa [children] using hc
                exact ⟨hLa.resolved a8 c hm, a4' c hm⟩
              have hchildb : ∀ c, c ∈ vars blo bhi ∨ c = br → c < p2.length := by
                intro c hc
                exact b4 c (by simpa [refs, asVar, children] using hc)
              have hvar : ∀ c q, c < p2.length → Ext p2 q → Good q (Kind.var c) := by
                intro c q hc hq j hj
                rw [refs_var (k := Kind.var c) rfl, List.mem_singleton] at hj
                rw [hj, hq.1]; exact hc
              have hN2 : numRoots p2 ≤ N := by rw [hpp.numRoots hw]; exact hN
              have hone : ∀ c d q, (c ∈ vars alo ahi ∨ c = ar) → (d ∈ vars blo bhi ∨ d = br) → Ext p2 q →
                  ∃ res q' n0, (∀ n, n0 ≤ n → unify n (.var c) (.var d) q = some (res, q')) ∧ Unified q (fun σ => σ c = σ d) res q' := by
                intro c d q hc hd hq
                have hc' := hchild c hc
                rcases hq.2.2 with hm | hm
                · obtain ⟨r', hw'⟩ := hq.2.1
                  obtain ⟨R', hR'⟩ := exists_low r' (Kind.var c)
                  exact ihN (numRoots q) (by omega) R' r' q (.var c) (.var d) hw' (Nat.le_refl _) hR' (hvar c q hc'.2 hq)
                    (hvar d q (hchildb d hd) hq) trivial trivial
                · refine ihR (r c + 1) ?_ r q (.var c) (.var d) (hm.wf hw2) (by rw [hm.numRoots hw2]; exact hN2) ?_ (hvar c q hc'.2 hq)
                    (hvar d q (hchildb d hd) hq) trivial trivial
                  · exact hc'.1
                  · exact ⟨fun v hv => by cases hv; omega, fun j hj => by simp [children] at hj⟩
              have hl : (vars alo ahi).length = (vars blo bhi).length := by simp [vars]; omega
              have hp2 : Ext p2 p2 := ⟨rfl, ⟨r, hw2⟩, .inr .refl⟩
              obtain ⟨res, p3, n1, h1, h2, h3⟩ := forEach2_spec hw2 (f := fun n c d => unify n (.var c) (.var d)) ((vars alo ahi).zip (vars blo bhi))
                (fun c hc q hq => hone c.1 c.2 q (.inl (List.of_mem_zip hc).1) (.inl (List.of_mem_zip hc).2) hq) p2 hp2
              cases res with
              | error e =>
                refine ⟨.error e, p3, n1, fun n hn => by simp only [h1 n hn],
                  (Unified.seq_err (E2 := fun σ => σ ar = σ br) h2).congr fun σ _ => ?_⟩
                rw [map_zip_eq hl]; simp [Kind.sem]
              | ok u =>
                obtain ⟨res, p4, n2, h4, h5⟩ := hone ar br p3 (.inr rfl) (.inr rfl) h3
                refine ⟨res, p4, max n1 n2, fun n hn => by simp only [h1 n (by omega), h4 n (by omega)],
                  (Unified.seq hw2 h2 h5).congr fun σ _ => ?_⟩
                rw [map_zip_eq hl]; simp [Kind.sem]
          | _ => exact hmis (fun σ h => by simp [Kind.sem] at h)
        | _ =>
          cases b' with
          | var v =>
            obtain ⟨res, p', h1, h2⟩ := bindVar_spec hw2 (b3 v rfl) a4' a3' hab a6 hpa'
            exact ⟨res, p', R + 1, fun n hn => h1 n (by omega), h2.congr fun σ _ => eq_comm⟩
          | _ => exact hmis (fun σ h => by simp [Kind.sem] at h hab)

end Verif.KindUnify
