import Verif.KindInfer.Model
import Verif.KindUnify.Props

/-!
# A logic for kind inference

An action is described by the condition it puts on the kinds of the constructs: if it succeeds, the solutions of the unifier are exactly the
earlier ones that satisfy the condition; if it fails, none of them does.
-/
namespace Verif.KindInfer
open Verif Verif.KindUnify Verif.Unify Verif.Unify.Cell

variable {ext : Id → Option SrcKind} {U : Id → Prop}

/-- `K` has the kinds the unifier has under `σ`. -/
def Agree (s : St) (σ : Assign) (K : Id → AKind) : Prop := ∀ c k, s.kinds c = some k → k.sem σ = K c

/-- `K` agrees with a table of kinds on `U`: the type parameters whose kinds may have been guessed. -/
def Held (U : Id → Prop) (K : Id → AKind) (table : Id → Option AKind) : Prop := ∀ c a, U c → table c = some a → K c = a

variable (ext) in
/-- The states that occur. -/
structure Valid (s : St) : Prop where
  inv : Inv s.pool
  good : ∀ c k, s.kinds c = some k → Good s.pool k ∧ k.Proper
  imp : ∀ c k a, s.kinds c = some k → ext c = some a → ∀ σ : Assign, Sol s.pool σ → k.sem σ = written a.1
  tab : ∀ c a, s.recorded c = some a → a.noError = true ∧ written a = a ∧ ∃ k, s.kinds c = some k ∧ ∀ σ : Assign, Sol s.pool σ → k.sem σ = a

variable (ext U) in
/-- `s'` came out of `s` by demanding `D`; the kinds of `R` are recorded. -/
structure Res (s : St) (D : (Id → AKind) → Prop) (R : Id → Prop) (s' : St) : Prop where
  valid : Valid ext s'
  len : s.pool.length ≤ s'.pool.length
  kinds : ∀ c k, s.kinds c = some k → s'.kinds c = some k
  recs : ∀ c a, s.recorded c = some a → s'.recorded c = some a
  sol : ∀ σ : Assign, Sol s'.pool σ → Sol s.pool σ
  down : ∀ (σ : Assign) K, Sol s'.pool σ → Agree s' σ K → D K
  up : ∀ (σ : Assign) K, Sol s.pool σ → Agree s σ K → Imports K ext → Held U K s'.recorded → D K →
    ∃ σ' : Assign, Sol s'.pool σ' ∧ Agree s' σ' K ∧ ∀ i, i < s.pool.length → σ' i = σ i
  new : ∀ c, R c → ∃ a, s'.recorded c = some a

variable (ext U) in
/-- Demanding `D` failed in `s`. -/
structure Fail (s : St) (D : (Id → AKind) → Prop) (s' : St) : Prop where
  recs : ∀ c a, s.recorded c = some a → s'.recorded c = some a
  fail : ∀ (σ : Assign) K, Sol s.pool σ → Agree s σ K → Imports K ext → Held U K s'.recorded → ¬ D K

variable (ext U) in
def Does {α} (m : M α) (s : St) (D : (Id → AKind) → Prop) (R : Id → Prop) (V : α → St → Prop) : Prop :=
  ∃ n0 r s', (∀ n, n0 ≤ n → m n s = some (r, s')) ∧
    match r with
    | .ok a => Res ext U s D R s' ∧ V a s'
    | .error _ => Fail ext U s D s'

/-- What holds of all kinds that are still possible. -/
def Known (s : St) (Q : (Id → AKind) → Prop) : Prop := ∀ (σ : Assign) K, Sol s.pool σ → Agree s σ K → Q K

variable (ext U) in
def Works (Q : (Id → AKind) → Prop) (m : M Unit) (D : (Id → AKind) → Prop) (R : Id → Prop) : Prop :=
  ∀ s, Valid ext s → Known s Q → Does ext U m s D R (fun _ _ => True)

/-! ## Rules -/

theorem Res.agree {s s' : St} {D R} (h : Res ext U s D R s') {σ : Assign} {K : Id → AKind} (ha : Agree s' σ K) : Agree s σ K :=
  fun c k hk => ha c k (h.kinds c k hk)

theorem Res.good {s s' : St} {D R} (h : Res ext U s D R s') {k : Kind} (hg : Good s.pool k) : Good s'.pool k := fun j hj => by
  have := hg j hj; have := h.len; omega

theorem Res.known {s s' : St} {D R Q} (h : Res ext U s D R s') (hk : Known s Q) : Known s' Q := fun σ K hs ha => hk σ K (h.sol σ hs) (h.agree ha)

theorem Res.rfl {s : St} (h : Valid ext s) : Res ext U s (fun _ => True) (fun _ => False) s where
  valid := h
  len := Nat.le_refl _
  kinds := fun _ _ h => h
  recs := fun _ _ h => h
  sol := fun _ h => h
  down := fun _ _ _ _ => trivial
  up := fun σ _ hs ha _ _ _ => ⟨σ, hs, ha, fun _ _ => Eq.refl _⟩
  new := fun _ h => h.elim

theorem Res.trans {s s1 s2 : St} {D1 D2 R1 R2} (h1 : Res ext U s D1 R1 s1) (h2 : Res ext U s1 D2 R2 s2) :
    Res ext U s (fun K => D1 K ∧ D2 K) (fun c => R1 c ∨ R2 c) s2 where
  valid := h2.valid
  len := Nat.le_trans h1.len h2.len
  kinds := fun c k h => h2.kinds c k (h1.kinds c k h)
  recs := fun c k h => h2.recs c k (h1.recs c k h)
  sol := fun σ hs => h1.sol σ (h2.sol σ hs)
  down := fun σ K hs ha => ⟨h1.down σ K (h2.sol σ hs) (h2.agree ha), h2.down σ K hs ha⟩
  up := fun σ K hs ha hi hr hd => by
    obtain ⟨σ1, e1, e2, e3⟩ := h1.up σ K hs ha hi (fun c a hu hc => hr c a hu (h2.recs c a hc)) hd.1
    obtain ⟨σ2, e4, e5, e6⟩ := h2.up σ1 K e1 e2 hi hr hd.2
    exact ⟨σ2, e4, e5, fun i hi => by rw [e6 i (Nat.lt_of_lt_of_le hi h1.len), e3 i hi]⟩
  new := fun c h => by
    rcases h with h | h
    · obtain ⟨a, ha⟩ := h1.new c h; exact ⟨a, h2.recs c a ha⟩
    · exact h2.new c h

theorem Res.congr {s s' : St} {D D' : (Id → AKind) → Prop} {R R' : Id → Prop} (h : Res ext U s D R s') (hD : ∀ K, D K ↔ D' K) (hR : ∀ c, R' c → R c) : Res ext U s D' R' s' :=
  { h with
    down := fun σ K hs ha => (hD K).1 (h.down σ K hs ha)
    up := fun σ K hs ha hi hr hd => h.up σ K hs ha hi hr ((hD K).2 hd)
    new := fun c hc => h.new c (hR c hc) }

theorem Fail.congr {s s' : St} {D D' : (Id → AKind) → Prop} (h : Fail ext U s D s') (hD : ∀ K, D' K → D K) : Fail ext U s D' s' :=
  ⟨h.recs, fun σ K hs ha hi hr hd => h.fail σ K hs ha hi hr (hD K hd)⟩

theorem Does.congr {α} {m : M α} {s : St} {D D' : (Id → AKind) → Prop} {R R' : Id → Prop} {V V' : α → St → Prop} (h : Does ext U m s D R V) (hD : ∀ K, D K ↔ D' K)
    (hR : ∀ c, R' c → R c) (hV : ∀ a s', Res ext U s D R s' → V a s' → V' a s') : Does ext U m s D' R' V' := by
  obtain ⟨n0, r, s', h1, h2⟩ := h
  refine ⟨n0, r, s', h1, ?_⟩
  cases r with
  | ok a => exact ⟨h2.1.congr hD hR, hV a s' h2.1 h2.2⟩
  | error e => exact Fail.congr h2 (fun K => (hD K).2)

theorem Does.pure {α} {a : α} {s : St} {V : α → St → Prop} (hs : Valid ext s) (hV : V a s) :
    Does ext U (pure a) s (fun _ => True) (fun _ => False) V :=
  ⟨0, .ok a, s, fun _ _ => rfl, Res.rfl hs, hV⟩

theorem Does.bind {α β} {m : M α} {f : α → M β} {s : St} {D1 D2 R1 R2} {V : α → St → Prop} {W : β → St → Prop} (h : Does ext U m s D1 R1 V)
    (hf : ∀ a s1, Res ext U s D1 R1 s1 → V a s1 → Does ext U (f a) s1 D2 R2 W) :
    Does ext U (m >>= f) s (fun K => D1 K ∧ D2 K) (fun c => R1 c ∨ R2 c) W := by
  obtain ⟨n0, r, s1, h1, h2⟩ := h
  cases r with
  | error e =>
    exact ⟨n0, .error e, s1, fun n hn => by simp only [Bind.bind, h1 n hn], Fail.congr h2 (fun K => And.left)⟩
  | ok a =>
    obtain ⟨h2, h3⟩ := h2
    obtain ⟨n1, r, s2, h4, h5⟩ := hf a s1 h2 h3
    refine ⟨max n0 n1, r, s2, fun n hn => by simp only [Bind.bind, h1 n (by omega)]; exact h4 n (by omega), ?_⟩
    cases r with
    | ok b => exact ⟨h2.trans h5.1, h5.2⟩
    | error e =>
      refine ⟨fun c a hc => h5.recs c a (h2.recs c a hc), fun σ K hs ha hi hr hd => ?_⟩
      obtain ⟨σ1, e1, e2, -⟩ := h2.up σ K hs ha hi (fun c a hu hc => hr c a hu (h5.recs c a hc)) hd.1
      exact h5.fail σ1 K e1 e2 hi hr hd.2

theorem Works.congr {Q : (Id → AKind) → Prop} {m : M Unit} {D D' : (Id → AKind) → Prop} {R R' : Id → Prop} (h : Works ext U Q m D R)
    (hD : ∀ K, D K ↔ D' K) (hR : ∀ c, R' c → R c) : Works ext U Q m D' R' :=
  fun s hs hq => (h s hs hq).congr hD hR (fun _ _ _ h => h)

theorem Works.weaken {Q Q' : (Id → AKind) → Prop} {m : M Unit} {D : (Id → AKind) → Prop} {R : Id → Prop} (h : Works ext U Q m D R) (hq : ∀ K, Q' K → Q K) :
    Works ext U Q' m D R := fun s hs hk => h s hs (fun σ K h1 h2 => hq K (hk σ K h1 h2))

theorem Works.nothing {Q : (Id → AKind) → Prop} : Works ext U Q (Pure.pure ()) (fun _ => True) (fun _ => False) := fun _ hs _ => .pure hs trivial

theorem Works.seq {Q : (Id → AKind) → Prop} {m m' : M Unit} {D D' : (Id → AKind) → Prop} {R R' : Id → Prop} (h : Works ext U Q m D R)
    (h' : Works ext U (fun K => Q K ∧ D K) m' D' R') : Works ext U Q (m >>= fun _ => m') (fun K => D K ∧ D' K) (fun c => R c ∨ R' c) :=
  fun s hs hq => (h s hs hq).bind (fun _ s1 h1 _ => h' s1 h1.valid (fun σ K e1 e2 => ⟨h1.known hq σ K e1 e2, h1.down σ K e1 e2⟩))

theorem Works.each {α} {Q : (Id → AKind) → Prop} {f : α → M Unit} {D : α → (Id → AKind) → Prop} {R : α → Id → Prop} :
    ∀ (l : List α), (∀ a ∈ l, Works ext U Q (f a) (D a) (R a)) → Works ext U Q (each f l) (fun K => ∀ a ∈ l, D a K) (fun c => ∃ a ∈ l, R a c)
  | [], _ => Works.nothing.congr (by simp) (by simp)
  | a :: l, h => ((h a (by simp)).seq ((Works.each l (fun b hb => h b (by simp [hb]))).weaken (fun _ h => h.1))).congr (by simp) (by simp)

/-! ## The operations of the unifier -/

mutual
theorem norm_written : ∀ k : AKind, k.norm = written k
  | .func args ret => by
    simp only [AKind.norm, written, norms_written args, norm_written ret, AKind.fun_, arrow]
    cases writtens args <;> simp
  | .type => rfl
  | .constraint => rfl
  | .satisfaction => rfl
  | .value => rfl
  | .mac => rfl
  | .error _ => rfl
theorem norms_written : ∀ ks : List AKind, AKind.norms ks = writtens ks
  | [] => rfl
  | k :: ks => by simp [AKind.norms, writtens, norm_written k, norms_written ks]
end

theorem fun_arrow (ks : List AKind) (k : AKind) : AKind.fun_ ks k = arrow ks k := by
  cases ks <;> simp [AKind.fun_, arrow]

theorem Valid.grown {s : St} (hs : Valid ext s) {p' : Pool} (hg : Grown s.pool p') : Valid ext { s with pool := p' } where
  inv := hg.inv
  good := fun c k hk => ⟨hg.good (hs.good c k hk).1, (hs.good c k hk).2⟩
  imp := fun c k a hk ha σ hσ => hs.imp c k a hk ha σ (hg.sol hσ)
  tab := fun c a ha => by
    obtain ⟨h1, h2, k, h3, h4⟩ := hs.tab c a ha
    exact ⟨h1, h2, k, h3, fun σ hσ => h4 σ (hg.sol hσ)⟩

theorem agree_extend {s : St} (hs : Valid ext s) {σ σ' : Assign} {K : Id → AKind} (ha : Agree s σ K) (h : ∀ i, i < s.pool.length → σ' i = σ i) : Agree s σ' K := by
  intro c k hk
  rw [← ha c k hk]
  exact sem_agree (T := AKind) (hs.good c k hk).1 h

theorem Res.grown {s : St} (hs : Valid ext s) {p' : Pool} (hg : Grown s.pool p') :
    Res ext U s (fun _ => True) (fun _ => False) { s with pool := p' } where
  valid := hs.grown hg
  len := hg.le
  kinds := fun _ _ h => h
  recs := fun _ _ h => h
  sol := fun _ h => hg.sol h
  down := fun _ _ _ _ => trivial
  up := fun σ K hσ ha _ _ _ => by
    obtain ⟨σ', h1, h2⟩ := hg.extend σ hσ
    exact ⟨σ', h1, agree_extend hs ha h2, h2⟩
  new := fun _ h => h.elim

theorem Valid.unified {s : St} (hs : Valid ext s) {E res p'} (hu : Unified s.pool E res p') : Valid ext { s with pool := p' } where
  inv := hu.inv hs.inv
  good := fun c k hk => ⟨hu.good (hs.good c k hk).1, (hs.good c k hk).2⟩
  imp := fun c k a hk ha σ hσ => hs.imp c k a hk ha σ (hu.sub σ hσ)
  tab := fun c a ha => by
    obtain ⟨h1, h2, k, h3, h4⟩ := hs.tab c a ha
    exact ⟨h1, h2, k, h3, fun σ hσ => h4 σ (hu.sub σ hσ)⟩

theorem unify_works {s : St} (hs : Valid ext s) {a b : Kind} (ha : Good s.pool a ∧ a.Proper) (hb : Good s.pool b ∧ b.Proper) :
    ∃ res p' n0, (∀ n, n0 ≤ n → unify n a b s.pool = some (res, p')) ∧ Unified s.pool (fun σ => a.sem σ = b.sem σ) res p' := by
  obtain ⟨r, hw⟩ := hs.inv.wf
  obtain ⟨R, hR⟩ := exists_low r a
  exact unify_spec (numRoots s.pool) R r s.pool a b hw (Nat.le_refl _) hR ha.1 hb.1 ha.2 hb.2

theorem Does.unify {s : St} (hs : Valid ext s) {a b : Kind} (ha : Good s.pool a ∧ a.Proper) (hb : Good s.pool b ∧ b.Proper) {D : (Id → AKind) → Prop}
    (hD : ∀ (σ : Assign) K, Sol s.pool σ → Agree s σ K → (a.sem σ = b.sem σ ↔ D K)) :
    Does ext U (unifyM a b) s D (fun _ => False) (fun _ _ => True) := by
  obtain ⟨res, p', n0, h1, h2⟩ := unify_works hs ha hb
  cases res with
  | error e =>
    exact ⟨n0, .error (.cannotUnify e), { s with pool := p' }, fun n hn => by simp only [unifyM, h1 n hn], fun _ _ h => h,
      fun σ K hσ ha _ _ hd => h2.err e rfl σ hσ ((hD σ K hσ ha).2 hd)⟩
  | ok u =>
    refine ⟨n0, .ok (), { s with pool := p' }, fun n hn => by simp only [unifyM, h1 n hn], ⟨hs.unified h2, Nat.le_of_eq h2.len.symm, fun _ _ h => h,
      fun _ _ h => h, h2.sub, fun σ K hσ ha => ?_, fun σ K hσ ha _ _ hd => ?_, fun _ h => h.elim⟩, trivial⟩
    · have := (h2.ok rfl σ).1 hσ
      exact (hD σ K this.1 ha).1 this.2
    · exact ⟨σ, (h2.ok rfl σ).2 ⟨hσ, (hD σ K hσ ha).2 hd⟩, ha, fun _ _ => rfl⟩

theorem Does.newFun {s : St} (hs : Valid ext s) {args : List Kind} {ret : Kind} (ha : ∀ k ∈ args, Good s.pool k ∧ k.Proper) (hr : Good s.pool ret ∧ ret.Proper) :
    Does ext U (newFunM args ret) s (fun _ => True) (fun _ => False) (fun k s' => (Good s'.pool k ∧ k.Proper) ∧
      ∀ σ : Assign, Sol s'.pool σ → k.sem σ = arrow (args.map (Kind.sem σ)) (ret.sem σ)) := by
  obtain ⟨h1, h2, h3, h4⟩ := newFun_spec hs.inv (fun k hk => (ha k hk).1) (fun k hk => (ha k hk).2) hr.1 hr.2
  exact ⟨0, .ok _, _, fun n _ => rfl, Res.grown hs h1, ⟨h2, h3⟩, fun σ hσ => by rw [← fun_arrow]; exact h4 σ hσ⟩

theorem Does.importKind {s : St} (hs : Valid ext s) (a : SrcKind) :
    Does ext U (importM a.1) s (fun _ => True) (fun _ => False) (fun k s' => (Good s'.pool k ∧ k.Proper) ∧ ∀ σ : Assign, Sol s'.pool σ → k.sem σ = written a.1) := by
  obtain ⟨k, p', h1, h2, h3, h4, h5⟩ := importKind_spec a.1 a.2 s.pool hs.inv
  exact ⟨0, .ok k, { s with pool := p' }, fun n _ => by simp only [importM, h1], Res.grown hs h2, ⟨h3, h4⟩, fun σ hσ => by rw [← norm_written]; exact h5 σ hσ⟩

/-- The construct `c` gets the kind `k` in a grown pool. -/
theorem Res.setKind {s : St} (hs : Valid ext s) {c : Id} (hc : s.kinds c = none) {p' : Pool} (hg : Grown s.pool p') {k : Kind} (hk : Good p' k ∧ k.Proper)
    (himp : ∀ a, ext c = some a → ∀ σ : Assign, Sol p' σ → k.sem σ = written a.1)
    (hup : ∀ (σ : Assign) K, Sol s.pool σ → Imports K ext → ∃ σ' : Assign, Sol p' σ' ∧ (∀ i, i < s.pool.length → σ' i = σ i) ∧ k.sem σ' = K c) :
    Res ext U s (fun _ => True) (fun _ => False) { s with pool := p', kinds := upd s.kinds c k } := by
  have hget : ∀ d k', upd s.kinds c k d = some k' → (d = c ∧ k' = k) ∨ s.kinds d = some k' := by
    intro d k' h
    by_cases hd : d = c
    · simp [upd, hd] at h; exact .inl ⟨hd, h.symm⟩
    · simp [upd, hd] at h; exact .inr h
  have hmono : ∀ d k', s.kinds d = some k' → upd s.kinds c k d = some k' := by
    intro d k' h
    have : d ≠ c := by rintro rfl; rw [hc] at h; cases h
    simp [upd, this, h]
  refine ⟨⟨hg.inv, fun d k' h => ?_, fun d k' a h ha σ hσ => ?_, fun d a ha => ?_⟩, hg.le, hmono, fun _ _ h => h, fun _ h => hg.sol h, fun _ _ _ _ => trivial,
    fun σ K hσ ha hi _ _ => ?_, fun _ h => h.elim⟩
  · rcases hget d k' h with ⟨-, rfl⟩ | h
    · exact hk
    · exact ⟨hg.good (hs.good d k' h).1, (hs.good d k' h).2⟩
  · rcases hget d k' h with ⟨rfl, rfl⟩ | h
    · exact himp a ha σ hσ
    · exact hs.imp d k' a h ha σ (hg.sol hσ)
  · obtain ⟨h1, h2, k', h3, h4⟩ := hs.tab d a ha
    exact ⟨h1, h2, k', hmono d k' h3, fun σ hσ => h4 σ (hg.sol hσ)⟩
  · obtain ⟨σ', h1, h2, h3⟩ := hup σ K hσ hi
    refine ⟨σ', h1, fun d k' h => ?_, h2⟩
    rcases hget d k' h with ⟨rfl, rfl⟩ | h
    · exact h3
    · exact agree_extend hs ha h2 d k' h

theorem Does.kindOf {s : St} (hs : Valid ext s) (c : Id) :
    Does ext U (kindOf ext c) s (fun _ => True) (fun _ => False) (fun k s' => s'.kinds c = some k) := by
  cases hc : s.kinds c with
  | some k => exact ⟨0, .ok k, s, fun n _ => by simp only [KindInfer.kindOf, hc], Res.rfl hs, hc⟩
  | none =>
    cases he : ext c with
    | none =>
      obtain ⟨h1, h2, h3⟩ := newVar_spec hs.inv
      refine ⟨0, .ok (newVar s.pool).1, { s with pool := (newVar s.pool).2, kinds := upd s.kinds c (newVar s.pool).1 },
        fun n _ => by simp only [KindInfer.kindOf, hc, freshKind, he]; rfl, Res.setKind hs hc h1 ⟨?_, trivial⟩ (fun a ha => by rw [he] at ha; cases ha) ?_,
        by simp [upd]⟩
      · rw [h3]
        intro j hj
        simp [h2, refs, asVar] at hj
        simp [hj]
      · intro σ K hσ _
        obtain ⟨r, hw⟩ := hs.inv.wf
        obtain ⟨σ', e1, e2, e3⟩ := append_root_extend (T := AKind) hw (k := Kind.var s.pool.length) rfl (K c) hσ
        exact ⟨σ', e1, e2, e3⟩
    | some a =>
      obtain ⟨k, p', h1, h2, h3, h4, h5⟩ := importKind_spec a.1 a.2 s.pool hs.inv
      refine ⟨0, .ok k, { s with pool := p', kinds := upd s.kinds c k },
        fun n _ => by simp only [KindInfer.kindOf, hc, freshKind, he, Bind.bind, importM, h1, setKind, Pure.pure],
        Res.setKind hs hc h2 ⟨h3, h4⟩ (fun a' ha => by rw [he] at ha; cases ha; intro σ hσ; rw [← norm_written]; exact h5 σ hσ) ?_, by simp [upd]⟩
      intro σ K hσ hi
      obtain ⟨σ', e1, e2⟩ := h2.extend σ hσ
      exact ⟨σ', e1, e2, by rw [h5 σ' e1, norm_written, hi c a he]⟩

end Verif.KindInfer
