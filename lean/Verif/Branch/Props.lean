import Verif.Branch.Lemmas
/-!
# A compiled match runs the first clause that matches (C09)
-/
namespace Verif.Branch

open Verif Spec

variable {V : Type}

mutual
theorem collect_wf {ty : Nat} {cs : List Const} : ∀ (p : Pat) (parent : Part), container parent = true →
    wf ty cs parent → (∀ c ∈ pconsts p, c ∈ cs) → ∀ q ∈ (collect p parent).parts, wf ty cs q
  | .var id, parent, hc, hw, hcs => by simp [collect, wf, hc, hw]
  | .as id p, parent, hc, hw, hcs => by
    have := collect_wf p parent hc hw (by simpa [pconsts] using hcs)
    simp only [collect, List.mem_cons, forall_eq_or_imp]
    exact ⟨⟨hc, hw⟩, this⟩
  | .wild, parent, hc, hw, hcs => by simp [collect]
  | .deref p, parent, hc, hw, hcs =>
    collect_wf p (.deref parent) rfl ⟨hc, hw⟩ (by simpa [pconsts] using hcs)
  | .nonNull p, parent, hc, hw, hcs => by
    have := collect_wf (ty := ty) p (.nonNull parent) rfl ⟨hc, hw⟩ (by simpa [pconsts] using hcs)
    simp only [collect]
    split
    · exact this
    · intro q hq
      simp only [List.mem_append, List.mem_singleton] at hq
      rcases hq with hq | hq
      · exact this q hq
      · rw [hq]; exact ⟨hc, hw⟩
  | .null, parent, hc, hw, hcs => by simp [collect, wf, hc, hw]
  | .struct args, parent, hc, hw, hcs => collectArgs_wf args 0 parent hc hw (by simpa [pconsts] using hcs)
  | .reint t p, parent, hc, hw, hcs =>
    collect_wf p (.reint t parent) rfl ⟨hc, hw⟩ (by simpa [pconsts] using hcs)
  | .syntax p, parent, hc, hw, hcs =>
    collect_wf p (.body parent) rfl ⟨hc, hw⟩ (by simpa [pconsts] using hcs)
  | .const c, parent, hc, hw, hcs => by
    simp only [collect, List.mem_singleton, forall_eq]
    exact ⟨hcs c (by simp [pconsts]), hc, hw⟩
theorem collectArgs_wf {ty : Nat} {cs : List Const} : ∀ (args : List (Nat × Pat)) (i : Nat) (parent : Part),
    container parent = true → wf ty cs parent → (∀ c ∈ pconstsL args, c ∈ cs) →
    ∀ q ∈ (collectArgs args i parent).parts, wf ty cs q
  | [], i, parent, hc, hw, hcs => by simp [collectArgs]
  | (t, p) :: args, i, parent, hc, hw, hcs => by
    intro q hq
    simp only [collectArgs, Flat.append, List.mem_append] at hq
    simp only [pconstsL, List.mem_append] at hcs
    rcases hq with hq | hq
    · exact collect_wf p (.elem t i parent) rfl ⟨hc, hw⟩ (fun c h => hcs c (.inl h)) q hq
    · exact collectArgs_wf args (i + 1) parent hc hw (fun c h => hcs c (.inr h)) q hq
end

/-- The variable a part binds. -/
def bindId : Part → Option Nat
  | .bind id _ => some id
  | _ => none

mutual
theorem collect_binds : ∀ (p : Pat) (parent : Part),
    (collect p parent).binds = pvars p ∧ (collect p parent).parts.filterMap bindId = pvars p
  | .var id, parent => by simp [collect, pvars, bindId]
  | .as id p, parent => by
    have := collect_binds p parent
    simp [collect, pvars, bindId, this.1, this.2]
  | .wild, parent => by simp [collect, pvars]
  | .deref p, parent => by simpa [collect, pvars] using collect_binds p (.deref parent)
  | .nonNull p, parent => by
    have := collect_binds p (.nonNull parent)
    simp only [collect, pvars]
    split
    · exact this
    · simp [this.1, this.2, bindId]
  | .null, parent => by simp [collect, pvars, bindId]
  | .struct args, parent => by simpa [collect, pvars] using collectArgs_binds args 0 parent
  | .reint t p, parent => by simpa [collect, pvars] using collect_binds p (.reint t parent)
  | .syntax p, parent => by simpa [collect, pvars] using collect_binds p (.body parent)
  | .const c, parent => by simp [collect, pvars, bindId]
theorem collectArgs_binds : ∀ (args : List (Nat × Pat)) (i : Nat) (parent : Part),
    (collectArgs args i parent).binds = pvarsL args ∧ (collectArgs args i parent).parts.filterMap bindId = pvarsL args
  | [], i, parent => by simp [collectArgs, pvarsL]
  | (t, p) :: args, i, parent => by
    have h1 := collect_binds p (.elem t i parent)
    have h2 := collectArgs_binds args (i + 1) parent
    simp [collectArgs, pvarsL, Flat.append, h1.1, h1.2, h2.1, h2.2]
end

theorem clausesOf_parts (ty : Nat) : ∀ (ps : List Pat) (n : Nat),
    ((clausesOf ty ps n).map (·.1)).flatten.filterMap bindId = (ps.map pvars).flatten
  | [], _ => rfl
  | p :: ps, n => by
    simp only [clausesOf, List.map_cons, List.flatten_cons, List.filterMap_append, clausesOf_parts ty ps (n + 1)]
    rw [flatten, (collect_binds p (.root ty)).2]

theorem nodup_of_filterMap : ∀ {l : List Part}, (l.filterMap bindId).Nodup → (l.filter Part.isBind).Nodup := by
  intro l
  induction l with
  | nil => intro _; simp
  | cons p l ih =>
    intro h
    cases p with
    | bind id q =>
      rw [List.filterMap_cons_some (f := bindId) (b := id) rfl] at h
      obtain ⟨h1, h2⟩ := List.nodup_cons.1 h
      rw [List.filter_cons_of_pos (by rfl)]
      refine List.nodup_cons.2 ⟨fun hm => h1 ?_, ih h2⟩
      exact List.mem_filterMap.2 ⟨_, (List.mem_filter.1 hm).1, rfl⟩
    | _ =>
      rw [List.filterMap_cons_none (by rfl)] at h
      rw [List.filter_cons_of_neg (by simp [Part.isBind])]
      exact ih h

theorem clausesOf_wf {ty : Nat} {cs : List Const} : ∀ (ps : List Pat) (n : Nat),
    (∀ c ∈ (ps.map pconsts).flatten, c ∈ cs) → ∀ c ∈ clausesOf ty ps n, ∀ q ∈ c.1, wf ty cs q
  | [], _, _ => by simp [clausesOf]
  | p :: ps, n, h => by
    simp only [List.map_cons, List.flatten_cons, List.mem_append] at h
    intro c hc
    simp only [clausesOf, List.mem_cons] at hc
    rcases hc with hc | hc
    · rw [hc]
      exact collect_wf p (.root ty) rfl rfl fun c hc => h c (.inl hc)
    · exact clausesOf_wf ps (n + 1) (fun c hc => h c (.inr hc)) c hc

theorem good_new (ty r : Nat) (cs : List Const) : Good ty cs (Progress.new r ty) := by
  refine ⟨⟨r, ?_⟩, ?_, ?_⟩
  · simp [Progress.new, HMap.get]
  · intro p o h hr
    simp only [Progress.new, HMap.get] at h
    split at h
    · next he => subst he; simp [isRoot] at hr
    · cases h
  · intro r ps h
    simp [Progress.new, HMap.get] at h

/-- **C09 (no panic).**  Expanding a match terminates without hitting any of the assertions of the code, whatever the
clauses. -/
theorem expand_total (n ty : Nat) (pats : List Pat) : ∃ fuel e, expand fuel n ty pats = some e := by
  obtain ⟨f, ⟨t, m⟩, h⟩ := tot_matches (cs := (pats.map pconsts).flatten) (clausesOf ty pats n)
    (clausesOf_wf pats n fun c h => h) (n + pats.length + 1) _ (good_new ty (n + pats.length) _)
  exact ⟨f, _, by simp only [expand, h]; rfl⟩

/-- The result does not depend on the fuel. -/
theorem expand_fuel {n ty : Nat} {pats : List Pat} {f f' e e'} (h : expand f n ty pats = some e)
    (h' : expand f' n ty pats = some e') : e = e' := by
  simp only [expand] at h h'
  split at h
  · cases h
  next t m ht =>
  split at h'
  · cases h'
  next t' m' ht' =>
  have a := expandMatches_le ht (Nat.le_max_left f f')
  have b := expandMatches_le ht' (Nat.le_max_right f f')
  rw [a] at b
  cases b
  cases h
  cases h'
  rfl

theorem contIndex_conts (ty : Nat) : ∀ (pats : List Pat) (n k i : Nat), (h : k < pats.length) →
    contIndex (n + k) (conts ty pats n) i = some (i + k, pvars pats[k])
  | [], _, _, _, h => by simp at h
  | p :: ps, n, 0, i, _ => by
    simp [conts, contIndex, flatten, (collect_binds p (.root ty)).1]
  | p :: ps, n, k + 1, i, h => by
    simp only [conts, contIndex]
    rw [if_neg (by omega)]
    have := contIndex_conts ty ps (n + 1) k (i + 1) (by simpa using h)
    rw [show n + (k + 1) = n + 1 + k by omega, this]
    simp only [List.getElem_cons_succ]
    congr 2
    omega

/-- The semantics by parts agrees with the clauses. -/
theorem evalClauses_eq (S : Sem V) (v : V) (ty : Nat) : ∀ (pats : List Pat) (n i : Nat) (r),
    firstMatch S v pats i = some r →
    (r = none ∧ evalClauses S v (clausesOf ty pats n) = some .never) ∨
    ∃ k bs, ∃ h : k < pats.length, r = some (i + k, bs) ∧ bs.map (·.1) = pvars pats[k] ∧
      evalClauses S v (clausesOf ty pats n) = some (.call (n + k) (bs.map (·.2)))
  | [], n, i, r, h => by
    simp only [firstMatch] at h
    cases h
    exact .inl ⟨rfl, rfl⟩
  | p :: ps, n, i, r, h => by
    simp only [firstMatch] at h
    split at h
    · cases h
    · next hm =>
      obtain ⟨h1, _⟩ := collect_correct S v p (.root ty) _ rfl hm
      have hev : evalClauses S v (clausesOf ty (p :: ps) n) = evalClauses S v (clausesOf ty ps (n + 1)) := by
        simp only [clausesOf, evalClauses, flatten, h1]
        rfl
      rw [hev]
      rcases evalClauses_eq S v ty ps (n + 1) (i + 1) r h with h | ⟨k, bs, hk, h2, h3, h4⟩
      · exact .inl h
      · refine .inr ⟨k + 1, bs, by simpa using hk, ?_, by simpa using h3, ?_⟩
        · rw [h2]; congr 2; omega
        · rw [h4]; congr 2; omega
    · next bs hm =>
      obtain ⟨h1, h2⟩ := collect_correct S v p (.root ty) _ rfl hm
      cases h
      refine .inr ⟨0, bs, by simp, by simp, ?_, ?_⟩
      · simp only [resBinds] at h2
        rw [h2, (collect_binds p (.root ty)).1]
        rfl
      · simp only [clausesOf, evalClauses, flatten, h1]
        rfl

theorem zip_fst_snd : ∀ (bs : List (Nat × V)), (bs.map (·.1)).zip (bs.map (·.2)) = bs
  | [] => rfl
  | b :: bs => by simp [zip_fst_snd bs]

/-- **C09.**  If trying the clauses from top to bottom on `v` selects a clause and variable values (or none), then the
compiled expression, run on `v`, ends in the body of that clause with those values (or in the unreachable branch).
Missing: the clauses must not contain two different constants that denote the same value; the code does not exclude that
(`first_match_refuted`). -/
theorem first_match_partial (S : Sem V) (v : V) (fuel n ty : Nat) (pats : List Pat) (e : Expanded)
    (hvars : (pats.map pvars).flatten.Nodup)
    (hdist : Distinct S (pats.map pconsts).flatten)
    (he : expand fuel n ty pats = some e)
    (r) (hr : firstMatch S v pats 0 = some r) : run S e v = some r := by
  simp only [expand] at he
  split at he
  · cases he
  next t m ht =>
  cases he
  have hroot : HMap.get (Progress.new (n + pats.length) ty).determined (.root ty) =
      some (some (some (n + pats.length))) := by simp [Progress.new, HMap.get]
  have honly : ∀ p o, HMap.get (Progress.new (n + pats.length) ty).determined p = some o →
      p = .root ty ∧ o = some (some (n + pats.length)) := by
    intro p o h
    simp only [Progress.new, HMap.get] at h
    split at h
    · next hp => exact ⟨hp.symm, (Option.some.inj h).symm⟩
    · cases h
  have hinv : Inv S v (fun z => if z = n + pats.length then some v else none) (n + pats.length + 1)
      (Progress.new (n + pats.length) ty) := by
    refine ⟨?_, ?_, ?_⟩
    · intro p o h
      rw [(honly p _ h).1]
      rfl
    · intro p x h
      obtain ⟨h1, h2⟩ := honly p _ h
      cases h2
      exact ⟨by omega, v, by simp, by rw [h1]; rfl⟩
    · intro p h
      cases (honly p _ h).2
  have htodo : Todo (Progress.new (n + pats.length) ty) [] (clausesOf ty pats n) := by
    refine ⟨?_, ?_⟩
    · rw [List.nil_append]
      apply nodup_of_filterMap
      rw [clausesOf_parts]
      exact hvars
    · intro p _ hb
      cases hg : HMap.get (Progress.new (n + pats.length) ty).determined p with
      | none => rfl
      | some o =>
        rw [(honly p _ hg).1] at hb
        cases hb
  have hcorrect := fun out => (tree_correct (v := v) (ty := ty) hdist fuel).1 _ _ _ _ _ _ out ht (good_new ty _ _) hinv rfl
    htodo (clausesOf_wf pats n fun c h => h) (fun z hz => if_neg (by omega))
  rcases evalClauses_eq S v ty pats n 0 r hr with ⟨h1, h2⟩ | ⟨k, bs, hk, h1, h2, h3⟩
  · simp only [run, hcorrect _ h2, h1]
  · simp only [run, hcorrect _ h3]
    rw [contIndex_conts ty pats n k 0 hk]
    have hlen : (pvars pats[k]).length = (bs.map (·.2)).length := by
      rw [← h2]; simp
    simp only [hlen, if_pos]
    rw [h1, ← h2]
    congr 3
    exact zip_fst_snd bs

/-! ## Concrete values -/

/-- Numbers, null pointers, references and pairs. -/
inductive Val where
  | num (n : Nat)
  | null
  | ref (v : Val)
  | pair (a b : Val)
  deriving DecidableEq, Repr

/-- An integer constant equals the number it writes, whether or not it was written with a sign. -/
def valSem : Sem Val where
  load := fun | .ref v => some v | _ => none
  elem := fun i v => match i, v with
    | 0, .pair a _ => some a
    | 1, .pair _ b => some b
    | _, _ => none
  reint := fun _ v => some v
  body := fun _ => none
  isNull := fun v => v == .null
  equals := fun c v => match c, v with
    | .integer _ _ n, .num m => n == m
    | _, _ => false

/-- `[(some (: 1 x)) a] [none b] [(some (: y 2)) c] [z d]` on nullable pairs. -/
def samplePats : List Pat :=
  [.nonNull (.struct [(1, .const (.integer 1 false 1)), (1, .var 0)]),
   .null,
   .nonNull (.struct [(1, .var 1), (1, .const (.integer 1 false 2))]),
   .as 2 .wild]

theorem sample_distinct : Distinct valSem (samplePats.map pconsts).flatten := by
  intro c hc c' hc' v h h'
  simp only [samplePats, List.map_cons, List.map_nil, pconsts, pconstsL, List.flatten_cons, List.flatten_nil,
    List.append_nil, List.nil_append, List.mem_append, List.mem_singleton, List.mem_cons, List.not_mem_nil,
    or_false, false_or] at hc hc'
  cases v with
  | num m =>
    rcases hc with rfl | rfl <;> rcases hc' with rfl | rfl <;> simp [valSem] at h h' <;> simp <;> omega
  | _ => rcases hc with rfl | rfl <;> simp [valSem] at h

/-- The hypotheses of `first_match_partial` hold for these clauses: the third clause is selected for `(7, 2)`. -/
example : ∃ e, expand 50 10 0 samplePats = some e ∧
    run valSem e (.ref (.pair (.num 7) (.num 2))) = some (some (2, [(1, .num 7)])) := by
  obtain ⟨f, e, he⟩ := expand_total 10 0 samplePats
  have he' : expand 50 10 0 samplePats = some e := by
    cases h : expand 50 10 0 samplePats with
    | none =>
      have : (expand 50 10 0 samplePats).isSome = true := by decide +kernel
      rw [h] at this
      cases this
    | some e' => rw [expand_fuel h he]
  refine ⟨e, he', first_match_partial valSem _ 50 10 0 samplePats e ?_ sample_distinct he' _ ?_⟩
  · decide +kernel
  · rfl

/-- `[(: 5 1) a] [(: +5 2) b] [_ c]`: the constants `5` and `+5` are different (`Const::Integer` keeps the sign flag) but
equal as values. -/
def aliasPats : List Pat :=
  [.struct [(1, .const (.integer 1 false 5)), (1, .const (.integer 1 false 1))],
   .struct [(1, .const (.integer 1 true 5)), (1, .const (.integer 1 false 2))],
   .wild]

/-- **C09 fails in general.**  For the value `(5, 2)` the second clause is the first that matches, but the compiled match
runs the third: having seen that the field equals `5`, it takes for granted that it does not equal `+5`. -/
theorem first_match_refuted :
    firstMatch valSem (.pair (.num 5) (.num 2)) aliasPats 0 = some (some (1, [])) ∧
    (expand 50 10 0 aliasPats).bind (fun e => run valSem e (.pair (.num 5) (.num 2))) = some (some (2, [])) :=
  ⟨rfl, rfl⟩

end Verif.Branch
