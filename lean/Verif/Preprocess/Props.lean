import Verif.Preprocess.Lemmas

/-!
# C17: preprocessor bindings are lexically scoped
-/
namespace Verif.Preprocess
open Spec

variable (features : List String)

/-- `Agree` at one state. -/
def At {α} (m : M α) (vars : Vars) (r : R α) : Prop := (m vars).1 = r ∧ ∀ n, (m vars).2.get n = vars.get n

theorem At.pure {α} (a : α) (vars) : At (M.pure a) vars (Pure.pure a) := ⟨rfl, fun _ => rfl⟩
theorem At.throw {α} (e : Err) (vars) : At (M.throw (α := α) e) vars (MonadExcept.throw e) := ⟨rfl, fun _ => rfl⟩

theorem At.bind {α β} {m : M α} {vars : Vars} {r : R α} {k : α → M β} {q : α → R β} (h : At m vars r)
    (hk : ∀ a (vars' : Vars), vars'.get = vars.get → r = .ok a → At (k a) vars' (q a)) :
    At (m.bind k) vars (r >>= q) := by
  obtain ⟨h1, h2⟩ := h
  unfold At M.bind
  cases hm : m vars with
  | mk r' s' =>
    rw [hm] at h1 h2
    simp only at h1 h2
    subst h1
    cases r' with
    | error e => exact ⟨rfl, h2⟩
    | ok a =>
      have he : s'.get = vars.get := funext h2
      obtain ⟨h3, h4⟩ := hk a s' he rfl
      exact ⟨h3, fun n => by rw [h4, h2]⟩

theorem evBinds_names {fuel env bs r} (h : evBinds features fuel env bs = .ok (some r)) :
    r.map Prod.fst = bindNames bs := by
  induction bs generalizing fuel r with
  | nil =>
    cases fuel with
    | zero => simp [evBinds, throw, throwThe, MonadExceptOf.throw] at h
    | succ fuel => simp [evBinds, pure, Except.pure] at h; subst h; rfl
  | cons b bs ih =>
    cases fuel with
    | zero => simp [evBinds, throw, throwThe, MonadExceptOf.throw] at h
    | succ fuel =>
      by_cases hb : ∃ name expr, b = .list [.symbol name, expr]
      · obtain ⟨name, expr, rfl⟩ := hb
        simp only [evBinds] at h
        split at h
        · cases h1 : Spec.one "$let bind expression" (ev features fuel env expr) with
          | error e => rw [h1] at h; simp [bind, Except.bind] at h
          | ok e =>
            rw [h1] at h
            cases h2 : evBinds features fuel env bs with
            | error e => rw [h2] at h; simp [bind, Except.bind] at h
            | ok m =>
              rw [h2] at h
              simp [bind, Except.bind, pure, Except.pure] at h
              obtain ⟨a, rfl, rfl⟩ := h
              simp [bindNames, ih h2]
        · simp [pure, Except.pure] at h
      · rw [evBinds] at h
        · simp [pure, Except.pure] at h
        · intro n e h; exact hb ⟨n, e, h⟩

theorem foldr_rev (ss : List Sexp) (t : Sexp) : ss.reverse.foldl (fun a b => cons b a) t = ss.foldr cons t := by
  simp

/-- The names of a row are the names of the directive. -/
theorem zip_names {names : List String} {row : List Sexp} (h : row.length = names.length) :
    (names.zip row).map Prod.fst = names := List.map_fst_zip (by omega)

/-- The induction behind C17. -/
theorem agree (fuel : Nat) :
    (∀ ss, distinctAll ss = true → Agree (expandSeq features fuel ss) (fun env => evSeq features fuel env ss)) ∧
    (∀ bs, distinctAll bs = true → Agree (expandBinds features fuel bs) (fun env => evBinds features fuel env bs)) ∧
    (∀ s, distinct s = true → Agree (expand features fuel s) (fun env => ev features fuel env s)) := by
  induction fuel with
  | zero =>
    refine ⟨fun ss _ => ?_, fun ss _ => ?_, fun ss _ => ?_⟩
    · simpa [expandSeq, evSeq] using Agree.throw _
    · simpa [expandBinds, evBinds] using Agree.throw _
    · simpa [expand, ev] using Agree.throw _
  | succ fuel ih =>
    obtain ⟨ihs, ihb, ihe⟩ := ih
    refine ⟨fun ss hd => ?_, fun bs hd => ?_, fun s hd => ?_⟩
    · cases ss with
      | nil => simpa [expandSeq, evSeq] using Agree.pure _
      | cons s ss =>
        simp only [distinctAll, Bool.and_eq_true] at hd
        simp only [expandSeq, evSeq]
        exact (ihe s hd.1).bind fun a => (ihs ss hd.2).bind fun b => Agree.pure _
    · match bs with
      | [] => simpa [expandBinds, evBinds] using Agree.pure _
      | b :: bs =>
        simp only [distinctAll, Bool.and_eq_true] at hd
        obtain ⟨hd1, hd2⟩ := hd
        by_cases hb : ∃ name expr, b = .list [.symbol name, expr]
        · obtain ⟨name, expr, rfl⟩ := hb
          simp only [distinct, distinctAll, Bool.and_eq_true] at hd1
          simp only [expandBinds, evBinds]
          split
          · exact ((ihe _ hd1.2.2.1).one _).bind fun e => (ihb _ hd2).bind fun more => Agree.pure _
          · exact Agree.pure _
        · rw [expandBinds]
          · have : (fun env => evBinds features (fuel + 1) env (b :: bs)) = fun _ => Pure.pure none := by
              funext env; rw [evBinds]; intro n e h; exact hb ⟨n, e, h⟩
            rw [this]; exact Agree.pure _
          · intro n e h; exact hb ⟨n, e, h⟩
    · have ihs' : ∀ ss, distinctAll ss = true → ∀ env (vars : Vars), vars.get = env →
          At (expandSeq features fuel ss) vars (evSeq features fuel env ss) := by
        rintro ss h _ vars rfl; exact ihs ss h vars
      have ihb' : ∀ ss, distinctAll ss = true → ∀ env (vars : Vars), vars.get = env →
          At (expandBinds features fuel ss) vars (evBinds features fuel env ss) := by
        rintro ss h _ vars rfl; exact ihb ss h vars
      have ihe' : ∀ pl s, distinct s = true → ∀ env (vars : Vars), vars.get = env →
          At (one pl (expand features fuel s)) vars (Spec.one pl (ev features fuel env s)) := by
        rintro pl s h _ vars rfl; exact (ihe s h).one pl vars
      intro vars
      show At (expand features (fuel + 1) s) vars (ev features (fuel + 1) vars.get s)
      have hlist : ∀ ss, distinctAll ss = true →
          At (if ss.isEmpty = true then M.pure [Sexp.list ss]
              else (expandSeq features fuel ss).bind fun ss' => M.pure [Sexp.list ss']) vars
            (if ss.isEmpty = true then Pure.pure [Sexp.list ss]
              else evSeq features fuel vars.get ss >>= fun a => Pure.pure [Sexp.list a]) := by
        intro ss hd
        split
        · exact At.pure _ _
        · exact (ihs' _ hd _ _ rfl).bind fun ss vars' _ _ => At.pure _ _
      cases s with
      | symbol sym =>
        simp only [expand, ev]
        split
        · cases hg : vars.get sym with
          | some s => unfold At; simp only [hg]; exact ⟨rfl, fun _ => trivial⟩
          | none => unfold At; simp only [hg]; exact ⟨rfl, fun _ => trivial⟩
        · exact At.pure _ _
      | listLike h m t =>
        simp only [distinct, Bool.and_eq_true] at hd
        simp only [expand, ev, foldr_rev]
        refine (ihs' (h :: m) (by simp [distinctAll, hd]) _ _ rfl).bind fun ss vars' hv _ => ?_
        exact (ihe' _ _ hd.2 _ _ hv).bind fun a vars' _ _ => At.pure _ _
      | integer => simp only [expand, ev]; exact At.pure _ _
      | fpNumber => simp only [expand, ev]; exact At.pure _ _
      | string => simp only [expand, ev]; exact At.pure _ _
      | char => simp only [expand, ev]; exact At.pure _ _
      | bool => simp only [expand, ev]; exact At.pure _ _
      | native => simp only [expand, ev]; exact At.pure _ _
      | list ss =>
        simp only [distinct, Bool.and_eq_true] at hd
        obtain ⟨hok, hd⟩ := hd
        by_cases hs : ∃ sym args, ss = .symbol sym :: args
        · obtain ⟨sym, args, rfl⟩ := hs
          have hda : distinctAll args = true := by simp [distinctAll] at hd; exact hd.2
          by_cases h1 : sym = "$symbol"
          · subst h1
            simp only [expand, ev]
            refine (ihs' _ hda _ _ rfl).bind fun ss vars' _ _ => ?_
            cases symbolText ss with
            | none => exact At.throw _ _
            | some name =>
              simp only
              split
              · exact At.throw _ _
              · exact At.pure _ _
          by_cases h2 : sym = "$let"
          · subst h2
            by_cases ha : ∃ bs body, args = .list bs :: body
            · obtain ⟨bs, body, rfl⟩ := ha
              simp only [distinctAll, distinct, Bool.and_eq_true] at hda
              simp only [expand, ev]
              refine (ihb' _ hda.1.2 _ _ rfl).bind fun r vars' hv hr => ?_
              cases r with
              | none => exact At.throw _ _
              | some r =>
                have hn : ((r.map Prod.fst).filter (· ≠ "_")).Nodup := by
                  rw [evBinds_names features hr]
                  simpa [headOk] using hok
                have := (ihs body hda.2).withBinds hn vars'
                exact ⟨this.1.trans (by rw [hv]), this.2⟩
            · rw [expand, ev]
              · exact At.throw _ _
              · intro a b h; exact ha ⟨a, b, h⟩
              · intro a b h; exact ha ⟨a, b, h⟩
          by_cases h3 : sym = "$let1"
          · subst h3
            by_cases ha : ∃ n e body, args = .symbol n :: e :: body
            · obtain ⟨n, e, body, rfl⟩ := ha
              simp only [distinctAll, distinct, Bool.and_eq_true] at hda
              simp only [expand, ev]
              split
              · refine (ihe' _ _ hda.2.1 _ _ rfl).bind fun r vars' hv hr => ?_
                have hn : ((([(n, r)] : List (String × Sexp)).map Prod.fst).filter (· ≠ "_")).Nodup := by
                  by_cases h : n = "_" <;> simp [h]
                have := (ihs body hda.2.2).withBinds hn vars'
                exact ⟨this.1.trans (by rw [hv]; rfl), this.2⟩
              · exact At.throw _ _
            · rw [expand, ev]
              · exact At.throw _ _
              · intro a b c h; exact ha ⟨a, b, c, h⟩
              · intro a b c h; exact ha ⟨a, b, c, h⟩
          by_cases h4 : sym = "$for"
          · subst h4
            by_cases ha : ∃ n e body, args = .list n :: e :: body
            · obtain ⟨ns, e, body, rfl⟩ := ha
              simp only [distinctAll, distinct, Bool.and_eq_true] at hda
              simp only [expand, ev]
              refine (ihe' _ _ hda.2.1 _ _ rfl).bind fun r vars' hv hr => ?_
              cases r with
              | list rows =>
                simp only
                cases hns : forNames ns with
                | none => exact At.throw _ _
                | some names =>
                  simp only
                  cases hrs : forRows names.length rows with
                  | none => exact At.throw _ _
                  | some rows =>
                    simp only
                    have hn : ∀ r ∈ rows.map (names.zip ·), ((r.map Prod.fst).filter (· ≠ "_")).Nodup := by
                      intro r hr
                      obtain ⟨row, hrow, rfl⟩ := List.mem_map.1 hr
                      rw [zip_names (forRows_length hrs row hrow), ← forNames_symbols hns]
                      simpa [headOk] using hok
                    have := (ihs body hda.2.2).forLoop _ hn vars'
                    exact ⟨this.1.trans (by simp only [hv, List.map_map]; rfl), this.2⟩
              | _ => exact At.throw _ _
            · rw [expand, ev]
              · exact At.throw _ _
              · intro a b c h; exact ha ⟨a, b, c, h⟩
              · intro a b c h; exact ha ⟨a, b, c, h⟩
          by_cases h5 : sym = "$for1"
          · subst h5
            by_cases ha : ∃ n e body, args = .symbol n :: e :: body
            · obtain ⟨n, e, body, rfl⟩ := ha
              simp only [distinctAll, distinct, Bool.and_eq_true] at hda
              simp only [expand, ev]
              split
              · refine (ihe' _ _ hda.2.1 _ _ rfl).bind fun r vars' hv hr => ?_
                cases r with
                | list elems =>
                  have hn : ∀ r ∈ elems.map (fun e => [(n, e)]), ((r.map Prod.fst).filter (· ≠ "_")).Nodup := by
                    intro r hr
                    obtain ⟨row, hrow, rfl⟩ := List.mem_map.1 hr
                    by_cases h : n = "_" <;> simp [h]
                  have := (ihs body hda.2.2).forLoop _ hn vars'
                  exact ⟨this.1.trans (by simp only [hv, List.map_map]; rfl), this.2⟩
                | _ => exact At.throw _ _
              · exact At.throw _ _
            · rw [expand, ev]
              · exact At.throw _ _
              · intro a b c h; exact ha ⟨a, b, c, h⟩
              · intro a b c h; exact ha ⟨a, b, c, h⟩
          by_cases h6 : sym = "$when"
          · subst h6
            cases args with
            | nil => simp only [expand, ev]; exact At.throw _ _
            | cons c body =>
              simp only [distinctAll, Bool.and_eq_true] at hda
              simp only [expand, ev]
              refine (ihe' _ _ hda.1 _ _ rfl).bind fun r vars' hv hr => ?_
              cases r with
              | bool b =>
                simp only
                split
                · exact ihs' _ hda.2 _ _ hv
                · exact At.pure _ _
              | _ => exact At.throw _ _
          by_cases h7 : sym = "$not"
          · subst h7
            by_cases ha : ∃ c, args = [c]
            · obtain ⟨c, rfl⟩ := ha
              simp only [distinctAll, Bool.and_eq_true] at hda
              simp only [expand, ev]
              refine (ihe' _ _ hda.1 _ _ rfl).bind fun r vars' hv hr => ?_
              cases r with
              | bool b => exact At.pure _ _
              | _ => exact At.throw _ _
            · rw [expand, ev]
              · exact At.throw _ _
              · intro a h; exact ha ⟨a, h⟩
              · intro a h; exact ha ⟨a, h⟩
          by_cases h8 : sym = "$feature"
          · subst h8
            by_cases ha : ∃ c, args = [c]
            · obtain ⟨c, rfl⟩ := ha
              simp only [distinctAll, Bool.and_eq_true] at hda
              simp only [expand, ev]
              refine (ihe' _ _ hda.1 _ _ rfl).bind fun r vars' hv hr => ?_
              cases r with
              | string b => exact At.pure _ _
              | _ => exact At.throw _ _
            · rw [expand, ev]
              · exact At.throw _ _
              · intro a h; exact ha ⟨a, h⟩
              · intro a h; exact ha ⟨a, h⟩
          rw [expand, ev]
          · exact hlist _ hd
          all_goals (intro a h; simp at h; exact absurd h.1 (by assumption))
        · rw [expand, ev]
          · exact hlist _ hd
          all_goals (intro a h; exact hs ⟨_, _, h⟩)

/-- The computation does not run out of fuel. -/
def NF {α} (m : M α) : Prop := ∀ vars, (m vars).1 ≠ .error .outOfFuel

theorem NF.pure {α} (a : α) : NF (M.pure a) := by intro v; simp [M.pure]
theorem NF.throw {α} (e : Err) (h : e ≠ .outOfFuel) : NF (M.throw (α := α) e) := by intro v; simp [M.throw, h]
theorem NF.bind {α β} {m : M α} {k : α → M β} (h : NF m) (hk : ∀ a, NF (k a)) : NF (m.bind k) := by
  intro v
  unfold M.bind
  have := h v
  cases hm : m v with
  | mk r s =>
    cases r with
    | ok a => exact hk a s
    | error e => rw [hm] at this; simpa using this
theorem NF.withBinds {α} {m : M α} (bs) (h : NF m) : NF (withBinds bs m) := by
  intro v
  exact h _
theorem NF.one {m : M (List Sexp)} (pl) (h : NF m) : NF (one pl m) := by
  refine NF.bind h fun a => ?_
  split
  · exact NF.pure _
  · exact NF.throw _ (by simp)
theorem NF.forLoop {m : M (List Sexp)} (h : NF m) (rows) : NF (forLoop m rows) := by
  induction rows with
  | nil => exact NF.pure _
  | cons r rows ih => exact (h.withBinds r).bind fun a => ih.bind fun b => NF.pure _

/-- Fuel above the size of the input is enough. -/
theorem fuel_suffices (fuel : Nat) :
    (∀ ss, sizeAll ss < fuel → NF (expandSeq features fuel ss)) ∧
    (∀ bs, sizeAll bs < fuel → NF (expandBinds features fuel bs)) ∧
    (∀ s, size s < fuel → NF (expand features fuel s)) := by
  induction fuel with
  | zero => exact ⟨by simp, by simp, by simp⟩
  | succ fuel ih =>
    obtain ⟨ihs, ihb, ihe⟩ := ih
    refine ⟨fun ss hd => ?_, fun bs hd => ?_, fun s hd => ?_⟩
    · cases ss with
      | nil => simpa [expandSeq] using NF.pure _
      | cons s ss =>
        simp only [sizeAll] at hd
        simp only [expandSeq]
        exact (ihe s (by omega)).bind fun a => (ihs ss (by omega)).bind fun b => NF.pure _
    · cases bs with
      | nil => simpa [expandBinds] using NF.pure _
      | cons b bs =>
        simp only [sizeAll] at hd
        by_cases hb : ∃ name expr, b = .list [.symbol name, expr]
        · obtain ⟨name, expr, rfl⟩ := hb
          simp only [size, sizeAll] at hd
          simp only [expandBinds]
          split
          · exact ((ihe _ (by omega)).one _).bind fun e => (ihb _ (by omega)).bind fun more => NF.pure _
          · exact NF.pure _
        · rw [expandBinds]
          · exact NF.pure _
          · intro n e h; exact hb ⟨n, e, h⟩
    · generalize hf : fuel + 1 = f at *
      fun_cases expand features f s
      all_goals (try (exact absurd hf (Nat.succ_ne_zero _)))
      all_goals (injection hf with hf; subst hf)
      all_goals (try simp only [size, sizeAll, Nat.succ_eq_add_one] at hd)
      all_goals
        repeat' first
          | exact NF.pure _
          | exact NF.throw _ (by simp)
          | (apply ihs; omega)
          | (apply ihs; simp only [sizeAll]; omega)
          | (apply ihe; omega)
          | (apply ihb; omega)
          | apply NF.one
          | apply NF.withBinds
          | apply NF.forLoop
          | refine NF.bind ?_ (fun _ => ?_)
          | split
          | (intro v; dsimp only; split <;> simp)

/-- The fuel of `run` is never used up: `outOfFuel` is not a result of preprocessing. -/
theorem run_no_fuel (ss : List Sexp) : run features ss ≠ .error .outOfFuel :=
  (fuel_suffices features _).1 ss (Nat.lt_succ_self _) []

/-- C17.  When no directive binds the same name twice, the result of preprocessing is that of the lexically scoped expansion
(every variable means the value bound by the innermost enclosing directive, and nothing outside every such directive). -/
theorem run_lexical_partial (ss : List Sexp) (h : distinctAll ss = true) :
    run features ss = evSeq features (sizeAll ss + 1) (fun _ => none) ss :=
  ((agree features _).1 ss h []).1

/-- C17.  Expanding a form, successfully or not, leaves every variable bound as it was before. -/
theorem expand_restores_partial (fuel : Nat) (s : Sexp) (h : distinct s = true) (vars : Vars) (n : String) :
    (expand features fuel s vars).2.get n = vars.get n :=
  (((agree features fuel).2.2 s h) vars).2 n

/-- Non-vacuity: nested and shadowing directives satisfy the hypothesis. -/
example : distinctAll [.list [.symbol "$let", .list [.list [.symbol "$x", .integer false 1], .list [.symbol "$y", .symbol "$z"]],
    .list [.symbol "$for", .list [.symbol "$x", .symbol "_", .symbol "_"], .list [], .symbol "$x"]]] = true := by decide

/-- C17 does not hold in general: `($let ([$x 1] [$x 2])) $x` leaves `$x` bound to `1` after its scope. -/
theorem duplicate_leaks :
    run features [.list [.symbol "$let", .list [.list [.symbol "$x", .integer false 1], .list [.symbol "$x", .integer false 2]]],
      .symbol "$x"] = .ok [.integer false 1] ∧
    evSeq features 20 (fun _ => none)
      [.list [.symbol "$let", .list [.list [.symbol "$x", .integer false 1], .list [.symbol "$x", .integer false 2]]],
        .symbol "$x"] = .error (.undefinedMetaVariable "$x") := by
  constructor <;> rfl

/-! ## The syntactic helpers shared by model and specification, characterised on their own -/

/-- A name can be bound exactly when it is `_` or starts with `$`. -/
theorem metavar_iff (name : String) : metavar name = true ↔ name = "_" ∨ ∃ rest, name.toList = '$' :: rest := by
  unfold metavar
  cases h : name.toList with
  | nil => simp
  | cons c cs => simp [or_comm]

/-- The text contributed by one part of a `$symbol`. -/
inductive PartText : Sexp → String → Prop
  | symbol (s) : PartText (.symbol s) s
  | string (s) : PartText (.string s) s
  | char (c) : PartText (.char c) (String.ofList [c])

/-- `$symbol` concatenates the texts of its parts in order, and refuses any other kind of part. -/
inductive Concat : List Sexp → String → Prop
  | nil : Concat [] ""
  | cons {s t ss u} : PartText s t → Concat ss u → Concat (s :: ss) (t ++ u)

theorem symbolText_iff (ss : List Sexp) (t : String) : symbolText ss = some t ↔ Concat ss t := by
  constructor
  · intro h
    induction ss generalizing t with
    | nil => simp [symbolText] at h; subst h; exact .nil
    | cons a ss ih =>
      cases a <;> simp [symbolText] at h
      all_goals obtain ⟨u, hu, rfl⟩ := h
      · exact .cons (.symbol _) (ih u hu)
      · exact .cons (.string _) (ih u hu)
      · exact .cons (.char _) (ih u hu)
  · intro h
    induction h with
    | nil => rfl
    | cons hp _ ih => cases hp <;> simp [symbolText, ih] <;> rfl

/-- The names of a `$for`: every element has to be a symbol that can be bound. -/
theorem forNames_iff (ss : List Sexp) (ns : List String) :
    forNames ss = some ns ↔ ss = ns.map .symbol ∧ ∀ n ∈ ns, n = "_" ∨ ∃ rest, n.toList = '$' :: rest := by
  constructor
  · intro h
    induction ss generalizing ns with
    | nil => simp [forNames] at h; subst h; simp
    | cons a ss ih =>
      cases a <;> simp [forNames] at h
      obtain ⟨hm, u, hu, rfl⟩ := h
      obtain ⟨h1, h2⟩ := ih u hu
      refine ⟨by simp [h1], ?_⟩
      intro n hn
      rcases List.mem_cons.1 hn with rfl | hn
      · exact (metavar_iff _).1 hm
      · exact h2 n hn
  · rintro ⟨rfl, h⟩
    induction ns with
    | nil => rfl
    | cons n ns ih =>
      have h1 := (metavar_iff n).2 (h n (by simp))
      simp [forNames, h1, ih (fun n hn => h n (by simp [hn]))]

/-- The rows of a `$for`: every element has to be a list with one entry per name. -/
theorem forRows_iff (n : Nat) (ss : List Sexp) (rows : List (List Sexp)) :
    forRows n ss = some rows ↔ ss = rows.map .list ∧ ∀ r ∈ rows, r.length = n := by
  constructor
  · intro h
    induction ss generalizing rows with
    | nil => simp [forRows] at h; subst h; simp
    | cons a ss ih =>
      cases a <;> simp [forRows] at h
      obtain ⟨hm, u, hu, rfl⟩ := h
      obtain ⟨h1, h2⟩ := ih u hu
      refine ⟨by simp [h1], ?_⟩
      intro r hr
      rcases List.mem_cons.1 hr with rfl | hr
      · exact hm
      · exact h2 r hr
  · rintro ⟨rfl, h⟩
    induction rows with
    | nil => rfl
    | cons r rows ih =>
      simp [forRows, h r (by simp), ih (fun n hn => h n (by simp [hn]))]

/-- Elements and final tail of a (possibly dotted) list; an atom has no elements and is its own tail. -/
def spine : Sexp → List Sexp × Option Sexp
  | .list ss => (ss, none)
  | .listLike h m t => (h :: m, some t)
  | s => ([], some s)

/-- `cons` adds one element in front. -/
theorem cons_spine (a d : Sexp) : spine (cons a d) = (a :: (spine d).1, (spine d).2) := by
  cases d <;> rfl

end Verif.Preprocess
