import Verif.Hash.Model

/-!
# Lemmas for C60
-/
namespace Verif.Hash

theorem eqNum_eq {chibi : Bool} {t : Ty} {a b : Nat} (ha : RegularNum t a) (hb : RegularNum t b) (h : eqNum chibi t a b = some true) : a = b := by
  cases t <;> simp only [eqNum, Option.some.injEq, beq_iff_eq, reduceCtorEq] at h <;> try exact h
  case float d =>
    obtain ⟨na, za⟩ := ha
    obtain ⟨nb, zb⟩ := hb
    rw [floatEq, na, nb] at h
    simp only [Bool.or_self, Bool.false_eq_true, if_false, Bool.or_eq_true, beq_iff_eq, Bool.and_eq_true] at h
    rcases h with h | ⟨h, h'⟩
    · exact h
    · rw [za h, zb h']

theorem u8s_congr {D : Decls} {chibi : Bool} {w : Nat} : ∀ {vs ws : Vs}, RegularAll D (.int w) vs → RegularAll D (.int w) ws →
    eqAll D chibi (.int w) vs ws = some true → u8s vs = u8s ws
  | .nil, .nil, _, _, _ => rfl
  | .nil, .cons _ _, _, _, h => by simp [eqAll] at h
  | .cons _ _, .nil, _, _, h => by simp [eqAll] at h
  | .cons v vs, .cons w ws, hv, hw, h => by
    rw [eqAll, Option.bind_eq_bind, Option.bind_eq_some_iff] at h
    obtain ⟨b, e, h⟩ := h
    cases b with
    | false => simp at h
    | true =>
      have ih := u8s_congr hv.2 hw.2 (by simpa using h)
      cases v with
      | num n => cases w with
        | num m =>
          rw [eq] at e
          have := eqNum_eq (t := .int _) trivial trivial e
          rw [u8s, u8s, ih, this]
        | _ => simp [eq] at e
      | str s => simp [eq] at e
      | con i fs => cases w <;> simp [eq] at e
      | list fs => cases w <;> simp [eq] at e

mutual

/-- Equal values without irregular floats write the same. -/
theorem hash_congr {D : Decls} {chibi : Bool} : ∀ {t : Ty} {v w : V}, Regular D t v → Regular D t w → eq D chibi t v w = some true →
    hash D t v = hash D t w
  | t, .num a, w, hv, hw, h => by
    cases w with
    | num b => rw [eq] at h; rw [eqNum_eq hv hw h]
    | _ => simp [eq] at h
  | t, .str a, w, hv, hw, h => by
    cases t <;> cases w <;> simp [eq] at h
    rw [h]
  | t, .con i fs, w, hv, hw, h => by
    cases w with
    | con j gs =>
      rw [Regular] at hv hw
      cases t <;> simp only [eq, reduceCtorEq] at h <;> simp only [hash]
      case box t => exact fields_congr hv hw h
      case tuple ts => exact fields_congr hv hw h
      case option t =>
        match i, j, hv, hw, h with
        | 0, 0, _, _, _ => rfl
        | 1, 1, hv, hw, h => simp only [fields_congr (ts := [t]) hv hw h]
        | 0, _ + 1, _, _, h => simp at h
        | _ + 1, 0, _, _, h => simp at h
        | 1, _ + 2, _, _, h => simp at h
        | _ + 2, _ + 1, _, _, h => simp at h
      case result t e =>
        match i, j, hv, hw, h with
        | 0, 0, hv, hw, h => simp only [fields_congr (ts := [e]) hv hw h]
        | 1, 1, hv, hw, h => simp only [fields_congr (ts := [t]) hv hw h]
        | 0, _ + 1, _, _, h => simp at h
        | _ + 1, 0, _, _, h => simp at h
        | 1, _ + 2, _, _, h => simp at h
        | _ + 2, _ + 1, _, _, h => simp at h
      case either l r =>
        match i, j, hv, hw, h with
        | 0, 0, hv, hw, h => simp only [fields_congr (ts := [l]) hv hw h]
        | 1, 1, hv, hw, h => simp only [fields_congr (ts := [r]) hv hw h]
        | 0, _ + 1, _, _, h => simp at h
        | _ + 1, 0, _, _, h => simp at h
        | 1, _ + 2, _, _, h => simp at h
        | _ + 2, _ + 1, _, _, h => simp at h
      case data d =>
        simp only [fieldTypes] at hv hw
        split at h
        · rename_i ts e
          split at h
          · rename_i hij
            subst hij
            rw [e] at hv hw
            rw [e, Option.bind_eq_bind, Option.bind_some, Option.bind_eq_bind, Option.bind_some, fields_congr (ts := ts) hv hw h]
          · simp at h
        · simp at h
    | _ => simp [eq] at h
  | t, .list vs, w, hv, hw, h => by
    cases w with
    | list ws =>
      rw [Regular] at hv hw
      cases t <;> simp only [eq, reduceCtorEq] at h <;> simp only [hash]
      case arr t =>
        split at h
        · by_cases hu : isU8 t = true
          · rw [if_pos hu, if_pos hu]
            cases t <;> simp [isU8] at hu
            rw [u8s_congr hv hw h]
          · rw [if_neg hu, if_neg hu]
            exact all_congr hv hw h
        · simp at h
      case ordMap k v =>
        split at h
        · exact all_congr hv hw h
        · simp at h
    | _ => simp [eq] at h

theorem fields_congr {D : Decls} {chibi : Bool} : ∀ {ts : List Ty} {vs ws : Vs}, RegularFields D ts vs → RegularFields D ts ws →
    eqFields D chibi ts vs ws = some true → hashFields D ts vs = hashFields D ts ws
  | [], .nil, .nil, _, _, _ => rfl
  | [], .nil, .cons _ _, _, _, h => by simp [eqFields] at h
  | [], .cons _ _, _, _, _, h => by simp [eqFields] at h
  | _ :: _, .nil, _, _, _, h => by simp [eqFields] at h
  | _ :: _, .cons _ _, .nil, _, _, h => by simp [eqFields] at h
  | t :: ts, .cons v vs, .cons w ws, hv, hw, h => by
    rw [eqFields, Option.bind_eq_bind, Option.bind_eq_some_iff] at h
    obtain ⟨b, e, h⟩ := h
    cases b with
    | false => simp at h
    | true =>
      rw [hashFields, hashFields, hash_congr hv.1 hw.1 e, fields_congr hv.2 hw.2 (by simpa using h)]

theorem all_congr {D : Decls} {chibi : Bool} : ∀ {t : Ty} {vs ws : Vs}, RegularAll D t vs → RegularAll D t ws →
    eqAll D chibi t vs ws = some true → hashAll D t vs = hashAll D t ws
  | _, .nil, .nil, _, _, _ => rfl
  | _, .nil, .cons _ _, _, _, h => by simp [eqAll] at h
  | _, .cons _ _, .nil, _, _, h => by simp [eqAll] at h
  | t, .cons v vs, .cons w ws, hv, hw, h => by
    rw [eqAll, Option.bind_eq_bind, Option.bind_eq_some_iff] at h
    obtain ⟨b, e, h⟩ := h
    cases b with
    | false => simp at h
    | true =>
      rw [hashAll, hashAll, hash_congr hv.1 hw.1 e, all_congr hv.2 hw.2 (by simpa using h)]

end

/-! ## Types without floats -/

theorem noFloats_get {D : Decls} (hD : D.NoFloat) (d i : Nat) : NoFloats ((D d)[i]?.getD []) := by
  cases e : (D d)[i]? with
  | none => exact trivial
  | some ts => exact hD d ts (List.mem_of_getElem? e)

theorem noFloats_field {D : Decls} (hD : D.NoFloat) {t : Ty} (h : t.NoFloat) (i : Nat) : NoFloats (fieldTypes D t i) := by
  cases t <;> cases i <;> simp_all [fieldTypes, Ty.NoFloat, NoFloats] <;> exact noFloats_get hD _ _

theorem noFloat_elem {t : Ty} (h : t.NoFloat) : (elemType t).NoFloat := by
  cases t <;> simp_all [elemType, Ty.NoFloat, NoFloats]

mutual

theorem regular_of {D : Decls} (hD : D.NoFloat) : ∀ {t : Ty}, t.NoFloat → (v : V) → Regular D t v
  | t, h, .num n => by
    cases t <;> simp [Regular, RegularNum]
    exact h.elim
  | _, _, .str _ => by simp [Regular]
  | t, h, .con i fs => by rw [Regular]; exact regularFields_of hD (noFloats_field hD h i) fs
  | t, h, .list vs => by rw [Regular]; exact regularAll_of hD (noFloat_elem h) vs

theorem regularFields_of {D : Decls} (hD : D.NoFloat) : ∀ {ts : List Ty}, NoFloats ts → (vs : Vs) → RegularFields D ts vs
  | [], _, _ => by simp [RegularFields]
  | _ :: _, _, .nil => by simp [RegularFields]
  | t :: ts, h, .cons v vs => by rw [RegularFields]; exact ⟨regular_of hD h.1 v, regularFields_of hD h.2 vs⟩

theorem regularAll_of {D : Decls} (hD : D.NoFloat) : ∀ {t : Ty}, t.NoFloat → (vs : Vs) → RegularAll D t vs
  | _, _, .nil => by simp [RegularAll]
  | t, h, .cons v vs => by rw [RegularAll]; exact ⟨regular_of hD h v, regularAll_of hD h vs⟩

end

/-! ## Values of the type have a hash and can be compared -/

theorem u8s_total {D : Decls} : ∀ {vs : Vs}, TypedAll D (.int 1) vs → ∃ r, u8s vs = some r
  | .nil, _ => ⟨_, rfl⟩
  | .cons (.num n) vs, h => by
    obtain ⟨r, e⟩ := u8s_total h.2
    exact ⟨_, by rw [u8s, e]; rfl⟩
  | .cons (.str _) _, h => by simp [TypedAll, Typed] at h
  | .cons (.con _ _) _, h => by simp [TypedAll, Typed] at h
  | .cons (.list _) _, h => by simp [TypedAll, Typed] at h

theorem option_cases {P : Nat → Prop} {i : Nat} (h : i = 0 ∨ i = 1) (h0 : P 0) (h1 : P 1) : P i := by
  rcases h with rfl | rfl
  · exact h0
  · exact h1

mutual

theorem hash_total {D : Decls} : ∀ {t : Ty} {v : V}, Typed D t v → ∃ r, hash D t v = some r
  | t, .num n, h => by
    cases t <;> simp_all [Typed, hash, hashNum]
  | t, .str s, h => by
    cases t <;> simp_all [Typed, hash]
  | t, .con i fs, h => by
    cases t with
    | unit => exact ⟨_, rfl⟩
    | box t =>
      match i, h with
      | 0, h => rw [hash]; exact hashFields_total (by simpa only [Typed] using h)
      | _ + 1, h => simp [Typed] at h
    | tuple ts =>
      match i, h with
      | 0, h => rw [hash]; exact hashFields_total (by simpa only [Typed] using h)
      | _ + 1, h => simp [Typed] at h
    | option t =>
      match i, h with
      | 0, h => exact ⟨_, rfl⟩
      | 1, h =>
        obtain ⟨r, e⟩ := hashFields_total (D := D) (ts := [t]) (vs := fs) (by simpa only [Typed] using h)
        exact ⟨_, by simp only [hash, e]; rfl⟩
      | _ + 2, h => simp [Typed] at h
    | result t e =>
      match i, h with
      | 0, h =>
        obtain ⟨r, e⟩ := hashFields_total (D := D) (ts := [e]) (vs := fs) (by simpa only [Typed] using h)
        exact ⟨_, by simp only [hash, e]; rfl⟩
      | 1, h =>
        obtain ⟨r, e⟩ := hashFields_total (D := D) (ts := [t]) (vs := fs) (by simpa only [Typed] using h)
        exact ⟨_, by simp only [hash, e]; rfl⟩
      | _ + 2, h => simp [Typed] at h
    | either t e =>
      match i, h with
      | 0, h =>
        obtain ⟨r, e⟩ := hashFields_total (D := D) (ts := [t]) (vs := fs) (by simpa only [Typed] using h)
        exact ⟨_, by simp only [hash, e]; rfl⟩
      | 1, h =>
        obtain ⟨r, e⟩ := hashFields_total (D := D) (ts := [e]) (vs := fs) (by simpa only [Typed] using h)
        exact ⟨_, by simp only [hash, e]; rfl⟩
      | _ + 2, h => simp [Typed] at h
    | data d =>
      rw [Typed] at h
      obtain ⟨ts, e, h⟩ := h
      obtain ⟨r, e'⟩ := hashFields_total h
      exact ⟨_, by rw [hash, e, Option.bind_eq_bind, Option.bind_some, e']; rfl⟩
    | _ => simp [Typed] at h
  | t, .list vs, h => by
    cases t with
    | arr t =>
      simp only [Typed] at h
      simp only [hash]
      by_cases hu : isU8 t = true
      · rw [if_pos hu]
        obtain ⟨r, e⟩ : ∃ r, u8s vs = some r := by
          cases t <;> simp [isU8] at hu
          split at hu
          · rename_i e; cases e; exact u8s_total h
          · simp at hu
        exact ⟨_, by rw [e]; rfl⟩
      · rw [if_neg hu]
        exact hashAll_total h
    | ordMap k v =>
      simp only [Typed] at h
      simp only [hash]
      exact hashAll_total h
    | _ => simp [Typed] at h

theorem hashFields_total {D : Decls} : ∀ {ts : List Ty} {vs : Vs}, TypedFields D ts vs → ∃ r, hashFields D ts vs = some r
  | [], .nil, _ => ⟨_, rfl⟩
  | [], .cons _ _, h => by simp [TypedFields] at h
  | _ :: _, .nil, h => by simp [TypedFields] at h
  | t :: ts, .cons v vs, h => by
    obtain ⟨a, ea⟩ := hash_total h.1
    obtain ⟨b, eb⟩ := hashFields_total h.2
    exact ⟨_, by rw [hashFields, ea, eb]; rfl⟩

theorem hashAll_total {D : Decls} : ∀ {t : Ty} {vs : Vs}, TypedAll D t vs → ∃ r, hashAll D t vs = some r
  | _, .nil, _ => ⟨_, rfl⟩
  | t, .cons v vs, h => by
    obtain ⟨a, ea⟩ := hash_total h.1
    obtain ⟨b, eb⟩ := hashAll_total h.2
    exact ⟨_, by rw [hashAll, ea, eb]; rfl⟩

end

mutual

theorem eq_total {D : Decls} {chibi : Bool} : ∀ {t : Ty} {v w : V}, Typed D t v → Typed D t w → ∃ b, eq D chibi t v w = some b
  | t, .num n, w, h, h' => by
    cases t <;> cases w <;> simp_all [Typed, eq, eqNum]
  | t, .str s, w, h, h' => by
    cases t <;> cases w <;> simp_all [Typed, eq]
  | t, .con i fs, w, h, h' => by
    cases w with
    | con j gs =>
      cases t with
      | unit => exact ⟨_, rfl⟩
      | box t =>
        match i, j, h, h' with
        | 0, 0, h, h' => rw [eq]; exact eqFields_total (by simpa only [Typed] using h) (by simpa only [Typed] using h')
        | _ + 1, _, h, _ => simp [Typed] at h
        | _, _ + 1, _, h => simp [Typed] at h
      | tuple ts =>
        match i, j, h, h' with
        | 0, 0, h, h' => rw [eq]; exact eqFields_total (by simpa only [Typed] using h) (by simpa only [Typed] using h')
        | _ + 1, _, h, _ => simp [Typed] at h
        | _, _ + 1, _, h => simp [Typed] at h
      | option t =>
        match i, j, h, h' with
        | 0, 0, h, h' => exact ⟨_, rfl⟩
        | 0, 1, h, h' => exact ⟨_, rfl⟩
        | 1, 0, h, h' => exact ⟨_, rfl⟩
        | 1, 1, h, h' => exact eqFields_total (ts := [t]) (by simpa only [Typed] using h) (by simpa only [Typed] using h')
        | _ + 2, _, h, _ => simp [Typed] at h
        | _, _ + 2, _, h => simp [Typed] at h
      | result t e =>
        match i, j, h, h' with
        | 0, 0, h, h' => exact eqFields_total (ts := [e]) (by simpa only [Typed] using h) (by simpa only [Typed] using h')
        | 0, 1, h, h' => exact ⟨_, rfl⟩
        | 1, 0, h, h' => exact ⟨_, rfl⟩
        | 1, 1, h, h' => exact eqFields_total (ts := [t]) (by simpa only [Typed] using h) (by simpa only [Typed] using h')
        | _ + 2, _, h, _ => simp [Typed] at h
        | _, _ + 2, _, h => simp [Typed] at h
      | either t e =>
        match i, j, h, h' with
        | 0, 0, h, h' => exact eqFields_total (ts := [t]) (by simpa only [Typed] using h) (by simpa only [Typed] using h')
        | 0, 1, h, h' => exact ⟨_, rfl⟩
        | 1, 0, h, h' => exact ⟨_, rfl⟩
        | 1, 1, h, h' => exact eqFields_total (ts := [e]) (by simpa only [Typed] using h) (by simpa only [Typed] using h')
        | _ + 2, _, h, _ => simp [Typed] at h
        | _, _ + 2, _, h => simp [Typed] at h
      | data d =>
        rw [Typed] at h h'
        obtain ⟨ts, e, h⟩ := h
        obtain ⟨ts', e', h'⟩ := h'
        rw [eq, e]
        by_cases hij : i = j
        · subst hij
          rw [e] at e'
          cases e'
          simp only [if_true]
          exact eqFields_total h h'
        · exact ⟨_, if_neg hij⟩
      | _ => simp [Typed] at h
    | _ => cases t <;> simp_all [Typed]
  | t, .list vs, w, h, h' => by
    cases w with
    | list ws =>
      cases t with
      | arr t =>
        simp only [Typed] at h h'
        rw [eq]
        by_cases hl : vs.length = ws.length
        · simp only [hl, if_true]; exact eqAll_total h h' hl
        · exact ⟨_, if_neg hl⟩
      | ordMap k v =>
        simp only [Typed] at h h'
        rw [eq]
        by_cases hl : vs.length = ws.length
        · simp only [hl, if_true]; exact eqAll_total h h' hl
        · exact ⟨_, if_neg hl⟩
      | _ => simp [Typed] at h
    | _ => cases t <;> simp_all [Typed]

theorem eqFields_total {D : Decls} {chibi : Bool} : ∀ {ts : List Ty} {vs ws : Vs}, TypedFields D ts vs → TypedFields D ts ws →
    ∃ b, eqFields D chibi ts vs ws = some b
  | [], .nil, .nil, _, _ => ⟨_, rfl⟩
  | [], .cons _ _, _, h, _ => by simp [TypedFields] at h
  | [], .nil, .cons _ _, _, h => by simp [TypedFields] at h
  | _ :: _, .nil, _, h, _ => by simp [TypedFields] at h
  | _ :: _, .cons _ _, .nil, _, h => by simp [TypedFields] at h
  | t :: ts, .cons v vs, .cons w ws, h, h' => by
    obtain ⟨a, ea⟩ := eq_total (chibi := chibi) h.1 h'.1
    obtain ⟨b, eb⟩ := eqFields_total (chibi := chibi) h.2 h'.2
    cases a with
    | true => exact ⟨b, by rw [eqFields, ea]; exact eb⟩
    | false => exact ⟨false, by rw [eqFields, ea]; rfl⟩

theorem eqAll_total {D : Decls} {chibi : Bool} : ∀ {t : Ty} {vs ws : Vs}, TypedAll D t vs → TypedAll D t ws → vs.length = ws.length →
    ∃ b, eqAll D chibi t vs ws = some b
  | _, .nil, .nil, _, _, _ => ⟨_, rfl⟩
  | _, .nil, .cons _ _, _, _, h => by simp [Vs.length] at h
  | _, .cons _ _, .nil, _, _, h => by simp [Vs.length] at h
  | t, .cons v vs, .cons w ws, h, h', hl => by
    obtain ⟨a, ea⟩ := eq_total (chibi := chibi) h.1 h'.1
    obtain ⟨b, eb⟩ := eqAll_total (chibi := chibi) h.2 h'.2 (by simpa [Vs.length] using hl)
    cases a with
    | true => exact ⟨b, by rw [eqAll, ea]; exact eb⟩
    | false => exact ⟨false, by rw [eqAll, ea]; rfl⟩

end

end Verif.Hash
