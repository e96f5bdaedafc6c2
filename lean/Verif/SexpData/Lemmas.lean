import Verif.SexpData.Model

/-!
# The cells of an S-expression, as a function
-/

namespace Verif.SexpData

variable {L F U : Type}

mutual
/-- The cells of an S-expression. -/
def toCells : Host L F U → Cell L F U
  | .integer l s v => .integer l s v
  | .fpNumber l f => .fpNumber l f
  | .symbol l s => .symbol l s
  | .string l s => .string l s
  | .char l c => .char l c
  | .list l ss => chain l ss (.nil l)
  | .listLike l h i t => .cons l (toCells h) (chain l i (toCells t))
  | .bool l b => .bool l b
  | .use l u => .use l u
  | .native l => .nil l

/-- The cells of the elements of a list, before others. -/
def chain (l : L) : List (Host L F U) → Cell L F U → Cell L F U
  | [], c => c
  | s :: ss, c => .cons l (toCells s) (chain l ss c)
end

theorem okAll_iff {ss : List (Host L F U)} : Host.OkAll ss ↔ ∀ s ∈ ss, s.Ok := by
  induction ss with
  | nil => simp [Host.OkAll]
  | cons s ss ih => simp [Host.OkAll, ih]

/-- An S-expression becomes these cells, with enough fuel. -/
def Gives (s : Host L F U) (c : Cell L F U) : Prop := ∃ n0, ∀ n, n0 ≤ n → fromHost n s = some c

theorem gives_one {s : Host L F U} {c : Cell L F U} (h : ∀ n, fromHost (n + 1) s = some c) :
    Gives s c := by
  refine ⟨1, fun n hn => ?_⟩
  obtain ⟨n, rfl⟩ : ∃ m, n = m + 1 := ⟨n - 1, by omega⟩
  exact h n

theorem gives_cons {s x y : Host L F U} {l : L} {a d : Cell L F U}
    (hu : unpack s = some (l, .cons x y)) (hx : Gives x a) (hy : Gives y d) :
    Gives s (.cons l a d) := by
  obtain ⟨n1, hx⟩ := hx
  obtain ⟨n2, hy⟩ := hy
  refine ⟨n1 + n2 + 1, fun n hn => ?_⟩
  obtain ⟨n, rfl⟩ : ∃ m, n = m + 1 := ⟨n - 1, by omega⟩
  simp [fromHost, hu, hx n (by omega), hy n (by omega)]

theorem gives_list (l : L) (ss : List (Host L F U)) (h : ∀ s ∈ ss, Gives s (toCells s)) :
    Gives (.list l ss) (chain l ss (.nil l)) := by
  induction ss with
  | nil => exact gives_one fun _ => rfl
  | cons s ss ih =>
    rw [chain]
    exact gives_cons rfl (h s (by simp)) (ih fun s hs => h s (by simp [hs]))

theorem gives_listLike (l : L) (hd : Host L F U) (i : List (Host L F U)) (t : Host L F U)
    (hh : Gives hd (toCells hd)) (hi : ∀ s ∈ i, Gives s (toCells s)) (ht : Gives t (toCells t)) :
    Gives (.listLike l hd i t) (.cons l (toCells hd) (chain l i (toCells t))) := by
  induction i generalizing hd with
  | nil =>
    rw [chain]
    exact gives_cons rfl hh ht
  | cons s ss ih =>
    rw [chain]
    exact gives_cons rfl hh (ih s (hi s (by simp)) fun s hs => hi s (by simp [hs]))

mutual
/-- Without foreign native values, S-expressions become cells. -/
theorem gives_toCells (s : Host L F U) (h : s.Ok) : Gives s (toCells s) := by
  match s with
  | .integer .. => exact gives_one fun _ => by simp [fromHost, unpack, toCells]
  | .fpNumber .. => exact gives_one fun _ => by simp [fromHost, unpack, toCells]
  | .symbol .. => exact gives_one fun _ => by simp [fromHost, unpack, toCells]
  | .string .. => exact gives_one fun _ => by simp [fromHost, unpack, toCells]
  | .char .. => exact gives_one fun _ => by simp [fromHost, unpack, toCells]
  | .bool .. => exact gives_one fun _ => by simp [fromHost, unpack, toCells]
  | .use .. => exact gives_one fun _ => by simp [fromHost, unpack, toCells]
  | .native _ => simp [Host.Ok] at h
  | .list l ss =>
    rw [toCells]
    exact gives_list l ss (gives_all ss (by simpa [Host.Ok] using h))
  | .listLike l hd i t =>
    simp only [Host.Ok] at h
    rw [toCells]
    exact gives_listLike l hd i t (gives_toCells hd h.1) (gives_all i h.2.1)
      (gives_toCells t h.2.2.1)

theorem gives_all (ss : List (Host L F U)) (h : Host.OkAll ss) :
    ∀ s ∈ ss, Gives s (toCells s) := by
  match ss with
  | [] => simp
  | s :: ss =>
    simp only [Host.OkAll] at h
    have h1 := gives_toCells s h.1
    have h2 := gives_all ss h.2
    intro x hx
    rcases List.mem_cons.1 hx with rfl | hx
    · exact h1
    · exact h2 x hx
end

/-! ## Back again -/

theorem into_list (l : L) (ss : List (Host L F U)) (h : ∀ s ∈ ss, intoHost (toCells s) = s) :
    intoHost (chain l ss (.nil l)) = .list l ss := by
  induction ss with
  | nil => simp [chain, intoHost, pack]
  | cons s ss ih =>
    rw [chain, intoHost, h s (by simp), ih fun s hs => h s (by simp [hs])]
    rfl

theorem hostCons_atom (l : L) (x y : Host L F U) (h : y.isList = false) :
    hostCons l x y = .listLike l x [] y := by
  cases y <;> simp_all [hostCons, hostListLike, Host.isList]

theorem into_listLike (l : L) (hd : Host L F U) (i : List (Host L F U)) (t : Host L F U)
    (hh : intoHost (toCells hd) = hd) (hi : ∀ s ∈ i, intoHost (toCells s) = s)
    (ht : intoHost (toCells t) = t) (hl : t.isList = false) :
    intoHost (.cons l (toCells hd) (chain l i (toCells t))) = .listLike l hd i t := by
  induction i generalizing hd with
  | nil =>
    rw [chain, intoHost, hh, ht]
    exact hostCons_atom l hd t hl
  | cons s ss ih =>
    rw [chain, intoHost, hh, ih s (hi s (by simp)) fun s hs => hi s (by simp [hs])]
    rfl

mutual
theorem into_toCells (s : Host L F U) (h : s.Ok) : intoHost (toCells s) = s := by
  match s with
  | .integer .. => simp [toCells, intoHost, pack]
  | .fpNumber .. => simp [toCells, intoHost, pack]
  | .symbol .. => simp [toCells, intoHost, pack]
  | .string .. => simp [toCells, intoHost, pack]
  | .char .. => simp [toCells, intoHost, pack]
  | .bool .. => simp [toCells, intoHost, pack]
  | .use .. => simp [toCells, intoHost, pack]
  | .native _ => simp [Host.Ok] at h
  | .list l ss =>
    rw [toCells]
    exact into_list l ss (into_all ss (by simpa [Host.Ok] using h))
  | .listLike l hd i t =>
    simp only [Host.Ok] at h
    rw [toCells]
    exact into_listLike l hd i t (into_toCells hd h.1) (into_all i h.2.1)
      (into_toCells t h.2.2.1) h.2.2.2

theorem into_all (ss : List (Host L F U)) (h : Host.OkAll ss) :
    ∀ s ∈ ss, intoHost (toCells s) = s := by
  match ss with
  | [] => simp
  | s :: ss =>
    simp only [Host.OkAll] at h
    have h1 := into_toCells s h.1
    have h2 := into_all ss h.2
    intro x hx
    rcases List.mem_cons.1 hx with rfl | hx
    · exact h1
    · exact h2 x hx
end

/-! ## The cells are the S-expression -/

theorem elements_chain (l : L) (ss : List (Host L F U)) (c : Cell L F U) :
    (chain l ss c).elements = ss.map toCells ++ c.elements := by
  induction ss with
  | nil => simp [chain]
  | cons s ss ih => simp [chain, Cell.elements, ih]

theorem last_chain (l : L) (ss : List (Host L F U)) (c : Cell L F U) :
    (chain l ss c).last = c.last := by
  induction ss with
  | nil => simp [chain]
  | cons s ss ih => simp [chain, Cell.last, ih]

theorem locs_chain (l : L) (ss : List (Host L F U)) (c : Cell L F U) (h : ∀ m ∈ c.locs, m = l) :
    ∀ m ∈ (chain l ss c).locs, m = l := by
  induction ss with
  | nil => simpa [chain] using h
  | cons s ss ih => simpa [chain, Cell.locs] using ih

theorem atom_toCells (t : Host L F U) (h : t.isList = false) :
    (toCells t).elements = [] ∧ (toCells t).last = toCells t ∧ (toCells t).locs = [] := by
  cases t <;> simp_all [toCells, Cell.elements, Cell.last, Cell.locs, Host.isList]

theorem same_zip (ss : List (Host L F U)) (h : ∀ s ∈ ss, Same s (toCells s)) :
    ∀ p ∈ ss.zip (ss.map toCells), Same p.1 p.2 := by
  induction ss with
  | nil => simp
  | cons s ss ih =>
    intro p hp
    rw [List.map_cons, List.zip_cons_cons] at hp
    rcases List.mem_cons.1 hp with rfl | hp
    · exact h s (by simp)
    · exact ih (fun s hs => h s (by simp [hs])) p hp

mutual
theorem same_toCells (s : Host L F U) (h : s.Ok) : Same s (toCells s) := by
  match s with
  | .integer .. => rw [toCells]; exact .integer
  | .fpNumber .. => rw [toCells]; exact .fpNumber
  | .symbol .. => rw [toCells]; exact .symbol
  | .string .. => rw [toCells]; exact .string
  | .char .. => rw [toCells]; exact .char
  | .bool .. => rw [toCells]; exact .bool
  | .use .. => rw [toCells]; exact .use
  | .native _ => simp [Host.Ok] at h
  | .list l ss =>
    have ih := same_all ss (by simpa [Host.Ok] using h)
    rw [toCells]
    have he : (chain l ss (.nil l)).elements = ss.map toCells := by
      simp [elements_chain, Cell.elements]
    refine .list (by simp [he]) ?_ (by simp [last_chain, Cell.last]) ?_
    · rw [he]
      exact same_zip ss ih
    · exact locs_chain l ss _ (by simp [Cell.locs])
  | .listLike l hd i t =>
    simp only [Host.Ok] at h
    have ih := same_all i h.2.1
    have ihh := same_toCells hd h.1
    have iht := same_toCells t h.2.2.1
    obtain ⟨h1, h2, h3⟩ := atom_toCells t h.2.2.2
    rw [toCells]
    have he : (Cell.cons l (toCells hd) (chain l i (toCells t))).elements =
        (hd :: i).map toCells := by
      simp [elements_chain, Cell.elements, h1]
    refine .listLike (by simp [he]) ?_ ?_ ?_
    · rw [he]
      refine same_zip (hd :: i) fun s hs => ?_
      rcases List.mem_cons.1 hs with rfl | hs
      · exact ihh
      · exact ih s hs
    · rw [Cell.last, last_chain, h2]
      exact iht
    · intro m hm
      rcases List.mem_cons.1 hm with rfl | hm
      · rfl
      · exact locs_chain l i _ (by simp [h3]) m hm

theorem same_all (ss : List (Host L F U)) (h : Host.OkAll ss) : ∀ s ∈ ss, Same s (toCells s) := by
  match ss with
  | [] => simp
  | s :: ss =>
    simp only [Host.OkAll] at h
    have h1 := same_toCells s h.1
    have h2 := same_all ss h.2
    intro x hx
    rcases List.mem_cons.1 hx with rfl | hx
    · exact h1
    · exact h2 x hx
end

/-! ## Cells that a macro made -/

/-- Another location for a list. -/
def setLoc : Option L → Host L F U → Host L F U
  | some l, .list _ ss => .list l ss
  | some l, .listLike _ h i t => .listLike l h i t
  | _, s => s

theorem toCells_hostCons (l : L) (x y : Host L F U) :
    toCells (hostCons l x y) = .cons l (toCells x) (toCells (setLoc (some l) y)) := by
  cases y <;> simp [hostCons, hostListLike, setLoc, toCells, chain]

theorem setLoc_hostCons (o : Option L) (l : L) (x y : Host L F U) :
    setLoc o (hostCons l x y) = hostCons (o.getD l) x y := by
  cases o <;> cases y <;> simp [hostCons, hostListLike, setLoc]

theorem toCells_into (c : Cell L F U) (o : Option L) :
    toCells (setLoc o (intoHost c)) = c.relocated o := by
  induction c generalizing o with
  | cons l a d iha ihd =>
    rw [intoHost, pack, setLoc_hostCons, toCells_hostCons, Cell.relocated, ← ihd, ← iha]
    rfl
  | nil l => cases o <;> simp [intoHost, pack, setLoc, toCells, chain, Cell.relocated]
  | _ => cases o <;> simp [intoHost, pack, setLoc, toCells, Cell.relocated]

theorem ok_hostCons (l : L) (x y : Host L F U) (hx : x.Ok) (hy : y.Ok) : (hostCons l x y).Ok := by
  cases y with
  | list m ss =>
    simp only [hostCons, Host.Ok, Host.OkAll]
    exact ⟨hx, by simpa [Host.Ok] using hy⟩
  | listLike m h i t =>
    simp only [Host.Ok] at hy
    simp only [hostCons, Host.Ok, Host.OkAll]
    exact ⟨hx, ⟨hy.1, hy.2.1⟩, hy.2.2⟩
  | native => simp [Host.Ok] at hy
  | _ => simpa [hostCons, hostListLike, Host.Ok, Host.OkAll, Host.isList] using hx

theorem ok_into (c : Cell L F U) : (intoHost c).Ok := by
  induction c with
  | cons l a d iha ihd => exact ok_hostCons l _ _ iha ihd
  | nil l => simp [intoHost, pack, Host.Ok, Host.OkAll]
  | _ => simp [intoHost, pack, Host.Ok]

end Verif.SexpData
