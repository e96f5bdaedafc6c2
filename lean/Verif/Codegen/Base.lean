import Verif.Codegen.Machine
import Verif.StackFrame.Props

/-!
# Situations during the execution of a function
-/
namespace Verif.Codegen
open Spec
open StackFrame.Spec (Reach ReachAny ReachVars ReachConts HasCont Apart Disjoint)
open StackFrame (slot)
open Verif (HMap)

/-- Memory, allocations and calls are those of the meaning. -/
structure Sync (s : S) (m : M) : Prop where
  brk : m.brk = s.brk
  out : m.out = s.out
  mem : ∀ a, 0 ≤ a → m.mem a = s.heap a
  pos : 0 ≤ s.brk

/-- A frame: what is fixed in the function, where it is, and how many eightbytes are reserved for variables. -/
structure Fr where
  cx : Cx
  B : Int
  R : Nat

/-- The frame is aligned and on the stack. -/
structure Fr.OK (F : Fr) : Prop where
  al : F.B % 16 = 0
  neg : F.B ≤ 0

/-- Addresses that the code of an expression does not write, as far as they are above the stack pointer: those outside of the variables of the
function, and the variables in use. -/
def Safe (F : Fr) (G : List (Int × Nat)) (a : Int) : Prop :=
  a < F.B - 8 * (F.R : Int) ∨ F.B ≤ a ∨ ∃ r ∈ G, F.B + r.1 ≤ a ∧ a < F.B + r.1 + 8 * (r.2 : Int)

/-- They are not written. -/
def Kept (F : Fr) (G : List (Int × Nat)) (lo : Int) (m m' : M) : Prop := ∀ a, lo ≤ a → a < 0 → Safe F G a → m'.mem a = m.mem a

/-- Some steps from `m` to `m'` that respect the frame. -/
structure Go (w : World) (C : Code) (F : Fr) (G : List (Int × Nat)) (lo : Int) (s' : S) (m m' : M) : Prop where
  steps : Steps w C m m'
  sync : Sync s' m'
  rbp : m'.r .rbp = F.B
  kept : Kept F G lo m m'

variable {w : World} {C : Code} {F : Fr} {G : List (Int × Nat)}

theorem Sync.keep {s m m' r0} (h : Sync s m) (k : Keep r0 m m') (hr : r0 ≤ 0) : Sync s m' :=
  ⟨k.brk.trans h.brk, k.out.trans h.out, fun a ha => (k.mem a (by omega)).trans (h.mem a ha), h.pos⟩

theorem Go.refl {lo s m} (h : Sync s m) (hb : m.r .rbp = F.B) : Go w C F G lo s m m := ⟨.refl, h, hb, fun _ _ _ _ => rfl⟩

theorem Go.trans {lo lo1 s1 s2 m m1 m2} (h : Go w C F G lo s1 m m1) (h' : Go w C F G lo1 s2 m1 m2) (hl : lo1 ≤ lo) : Go w C F G lo s2 m m2 :=
  ⟨h.steps.trans h'.steps, h'.sync, h'.rbp, fun a h1 h2 h3 => (h'.kept a (by omega) h2 h3).trans (h.kept a h1 h2 h3)⟩

theorem Go.lo {lo lo1 s1 m m1} (h : Go w C F G lo1 s1 m m1) (hl : lo1 ≤ lo) : Go w C F G lo s1 m m1 :=
  ⟨h.steps, h.sync, h.rbp, fun a h1 => h.kept a (by omega)⟩

theorem Go.sub {lo s1 m m1 G'} (h : Go w C F G' lo s1 m m1) (hg : ∀ r ∈ G, r ∈ G') : Go w C F G lo s1 m m1 := by
  refine ⟨h.steps, h.sync, h.rbp, fun a h1 h2 h3 => h.kept a h1 h2 ?_⟩
  rcases h3 with h3 | h3 | ⟨r, hr, h3⟩
  · exact .inl h3
  · exact .inr (.inl h3)
  · exact .inr (.inr ⟨r, hg r hr, h3⟩)

theorem Go.keep {lo r0 s1 m m1 m2} (h : Go w C F G lo s1 m m1) (st : Steps w C m1 m2) (k : Keep r0 m1 m2) (hr : r0 ≤ lo) (h0 : r0 ≤ 0) : Go w C F G lo s1 m m2 :=
  ⟨h.steps.trans st, h.sync.keep k h0, k.rbp.trans h.rbp, fun a h1 h2 h3 => (k.mem a (by omega)).trans (h.kept a h1 h2 h3)⟩

/-- Steps that change registers only. -/
theorem Go.regs {lo s1 m m1 m2} (h : Go w C F G lo s1 m m1) (st : Steps w C m1 m2) (hm : m2.mem = m1.mem) (hb : m2.r .rbp = m1.r .rbp) (hk : m2.brk = m1.brk)
    (ho : m2.out = m1.out) : Go w C F G lo s1 m m2 :=
  ⟨h.steps.trans st, ⟨hk.trans h.sync.brk, ho.trans h.sync.out, fun a ha => by rw [hm]; exact h.sync.mem a ha, h.sync.pos⟩, hb.trans h.rbp,
    fun a h1 h2 h3 => by rw [hm]; exact h.kept a h1 h2 h3⟩

/-- Writing a value to the stack where nothing is safe from `lo` on. -/
theorem Go.stack {lo s1 m m1 m2 p v} (h : Go w C F G lo s1 m m1) (st : Steps w C m1 m2) (hm : m2.mem = write m1.mem p v) (hb : m2.r .rbp = m1.r .rbp) (hk : m2.brk = m1.brk)
    (ho : m2.out = m1.out) (hp : p + 8 * (v.length : Int) ≤ 0) (hs : ∀ a, lo ≤ a → p ≤ a → a < p + 8 * (v.length : Int) → Safe F G a → False) : Go w C F G lo s1 m m2 := by
  refine ⟨h.steps.trans st, ⟨hk.trans h.sync.brk, ho.trans h.sync.out, fun a ha => ?_, h.sync.pos⟩, hb.trans h.rbp, fun a h1 h2 h3 => ?_⟩
  · rw [hm, write_out (by omega)]; exact h.sync.mem a ha
  · have : a < p ∨ p + 8 * (v.length : Int) ≤ a := by
      by_cases h4 : p ≤ a
      · by_cases h5 : a < p + 8 * (v.length : Int)
        · exact (hs a h1 h4 h5 h3).elim
        · omega
      · omega
    rw [hm, write_out this]; exact h.kept a h1 h2 h3

/-- Writing a value to the heap. -/
theorem Go.heap {lo s1 m m1 m2 p v} (h : Go w C F G lo s1 m m1) (st : Steps w C m1 m2) (hm : m2.mem = write m1.mem p v) (hb : m2.r .rbp = m1.r .rbp) (hk : m2.brk = m1.brk)
    (ho : m2.out = m1.out) (hp : 0 ≤ p) : Go w C F G lo { s1 with heap := write s1.heap p v } m m2 := by
  refine ⟨h.steps.trans st, ⟨hk.trans h.sync.brk, ho.trans h.sync.out, fun a ha => ?_, h.sync.pos⟩, hb.trans h.rbp, fun a h1 h2 h3 => ?_⟩
  · rw [hm]; exact write_congr (h.sync.mem a ha)
  · rw [hm, write_out (by omega)]; exact h.kept a h1 h2 h3

/-- The values of variables are in their slots. -/
def EnvOK (F : Fr) (G : List (Int × Nat)) (ρ : Vals) (m : M) : Prop :=
  ∀ x, ρ x ≠ [] → ∃ o, HMap.get F.cx.off x = some o ∧ (o, (ρ x).length) ∈ G ∧ Spec.read m.mem (F.B + o) (ρ x).length = ρ x

/-- The slots in use are on the stack. -/
def GOK (F : Fr) (G : List (Int × Nat)) : Prop := ∀ r ∈ G, -8 * (F.R : Int) ≤ r.1 ∧ F.B + r.1 + 8 * (r.2 : Int) ≤ 0

/-- What holds where the code of an expression starts; `d` is the depth. -/
structure Sit (F : Fr) (G : List (Int × Nat)) (ρ : Vals) (s : S) (m : M) (d : Nat) : Prop where
  rbp : m.r .rbp = F.B
  rsp : m.r .rsp = F.B - 8 * (d : Int)
  dep : F.R ≤ d
  sync : Sync s m
  env : EnvOK F G ρ m
  gok : GOK F G

theorem EnvOK.go {ρ lo m m'} (h : EnvOK F G ρ m) (g : GOK F G) (k : Kept F G lo m m') (hl : lo ≤ F.B - 8 * (F.R : Int)) : EnvOK F G ρ m' := by
  intro x hx
  obtain ⟨o, h1, h2, h3⟩ := h x hx
  refine ⟨o, h1, h2, ?_⟩
  obtain ⟨g1, g2⟩ := g _ h2
  simp only at g1 g2
  exact (read_congr fun a ha hb => k a (by omega) (by omega) (.inr (.inr ⟨_, h2, ha, hb⟩))).trans h3

theorem Sit.next {ρ s s1 m m1} {d d1 : Nat} {lo : Int} (h : Sit F G ρ s m d) (g : Go w C F G lo s1 m m1) (hl : lo ≤ F.B - 8 * (F.R : Int)) (hr : m1.r .rsp = F.B - 8 * (d1 : Int))
    (hd : F.R ≤ d1) : Sit F G ρ s1 m1 d1 :=
  ⟨g.rbp, hr, hd, g.sync, h.env.go h.gok g.kept hl, h.gok⟩

/-- Ranges within the area of variables, disjoint from each other and from those in use. -/
structure Fits (F : Fr) (G Y : List (Int × Nat)) : Prop where
  disj : Disjoint (G ++ Y)
  lo : ∀ r ∈ Y, -8 * (F.R : Int) ≤ r.1
  hi : ∀ r ∈ Y, r.1 + 8 * (r.2 : Int) ≤ 0

/-- There is room for the variables of an expression (`Q` are the sets of them that are needed at a time), and, if it jumps, also for the
parameters of continuations. -/
structure Room (F : Fr) (L : LConts) (K : Scope) (G : List (Int × Nat)) (Q : List Binder → Prop) (nj : Bool) : Prop where
  fits : ∀ X, Q X → Fits F G (X.map (slot F.cx.off))
  conts : nj = false → ∀ c ∈ K, ∀ l ps d, L c = some (l, ps, d) → ∀ X, Q X → Fits F G (ps.map (slot F.cx.off) ++ X.map (slot F.cx.off))

theorem Room.sub {L K Q Q' nj nj'} (h : Room F L K G Q nj) (hq : ∀ X, Q' X → Q X) (hn : nj' = false → nj = false) : Room F L K G Q' nj' :=
  ⟨fun X hX => h.fits X (hq X hX), fun hj c hc l ps d hl X hX => h.conts (hn hj) c hc l ps d hl X (hq X hX)⟩

/-- The parameters have their values. -/
def Stored (F : Fr) (m : M) : List Binder → List (List Int) → Prop
  | p :: ps, v :: vs => v.length = p.2 ∧ (v ≠ [] → ∃ o, HMap.get F.cx.off p.1 = some o ∧ Spec.read m.mem (F.B + o) v.length = v) ∧ Stored F m ps vs
  | [], [] => True
  | _, _ => False

/-- A `return` or a jump: where control is then. -/
def Esc (C : Code) (F : Fr) (L : LConts) (K : Scope) : Res → M → Prop
  | .val _, _ => False
  | .ret v, m => m.pc = find C (.label F.cx.epi) ∧ ∃ r0, r0 ≤ F.B ∧ Held m r0 v
  | .jump c vs, m => c ∈ K ∧ ∃ l ps d, L c = some (l, ps, d) ∧ m.pc = find C (.label l) ∧ m.r .rsp = F.B - 8 * (d : Int) ∧ Stored F m ps vs

/-- What holds at the end of an expression. -/
def Post (C : Code) (F : Fr) (L : LConts) (K : Scope) (lo : Int) (pc : Int) (l : Option Nat) : Res → M → Prop
  | .val v, m => l = some v.length ∧ m.pc = pc ∧ Held m lo v
  | r, m => Esc C F L K r m

end Verif.Codegen
