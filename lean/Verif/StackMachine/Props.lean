import Verif.StackMachine.Moves
/-!
# C54: values keep their bytes while the generated code moves them
-/
namespace Verif.StackMachine

open Verif.MemLayout Spec

theorem regular_sizes {l : Layout} (h : Regular l) : (l.cls = .memory ↔ 16 < l.size) ∧ (l.cls = .void ↔ l.size = 0) := by
  obtain ⟨-, -, -, hv, hm, -⟩ := Wf.parts h.wf
  exact ⟨⟨h.cls, hm⟩, hv⟩

/-- The part of a value at an offset. -/
theorem elem_spec {a l : Layout} {es cs i o} (ha : Regular a) (hl : Regular l) (hc : a.composite = some (es, cs)) (hi : es[i]? = some (o, l))
    (hregs : o = 0 → a.numEightbytes = l.numEightbytes → ∀ as g f bs g' f', build a gps fps = some (as, g, f) →
      build l gps fps = some (bs, g', f') → as.map (·.reg) = bs.map (·.reg))
    {s : St} {v : Val} (hv : Held a s v) :
    ∃ c s', elemCode a i = some (c, l) ∧ exec c.1 s = some s' ∧ Held l s' (trunc (fun k => v (o + k)) l.size) ∧
      s'.rsp = s.rsp + a.sizeInStack true - l.sizeInStack true ∧ s'.rsp = s.rsp - 8 * c.2 ∧
      (∀ x, s.rsp + a.sizeInStack true ≤ x → s'.mem x = s.mem x) ∧ s'.rbp = s.rbp := by
  have hin : o + l.size ≤ a.size := ((Wf.parts ha.wf).2.2.2.2.2 es cs hc).1.inside (o, l) (List.mem_of_getElem? hi)
  have hna := num_mul a
  have hnl := num_mul l
  unfold elemCode
  simp only [hc, hi]
  by_cases hcode : o ≠ 0 ∨ a.numEightbytes > l.numEightbytes
  · rw [if_pos hcode]
    obtain ⟨s1, he1, hst1, hr1, hd1, hm1, hb1⟩ := push_spec (Regular.shape ha) hv
    obtain ⟨s2, he2, hd2, hr2, hb2, hv2, hm2⟩ := slide_spec o ((a.numEightbytes - l.numEightbytes) * 8) l s1
    obtain ⟨he3, hd3⟩ := shrink_spec (Layout.memory ((a.numEightbytes - l.numEightbytes) * 8) 8) s2
    rw [num_memory] at he3 hd3
    have hst3 : OnStack l { s2 with rsp := s2.rsp + ((a.numEightbytes - l.numEightbytes : Nat) : Int) * 8 } (trunc (fun k => v (o + k)) l.size) := by
      intro j hj b hvj
      simp only [trunc, hj, if_true] at hvj
      have h1 := hst1 (o + j) (by omega) b hvj
      have h2 := hv2 j hj
      rw [← h1, show s1.rsp + ((o + j : Nat) : Int) = s1.rsp + o + j by omega, ← h2]
      simp only [hr2]
      congr 1
    obtain ⟨s4, he4, hh4, hr4, hd4, hm4, hb4⟩ := pop_spec (Regular.shape hl) hst3
    refine ⟨_, s4, rfl, ?_, hh4, ?_, ?_, ?_, ?_⟩
    · simp only [Code.flat, Code.cat, List.append_nil]
      exact exec_append_some he1 (exec_append_some he2 (exec_append_some he3 he4))
    · rw [hr4]
      simp only [hr2, hr1]
      omega
    · simp only [Code.flat, Code.cat, hd2, hd3]
      rw [hd4]
      simp only [hr2, hd1]
      omega
    · intro x hx
      rw [hm4]
      simp only []
      rw [hm2 x (by rw [hr1]; omega)]
      apply hm1
      omega
    · rw [hb4]
      simp only [hb2, hb1]
  · rw [if_neg hcode]
    have ho : o = 0 := by omega
    subst ho
    have hnum : a.numEightbytes = l.numEightbytes := by omega
    have hr := hregs rfl hnum
    obtain ⟨hma, hva⟩ := regular_sizes ha
    obtain ⟨hml, hvl⟩ := regular_sizes hl
    have hsz : a.sizeInStack true = l.sizeInStack true := by
      unfold Layout.sizeInStack
      rw [hnum]
      have : (a.cls ≠ .memory ↔ l.cls ≠ .memory) := by rw [Ne, Ne, hma, hml]; omega
      simp [this]
    refine ⟨_, s, rfl, rfl, ⟨?_, ?_⟩, by omega, by simp, fun _ _ => rfl, rfl⟩
    · intro hm j hj b hvj
      simp only [trunc, hj, if_true] at hvj
      exact hv.1 (by have := hml.1 hm; rw [hma]; omega) j (by omega) b (by rw [Nat.zero_add] at hvj; exact hvj)
    · intro bs g' f' hb' x hx j hj b hvj
      have hsl := (Regular.shape hl)
      have hsa := (Regular.shape ha)
      have hlt : x.offset + j < l.size := by
        unfold trunc at hvj
        split at hvj
        · assumption
        · cases hvj
      have hvj' : v (x.offset + j) = some b := by
        simp only [trunc, hlt, if_true, Nat.zero_add] at hvj
        exact hvj
      cases hsl with
      | void h0 hc => omega
      | mem hc => rw [build_none (.inr hc)] at hb'; cases hb'
      | one r g f hb h0 h8 hr' hc =>
        rw [hb] at hb'
        cases hb'
        rw [List.mem_singleton] at hx
        subst hx
        cases hsa with
        | void h0 hc => omega
        | mem hc => rw [hma] at hc; rw [num_one h0 h8] at hnum; omega
        | one r2 g2 f2 hb2 h02 h82 hr2 hc2 =>
          have := hr _ _ _ _ _ _ hb2 hb
          simp only [List.map_cons, List.map_nil, List.cons.injEq, and_true] at this
          subst this
          exact (held_one hb2 hc2).1 hv j (by simp only at hj; omega) b (by simpa using hvj')
        | two r1 r2 g2 f2 hb2 h02 h16 _ _ _ _ => rw [num_two h02 h16, num_one h0 h8] at hnum; omega
      | two r1 r2 g f hb h0 h16 _ _ _ hc =>
        rw [hb] at hb'
        cases hb'
        cases hsa with
        | void h0 hc => omega
        | mem hc => rw [hma] at hc; rw [num_two h0 h16] at hnum; omega
        | one r2 g2 f2 hb2 h02 h82 hr2 hc2 => omega
        | two q1 q2 g2 f2 hb2 h02 h162 _ _ _ hc2 =>
          have := hr _ _ _ _ _ _ hb2 hb
          simp only [List.map_cons, List.map_nil, List.cons.injEq, and_true] at this
          obtain ⟨rfl, rfl⟩ := this
          obtain ⟨k1, k2⟩ := (held_two hb2 hc2).1 hv
          simp only [List.mem_cons, List.not_mem_nil, or_false] at hx
          rcases hx with hx | hx <;> subst hx
          · exact k1 j hj b (by simpa using hvj')
          · exact k2 j (by simp only at hj; omega) b hvj'

/-- A value seen as another type: the first bytes. -/
theorem reint_spec {a l : Layout} (ha : Regular a) (hl : Regular l) {s : St} {v : Val} (hv : Held a s v) :
    ∃ s', exec (reintCode a l).1 s = some s' ∧ Held l s' (trunc (trunc v a.size) l.size) ∧
      s'.rsp = s.rsp + a.sizeInStack true - l.sizeInStack true ∧ s'.rsp = s.rsp - 8 * (reintCode a l).2 ∧
      (∀ x, s.rsp + a.sizeInStack true ≤ x → s'.mem x = s.mem x) ∧ s'.rbp = s.rbp := by
  have hna := num_mul a
  have hnl := num_mul l
  obtain ⟨s1, he1, hst1, hr1, hd1, hm1, hb1⟩ := push_spec (Regular.shape ha) hv
  unfold reintCode
  split
  · next hlt =>
    obtain ⟨he2, hd2⟩ := extend_spec (Layout.memory ((l.numEightbytes - a.numEightbytes) * 8) 8) s1
    rw [num_memory] at he2 hd2
    obtain ⟨s3, he3, hd3, hr3, hb3, hv3, hm3⟩ := slide_spec ((l.numEightbytes - a.numEightbytes) * 8) 0 a
      { s1 with rsp := s1.rsp - ((l.numEightbytes - a.numEightbytes : Nat) : Int) * 8 }
    have hst3 : OnStack l s3 (trunc (trunc v a.size) l.size) := by
      intro j hj b hvj
      simp only [trunc, hj, if_true] at hvj
      split at hvj
      · next hja =>
        have h1 := hst1 j hja b hvj
        have h2 := hv3 j hja
        simp only at h2 hr3
        rw [hr3, ← h1]
        rw [show s1.rsp - ((l.numEightbytes - a.numEightbytes : Nat) : Int) * 8 + ((0 : Nat) : Int) + (j : Int) =
          s1.rsp - ((l.numEightbytes - a.numEightbytes : Nat) : Int) * 8 + (j : Int) by omega] at h2
        rw [h2]
        congr 1
        omega
      · cases hvj
    obtain ⟨s4, he4, hh4, hr4, hd4, hm4, hb4⟩ := pop_spec (Regular.shape hl) hst3
    simp only at hr3 hm3 hb3
    refine ⟨s4, ?_, hh4, ?_, ?_, ?_, by rw [hb4, hb3, hb1]⟩
    · simp only [Code.flat, Code.cat, List.append_nil]
      exact exec_append_some he1 (exec_append_some he2 (exec_append_some he3 he4))
    · rw [hr4, hr3, hr1]
      omega
    · simp only [Code.flat, Code.cat, hd2, hd3]
      rw [hd4, hr3, hd1]
      omega
    · intro x hx
      rw [hm4, hm3 x (by rw [hr1]; omega)]
      apply hm1
      omega
  · next hge =>
    obtain ⟨s2, he2, hd2, hr2, hb2, hv2, hm2⟩ := slide_spec 0 ((a.numEightbytes - l.numEightbytes) * 8) l s1
    obtain ⟨he3, hd3⟩ := shrink_spec (Layout.memory ((a.numEightbytes - l.numEightbytes) * 8) 8) s2
    rw [num_memory] at he3 hd3
    have hst3 : OnStack l { s2 with rsp := s2.rsp + ((a.numEightbytes - l.numEightbytes : Nat) : Int) * 8 } (trunc (trunc v a.size) l.size) := by
      intro j hj b hvj
      simp only [trunc, hj, if_true] at hvj
      split at hvj
      · next hja =>
        have h1 := hst1 j hja b hvj
        have h2 := hv2 j hj
        rw [← h1, show s1.rsp + (j : Int) = s1.rsp + ((0 : Nat) : Int) + j by omega, ← h2]
        simp only [hr2]
        congr 1
      · cases hvj
    obtain ⟨s4, he4, hh4, hr4, hd4, hm4, hb4⟩ := pop_spec (Regular.shape hl) hst3
    refine ⟨s4, ?_, hh4, ?_, ?_, ?_, ?_⟩
    · simp only [Code.flat, Code.cat, List.append_nil]
      exact exec_append_some he1 (exec_append_some he2 (exec_append_some he3 he4))
    · rw [hr4]
      simp only [hr2, hr1]
      omega
    · simp only [Code.flat, Code.cat, hd2, hd3]
      rw [hd4]
      simp only [hr2, hd1]
      omega
    · intro x hx
      rw [hm4]
      simp only []
      rw [hm2 x (by rw [hr1]; omega)]
      apply hm1
      omega
    · rw [hb4]
      simp only [hb2, hb1]

theorem discard_spec (l : Layout) (s : St) :
    exec (discard l).1 s = some { s with rsp := s.rsp + l.sizeInStack true } ∧ 8 * (discard l).2 = -(l.sizeInStack true : Int) := by
  unfold discard
  split
  · next hc =>
    obtain ⟨h1, h2⟩ := shrink_spec l s
    rw [sizeInStack_mem hc, h1, h2]
    refine ⟨by simp, by omega⟩
  · next hc =>
    rw [sizeInStack_reg hc]
    simp [exec]

theorem held_trunc {l : Layout} (hl : Shape l) {s : St} {v : Val} (h : Held l s v) : Held l.inStack s (trunc v l.size) := by
  have htr : ∀ {i b}, trunc v l.size i = some b → i < l.size ∧ v i = some b := by
    intro i b hv
    unfold trunc at hv
    split at hv
    · exact ⟨by assumption, hv⟩
    · cases hv
  have hbi := build_inStack l gps fps
  constructor
  · intro hc i hi b hv
    rw [inStack_cls] at hc
    exact h.1 hc i (htr hv).1 b (htr hv).2
  · intro as g f hb a ha i hi b hv
    rw [hbi] at hb
    cases hl with
    | void h0 hc => rw [build_none (.inl hc)] at hb; cases hb
    | mem hc => rw [build_none (.inr hc)] at hb; cases hb
    | one r g f hb' h0 h8 hr hc =>
      rw [hb'] at hb
      cases hb
      rw [List.map_cons, List.map_nil, List.mem_singleton] at ha
      subst ha
      simp only [Nat.zero_add] at hv
      exact (held_one hb' hc).1 h i (htr hv).1 b (htr hv).2
    | two r1 r2 g f hb' h0 h16 hr1 hr2 hne hc =>
      rw [hb'] at hb
      cases hb
      obtain ⟨k1, k2⟩ := (held_two hb' hc).1 h
      simp only [List.map_cons, List.map_nil, List.mem_cons, List.not_mem_nil, or_false] at ha
      obtain ⟨hlt, hvi⟩ := htr hv
      rcases ha with ha | ha <;> subst ha
      · simp only [Nat.zero_add] at hi hvi
        exact k1 i hi b hvi
      · simp only at hi hvi hlt
        exact k2 i (by omega) b hvi

theorem number_leNum {v : Val} {f : Nat → Nat} (h : ∀ i < 8, ∀ b, v i = some b → f i = b) : ∀ n i p, n + i = 8 → number v n i = some p → leNum f n i = p := by
  intro n
  induction n with
  | zero => intro i p _ hp; cases hp; rfl
  | succ n ih =>
    intro i p hi hp
    unfold number at hp
    split at hp
    · next b r hb hr =>
      cases hp
      unfold leNum
      rw [h i (by omega) b hb, ih (i + 1) r (by omega) hr]
    · cases hp

/-- What the code of an expression does. -/
def Right (rbp B : Int) (e : Ex) (c : Code) : Prop := ∀ s A, s.rbp = rbp → s.rsp ≤ B → Agrees B A s →
  ∃ s', exec c.1 s = some s' ∧ Held (ty e) s' (den rbp e A).1 ∧ Agrees B (den rbp e A).2 s' ∧
    s'.rsp = s.rsp - (ty e).sizeInStack true ∧ s'.rsp = s.rsp - 8 * c.2 ∧ s'.rbp = rbp ∧
    ∀ x, s.rsp ≤ x → x < B → s'.mem x = s.mem x

theorem ok_regular {rbp B : Int} : ∀ (e : Ex), Ok rbp B e → Regular (ty e)
  | .var _ _, h => h
  | .letv _ _ body, h => ok_regular body h.2.2
  | .load _ _, h => h.1
  | .struct _ _, h => by
    obtain ⟨⟨ls, rfl, -, hr⟩, -⟩ := h
    exact regular_product hr
  | .elem _ _, h => by
    obtain ⟨⟨es, cs, o, l, h1, h2, hr, -⟩, -⟩ := h
    simp only [ty, h1, h2]
    exact hr
  | .reint _ _, h => h.1
  | .seq _ body, h => ok_regular body h.2

theorem Spec.Agrees.mono {B : Int} {A : AMem} {s s' : St} (h : Agrees B A s) (hm : ∀ x, B ≤ x → s'.mem x = s.mem x) : Agrees B A s' := by
  intro a b hab
  obtain ⟨h1, h2⟩ := h a b hab
  exact ⟨h1, by rw [hm a h1, h2]⟩

theorem var_right {rbp B : Int} {off l} (h : Ok rbp B (.var off l)) : Right rbp B (.var off l) (load (.rbp, off) l.inStack) := by
  intro s A hbp hsp hA
  have hl : Shape l := Regular.shape h
  have hnl := num_mul l
  obtain ⟨s', he, hh, hr, hd, hm, hb⟩ := load_spec hl.inStack (a := (.rbp, off)) (by simp) (s := s) (v := aread A (rbp + off) l.size) (by
    intro i hi b hv
    unfold aread at hv
    split at hv
    · obtain ⟨h1, h2⟩ := hA _ _ hv
      simp only [St.ea, St.base, hbp]
      exact ⟨by omega, h2⟩
    · cases hv)
  refine ⟨s', he, ?_, ?_, ?_, hd, by rw [hb, hbp], fun x hx _ => hm x hx⟩
  · show Held l s' _
    refine ⟨fun hc i hi b hv => hh.1 (by rw [inStack_cls]; exact hc) i (by rw [inStack_size]; omega) b hv, ?_⟩
    intro as g f hbld a ha i hi b hv
    have := build_inStack l gps fps
    rw [hbld] at this
    refine hh.2 _ _ _ this { a with size := 8 } (List.mem_map_of_mem (f := fun a : RegAssign => { a with size := 8 }) ha) i ?_ b hv
    simp only
    have hs := hl
    cases hs with
    | void h0 hc => rw [build_none (.inl hc)] at hbld; cases hbld
    | mem hc => rw [build_none (.inr hc)] at hbld; cases hbld
    | one r g f hb' h0 h8 hr hc =>
      rw [hb'] at hbld
      cases hbld
      rw [List.mem_singleton] at ha
      subst ha
      simp only at hi
      omega
    | two r1 r2 g f hb' h0 h16 hr1 hr2 hne hc =>
      rw [hb'] at hbld
      cases hbld
      simp only [List.mem_cons, List.not_mem_nil, or_false] at ha
      rcases ha with ha | ha <;> subst ha <;> simp only at hi <;> omega
  · exact hA.mono fun x hx => hm x (by omega)
  · rw [hr, inStack_sizeInStack]; rfl

theorem letv_right {rbp B : Int} {off e body c c'} (h : Ok rbp B (.letv off e body)) (he : Right rbp B e c) (hb : Right rbp B body c') :
    Right rbp B (.letv off e body) (Code.flat [c, store (.rbp, off) (ty e).inStack, c']) := by
  intro s A hbp hsp hA
  have hl : Shape (ty e) := Regular.shape (ok_regular e h.2.1)
  have hnl := num_mul (ty e)
  obtain ⟨s1, he1, hh1, hA1, hr1, hd1, hbp1, hm1⟩ := he s A hbp hsp hA
  obtain ⟨s2, he2, hv2, hm2, hr2, hd2, hbp2⟩ := store_spec hl.inStack (a := (.rbp, off)) (by simp) (held_trunc hl hh1) (by
    intro hc
    rw [inStack_cls] at hc
    simp only [St.ea, St.base, hbp1, hr1, inStack_num, sizeInStack_mem hc]
    have := h.1
    omega)
  simp only [St.ea, St.base, hbp1, inStack_size] at hv2 hm2
  rw [inStack_sizeInStack] at hr2
  have hA2 : Agrees B (awrite (den rbp e A).2 (rbp + off) ((ty e).numEightbytes * 8) (trunc (den rbp e A).1 (ty e).size)) s2 := by
    intro x b hx
    unfold awrite at hx
    split at hx
    · next hxx =>
      have := hv2 (x - (rbp + off)).toNat (by omega) b hx
      rw [show rbp + off + ((x - (rbp + off)).toNat : Int) = x by omega] at this
      exact ⟨by have := h.1; omega, this⟩
    · next hxx =>
      obtain ⟨k1, k2⟩ := hA1 x b hx
      exact ⟨k1, by rw [hm2 x (by omega), k2]⟩
  obtain ⟨s3, he3, hh3, hA3, hr3, hd3, hbp3, hm3⟩ := hb s2 _ (by rw [hbp2, hbp1]) (by omega) hA2
  refine ⟨s3, ?_, hh3, hA3, ?_, ?_, hbp3, ?_⟩
  · simp only [Code.flat, Code.cat, List.append_nil]
    exact exec_append_some he1 (exec_append_some he2 he3)
  · show _ = s.rsp - (ty body).sizeInStack true
    rw [hr3]; omega
  · simp only [Code.flat, Code.cat]
    rw [hd3, hd2, hd1]
    omega
  · intro x hx hxB
    rw [hm3 x (by omega) hxB, hm2 x (by have := h.1; omega), hm1 x hx hxB]

theorem load_right {rbp B : Int} {l e c} (h : Ok rbp B (.load l e)) (he : Right rbp B e c) :
    Right rbp B (.load l e) (Code.flat [c, ([.movRdiRax], 0), load (.rdi, 0) l]) := by
  intro s A hbp hsp hA
  obtain ⟨hl, hty, -⟩ := h
  obtain ⟨s1, he1, hh1, hA1, hr1, hd1, hbp1, hm1⟩ := he s A hbp hsp hA
  rw [hty] at hh1 hr1
  have hptr : build Layout.pointer gps fps = some ([⟨0, 8, .gpr 0⟩], [2], [0, 1]) := by decide +kernel
  have h0 : Layout.pointer.sizeInStack true = 0 := by decide +kernel
  rw [h0] at hr1
  have hrax : ∀ i < 8, ∀ b, (den rbp e A).1 i = some b → s1.gpr 0 i = b := by
    intro i hi b hv
    exact hh1.2 _ _ _ hptr ⟨0, 8, .gpr 0⟩ (by simp) i hi b (by rw [Nat.zero_add]; exact hv)
  obtain ⟨s2, he2, hh2, hr2, hd2, hm2, hb2⟩ := load_spec (Regular.shape hl) (a := (.rdi, 0)) (by simp)
      (s := { s1 with rdi := leNum (s1.gpr 0) 8 0 }) (v := (den rbp (.load l e) A).1) (by
    intro i hi b hv
    simp only [den] at hv
    simp only [St.ea, St.base]
    cases hp : number (den rbp e A).1 8 0 with
    | none => rw [hp] at hv; cases hv
    | some p =>
      rw [hp] at hv
      simp only at hv
      rw [number_leNum hrax 8 0 p rfl hp]
      have hv' : (den rbp e A).2 (p + i) = some b := by
        unfold aread at hv
        rwa [if_pos hi] at hv
      obtain ⟨k1, k2⟩ := hA1 _ _ hv'
      rw [Int.add_zero]
      exact ⟨by omega, k2⟩)
  refine ⟨s2, ?_, hh2, ?_, ?_, ?_, by rw [hb2]; exact hbp1, ?_⟩
  · simp only [Code.flat, Code.cat, List.append_nil]
    exact exec_append_some he1 (exec_append_some (t := { s1 with rdi := leNum (s1.gpr 0) 8 0 }) rfl he2)
  · simp only [den]
    exact hA1.mono fun x hx => hm2 x (by simp only; omega)
  · rw [hr2]
    show s1.rsp - (l.sizeInStack true : Int) = s.rsp - l.sizeInStack true
    omega
  · simp only [Code.flat, Code.cat]
    rw [hd2]
    simp only
    omega
  · intro x hx hxB
    rw [hm2 x (by simp only; omega)]
    exact hm1 x hx hxB

theorem seq_right {rbp B : Int} {e body c c'} (h : Ok rbp B (.seq e body)) (he : Right rbp B e c) (hb : Right rbp B body c') :
    Right rbp B (.seq e body) (Code.flat [c, discard (ty e), c']) := by
  intro s A hbp hsp hA
  obtain ⟨s1, he1, hh1, hA1, hr1, hd1, hbp1, hm1⟩ := he s A hbp hsp hA
  obtain ⟨he2, hd2⟩ := discard_spec (ty e) s1
  obtain ⟨s3, he3, hh3, hA3, hr3, hd3, hbp3, hm3⟩ := hb { s1 with rsp := s1.rsp + (ty e).sizeInStack true } _ hbp1 (by simp only; omega) hA1
  simp only at hr3 hd3 hm3
  refine ⟨s3, ?_, hh3, hA3, ?_, ?_, hbp3, ?_⟩
  · simp only [Code.flat, Code.cat, List.append_nil]
    exact exec_append_some he1 (exec_append_some he2 he3)
  · show _ = s.rsp - (ty body).sizeInStack true
    rw [hr3]; omega
  · simp only [Code.flat, Code.cat]
    rw [hd3, hd1]
    omega
  · intro x hx hxB
    rw [hm3 x (by omega) hxB, hm1 x hx hxB]

theorem reint_right {rbp B : Int} {l e c} (h : Ok rbp B (.reint l e)) (he : Right rbp B e c) :
    Right rbp B (.reint l e) (c.cat (reintCode (ty e) l)) := by
  intro s A hbp hsp hA
  obtain ⟨s1, he1, hh1, hA1, hr1, hd1, hbp1, hm1⟩ := he s A hbp hsp hA
  obtain ⟨s2, he2, hh2, hr2, hd2, hm2, hb2⟩ := reint_spec (ok_regular e h.2) h.1 hh1
  refine ⟨s2, exec_append_some he1 he2, hh2, hA1.mono fun x hx => hm2 x (by omega), ?_, ?_, by rw [hb2, hbp1], ?_⟩
  · show _ = s.rsp - (l.sizeInStack true : Int)
    rw [hr2]; omega
  · simp only [Code.cat]
    rw [hd2, hd1]
    omega
  · intro x hx hxB
    rw [hm2 x (by omega), hm1 x hx hxB]

theorem elem_right {rbp B : Int} {i e c} (h : Ok rbp B (.elem i e)) (he : Right rbp B e c) :
    ∃ c', elemCode (ty e) i = some (c', ty (.elem i e)) ∧ Right rbp B (.elem i e) (c.cat c') := by
  obtain ⟨⟨es, cs, o, l, h1, h2, hr, hregs⟩, hok⟩ := h
  have hty : ty (.elem i e) = l := by simp only [ty, h1, h2]
  have hoff : elemOffset (ty e) i = o := by simp only [elemOffset, h1, h2]
  have hcode : ∃ c', elemCode (ty e) i = some (c', l) := by
    unfold elemCode
    simp only [h1, h2]
    split
    · exact ⟨_, rfl⟩
    · exact ⟨_, rfl⟩
  obtain ⟨c', hc'⟩ := hcode
  rw [hty]
  refine ⟨c', hc', ?_⟩
  intro s A hbp hsp hA
  obtain ⟨s1, he1, hh1, hA1, hr1, hd1, hbp1, hm1⟩ := he s A hbp hsp hA
  obtain ⟨c2, s2, hc2, he2, hh2, hr2, hd2, hm2, hb2⟩ := elem_spec (ok_regular e hok) hr h1 h2 hregs hh1
  rw [hc'] at hc2
  cases hc2
  refine ⟨s2, exec_append_some he1 he2, ?_, hA1.mono fun x hx => hm2 x (by omega), ?_, ?_, by rw [hb2, hbp1], ?_⟩
  · simp only [den]
    rw [hty, hoff]
    exact hh2
  · rw [hty, hr2]; omega
  · simp only [Code.cat]
    rw [hd2, hd1]
    omega
  · intro x hx hxB
    rw [hm2 x (by omega), hm1 x hx hxB]

/-- What the code filling the fields does: `v` are the bytes in the area at `rsp`. -/
def RightFields (rbp B : Int) (size : Nat) (os : List Nat) (es : List Ex) (c : Code) : Prop := ∀ s A (v : Val), s.rbp = rbp → s.rsp + size ≤ B →
  Agrees B A s → (∀ i < size, ∀ b, v i = some b → s.mem (s.rsp + i) = b) →
  ∃ s', exec c.1 s = some s' ∧ (∀ i < size, ∀ b, (denFields rbp os es A v).1 i = some b → s'.mem (s'.rsp + i) = b) ∧
    Agrees B (denFields rbp os es A v).2 s' ∧ s'.rsp = s.rsp ∧ c.2 = 0 ∧ s'.rbp = rbp ∧
    ∀ x, s.rsp + size ≤ x → x < B → s'.mem x = s.mem x

theorem fields_right {rbp B : Int} {size o os e es c c'} (hl : Shape (ty e)) (ho : o + (ty e).size ≤ size) (he : Right rbp B e c)
    (hes : RightFields rbp B size os es c') :
    RightFields rbp B size (o :: os) (e :: es)
      (Code.flat [c, ([.leaRdi (o + (ty e).sizeInStack true : Nat)], 0), store (.rdi, 0) (ty e), c']) := by
  intro s A v hbp hsp hA hv
  obtain ⟨s1, he1, hh1, hA1, hr1, hd1, hbp1, hm1⟩ := he s A hbp (by omega) hA
  obtain ⟨s2, he2, hv2, hm2, hr2, hd2, hbp2⟩ := store_spec hl (a := (.rdi, 0)) (by simp)
    (s := { s1 with rdi := s1.rsp + ((o + (ty e).sizeInStack true : Nat) : Int) }) (v := (den rbp e A).1) ⟨hh1.1, fun as g f hb a ha i hi b hvi => by
      have := hh1.2 as g f hb a ha i hi b hvi
      cases hreg : a.reg <;> rw [hreg] at this <;> exact this⟩ (by
    intro hc
    simp only [St.ea, St.base, sizeInStack_mem hc]
    omega)
  have hea : ({ s1 with rdi := s1.rsp + ((o + (ty e).sizeInStack true : Nat) : Int) } : St).ea (.rdi, 0) = s.rsp + o := by
    simp only [St.ea, St.base]
    omega
  rw [hea] at hv2 hm2
  simp only at hr2 hd2 hm2 hbp2
  have hr20 : s2.rsp = s.rsp := by omega
  obtain ⟨s3, he3, hv3, hA3, hr3, hd3, hbp3, hm3⟩ := hes s2 (den rbp e A).2 (place v o (ty e).size (den rbp e A).1) (by rw [hbp2, hbp1])
    (by rw [hr20]; omega) (hA1.mono fun x hx => hm2 x (by omega)) (by
      intro i hi b hvi
      rw [hr20]
      unfold place at hvi
      split at hvi
      · next hoi =>
        have := hv2 (i - o) (by omega) b hvi
        rw [← this]
        congr 1
        omega
      · next hoi =>
        rw [hm2 _ (by omega), hm1 _ (by omega) (by omega)]
        exact hv i hi b hvi)
  refine ⟨s3, ?_, hv3, hA3, by rw [hr3, hr20], ?_, hbp3, ?_⟩
  · simp only [Code.flat, Code.cat, List.append_nil]
    exact exec_append_some he1 (exec_append_some (t := { s1 with rdi := s1.rsp + ((o + (ty e).sizeInStack true : Nat) : Int) }) rfl
      (exec_append_some he2 he3))
  · simp only [Code.flat, Code.cat]
    omega
  · intro x hx hxB
    rw [hm3 x (by omega) hxB, hm2 x (by omega), hm1 x (by omega) hxB]

theorem struct_right {rbp B : Int} {l es ls cs c} (hl : Regular l) (hc : l.composite = some (ls, cs))
    (h : RightFields rbp B l.size (ls.map (·.1)) es c) : Right rbp B (.struct l es) (Code.flat [extendStack l, c, pop l]) := by
  intro s A hbp hsp hA
  have hnl := num_mul l
  obtain ⟨he1, hd1⟩ := extend_spec l s
  obtain ⟨s2, he2, hv2, hA2, hr2, hd2, hbp2, hm2⟩ := h { s with rsp := s.rsp - l.numEightbytes * 8 } A (fun _ => none) hbp (by simp only; omega) hA
    (fun i hi b hv => by cases hv)
  obtain ⟨s3, he3, hh3, hr3, hd3, hm3, hb3⟩ := pop_spec (Regular.shape hl) (s := s2) hv2
  simp only at hr2 hm2
  refine ⟨s3, ?_, ?_, ?_, ?_, ?_, by rw [hb3, hbp2], ?_⟩
  · simp only [Code.flat, Code.cat, List.append_nil]
    exact exec_append_some he1 (exec_append_some he2 he3)
  · simp only [den, hc]
    exact hh3
  · simp only [den, hc]
    exact hA2.mono fun x _ => by rw [hm3]
  · show _ = s.rsp - (l.sizeInStack true : Int)
    rw [hr3, hr2]; omega
  · simp only [Code.flat, Code.cat]
    rw [hd3, hr2, hd1, hd2]
    omega
  · intro x hx hxB
    rw [hm3, hm2 x (by omega) hxB]

theorem product_offsets {ls : List Layout} (h : ∀ l ∈ ls, Regular l) : ∃ es cs, (Layout.product ls).composite = some (es, cs) ∧
    es.map Prod.snd = ls ∧ ∀ p ∈ (es.map (·.1)).zip ls, p.1 + p.2.size ≤ (Layout.product ls).size := by
  obtain ⟨es, cs, hc, hsnd, hpl, -, -⟩ := product_placed (fun l hl => (h l hl).wf)
  refine ⟨es, cs, hc, hsnd, ?_⟩
  intro p hp
  have hz : (es.map (·.1)).zip ls = es.map fun e => (e.1, e.2) := by rw [← hsnd, List.zip_map']
  rw [hz] at hp
  obtain ⟨e, he, rfl⟩ := List.mem_map.1 hp
  exact hpl.inside e he

mutual
/-- C54 (partial): the code of every well-typed expression of the fragment runs, makes the value of the expression the last value, puts the stack
pointer where the tracked depth says, keeps the frame pointer and everything on the stack, and leaves the memory as the expression should.  What is
missing is the hypothesis on `elem` in `Ok`: without it the statement is false, `elem_zero_refuted`. -/
theorem compile_correct_partial {rbp B : Int} : ∀ (e : Ex), Ok rbp B e → ∃ c, compile e = some (c, ty e) ∧ Right rbp B e c
  | .var off l, h => ⟨_, rfl, var_right h⟩
  | .letv off e body, h => by
    obtain ⟨c, hc, hr⟩ := compile_correct_partial e h.2.1
    obtain ⟨c', hc', hr'⟩ := compile_correct_partial body h.2.2
    exact ⟨_, by simp only [compile, hc, hc', ty], letv_right h hr hr'⟩
  | .load l e, h => by
    obtain ⟨c, hc, hr⟩ := compile_correct_partial e h.2.2
    exact ⟨_, by simp only [compile, hc, ty], load_right h hr⟩
  | .struct l es, h => by
    obtain ⟨⟨ls, rfl, hls, hreg⟩, hok⟩ := h
    obtain ⟨ps, cs, hc, hsnd, hin⟩ := product_offsets hreg
    obtain ⟨c, hcc, hr⟩ := compileFields_correct es (Layout.product ls).size (ps.map (·.1)) (by
      intro p hp
      have : (p.1, ty p.2) ∈ (ps.map (·.1)).zip ls := by
        rw [← hls]
        have := List.mem_map_of_mem (f := fun q : Nat × Ex => (q.1, ty q.2)) hp
        rw [List.zip_map_right]
        exact this
      exact hin _ this) hok
    exact ⟨_, by simp only [compile, hc, hcc, ty], struct_right (regular_product hreg) hc hr⟩
  | .elem i e, h => by
    obtain ⟨c, hc, hr⟩ := compile_correct_partial e h.2
    obtain ⟨c', hc', hr'⟩ := elem_right h hr
    exact ⟨_, by simp only [compile, hc, hc'], hr'⟩
  | .reint l e, h => by
    obtain ⟨c, hc, hr⟩ := compile_correct_partial e h.2
    exact ⟨_, by simp only [compile, hc, ty], reint_right h hr⟩
  | .seq e body, h => by
    obtain ⟨c, hc, hr⟩ := compile_correct_partial e h.1
    obtain ⟨c', hc', hr'⟩ := compile_correct_partial body h.2
    exact ⟨_, by simp only [compile, hc, hc', ty], seq_right h hr hr'⟩

theorem compileFields_correct {rbp B : Int} : ∀ (es : List Ex) (size : Nat) (os : List Nat),
    (∀ p ∈ os.zip es, p.1 + (ty p.2).size ≤ size) → OkL rbp B es → ∃ c, compileFields os es = some c ∧ RightFields rbp B size os es c
  | [], size, os, _, _ => by
    refine ⟨([], 0), by cases os <;> rfl, ?_⟩
    intro s A v hbp hsp hA hv
    have : denFields rbp os [] A v = (v, A) := by cases os <;> simp [denFields]
    rw [this]
    exact ⟨s, rfl, hv, hA, rfl, rfl, hbp, fun _ _ _ => rfl⟩
  | e :: es, size, [], _, _ => by
    refine ⟨([], 0), rfl, ?_⟩
    intro s A v hbp hsp hA hv
    have : denFields rbp [] (e :: es) A v = (v, A) := by simp [denFields]
    rw [this]
    exact ⟨s, rfl, hv, hA, rfl, rfl, hbp, fun _ _ _ => rfl⟩
  | e :: es, size, o :: os, hz, h => by
    obtain ⟨c, hc, hr⟩ := compile_correct_partial e h.1
    obtain ⟨c', hc', hr'⟩ := compileFields_correct es size os (fun p hp => hz p (by simp [hp])) h.2
    refine ⟨_, by simp only [compileFields, hc, hc'], fields_right (Regular.shape (ok_regular e h.1)) (hz (o, e) (by simp)) hr hr'⟩
end

/-! ### The special cases a user thinks of -/

/-- The values of the fields, the memory being threaded from the first to the last. -/
def fieldValue (rbp : Int) : List Ex → Nat → AMem → Val
  | [], _, _ => fun _ => none
  | e :: _, 0, A => (den rbp e A).1
  | e :: es, i + 1, A => fieldValue rbp es i (den rbp e A).2

theorem denFields_other (rbp : Int) : ∀ (os : List Nat) (es : List Ex) (A : AMem) (v : Val) (k : Nat),
    (∀ p ∈ os.zip es, k < p.1 ∨ p.1 + (ty p.2).size ≤ k) → (denFields rbp os es A v).1 k = v k
  | [], [], _, _, _, _ => by simp [denFields]
  | [], _ :: _, _, _, _, _ => by simp [denFields]
  | _ :: _, [], _, _, _, _ => by simp [denFields]
  | o :: os, e :: es, A, v, k, h => by
    unfold denFields
    rw [denFields_other rbp os es _ _ k (fun p hp => h p (by simp [hp]))]
    have := h (o, e) (by simp)
    unfold place
    rw [if_neg (by simp only at this; omega)]

theorem denFields_field (rbp : Int) : ∀ (os : List Nat) (es : List Ex) (A : AMem) (v : Val) (i : Nat) (o : Nat) (e : Ex),
    (os.zip es).Pairwise (fun a b => a.1 + (ty a.2).size ≤ b.1) → os[i]? = some o → es[i]? = some e →
    ∀ k < (ty e).size, (denFields rbp os es A v).1 (o + k) = fieldValue rbp es i A k
  | [], _, _, _, _, _, _, _, ho, _ => by simp at ho
  | _ :: _, [], _, _, _, _, _, _, _, he => by simp at he
  | o :: os, e :: es, A, v, 0, _, _, hp, ho, he => by
    simp only [List.getElem?_cons_zero, Option.some.injEq] at ho he
    subst ho he
    intro k hk
    rw [List.zip_cons_cons, List.pairwise_cons] at hp
    unfold denFields
    rw [denFields_other rbp os es _ _ _ (fun p hpm => by have := hp.1 p hpm; simp only at this; omega)]
    unfold place
    rw [if_pos (by omega)]
    simp [fieldValue]
  | o :: os, e :: es, A, v, i + 1, _, _, hp, ho, he => by
    simp only [List.getElem?_cons_succ] at ho he
    rw [List.zip_cons_cons, List.pairwise_cons] at hp
    intro k hk
    unfold denFields
    exact denFields_field rbp os es _ _ i _ _ hp.2 ho he k hk

/-- C54: reading component `i` of a struct just constructed yields the value of its `i`-th expression, the expressions being evaluated from the
first to the last. -/
theorem elem_of_struct {rbp : Int} {es : List Ex} (hreg : ∀ e ∈ es, Regular (ty e)) {i : Nat} {e : Ex} (hi : es[i]? = some e) (A : AMem) :
    (den rbp (.elem i (.struct (Layout.product (es.map ty)) es)) A).1 = trunc (fieldValue rbp es i A) (ty e).size := by
  obtain ⟨ps, cs, hc, hsnd, hpl, -, -⟩ := product_placed (ls := es.map ty) (fun l hl => by
    obtain ⟨e, he, rfl⟩ := List.mem_map.1 hl
    exact (hreg e he).wf)
  have hlen : ps.length = es.length := by
    have := congrArg List.length hsnd
    simpa using this
  obtain ⟨p, hp⟩ : ∃ p, ps[i]? = some p := by
    have : i < es.length := (List.getElem?_eq_some_iff.1 hi).1
    exact ⟨ps[i]'(by omega), by simp [hlen, this]⟩
  have hpt : p.2 = ty e := by
    have h1 : (ps.map Prod.snd)[i]? = some p.2 := by simp [hp]
    rw [hsnd, List.getElem?_map, hi] at h1
    simpa using h1.symm
  have hpe : p = (p.1, p.2) := rfl
  have hty : ty (.elem i (.struct (Layout.product (es.map ty)) es)) = ty e := by
    simp only [ty, hc]
    rw [hp, hpe]
    exact hpt
  have hoff : elemOffset (ty (.struct (Layout.product (es.map ty)) es)) i = p.1 := by
    simp only [elemOffset, ty, hc]
    rw [hp]
  have hzip : (ps.map (·.1)).zip es |>.Pairwise fun a b => a.1 + (ty a.2).size ≤ b.1 := by
    have hd := hpl.disjoint
    have hz : ((ps.map (·.1)).zip es).map (fun q => (q.1, ty q.2)) = ps := by
      have h1 : ((ps.map (·.1)).zip es).map (fun q => (q.1, ty q.2)) = (ps.map (·.1)).zip (es.map ty) := by
        rw [List.zip_map_right]; rfl
      rw [h1, ← hsnd, List.zip_map']
      simp
    rw [← hz, List.pairwise_map] at hd
    exact hd
  funext k
  unfold den
  simp only []
  rw [hty, hoff]
  unfold trunc
  split
  · next hk =>
    simp only [den, hc]
    exact denFields_field rbp _ es A _ i p.1 e hzip (by simp [hp]) hi k hk
  · rfl

/-- C54: after storing the last value to its slot, reading the slot makes it the last value again, for every type. -/
theorem store_load {l : Layout} (hl : Regular l) {s : St} {v : Val} {off : Int} (hv : Held l s v)
    (hle : s.rsp + l.sizeInStack true ≤ s.rbp + off) :
    ∃ s', exec ((store (.rbp, off) l.inStack).cat (load (.rbp, off) l.inStack)).1 s = some s' ∧ Held l s' v ∧ s'.rsp = s.rsp := by
  have hsh := Regular.shape hl
  have hnl := num_mul l
  obtain ⟨s1, he1, hv1, hm1, hr1, hd1, hb1⟩ := store_spec hsh.inStack (a := (.rbp, off)) (by simp) (held_trunc hsh hv) (by
    intro hc
    rw [inStack_cls] at hc
    rw [inStack_num]
    rw [sizeInStack_mem hc] at hle
    simp only [St.ea, St.base]
    omega)
  rw [inStack_sizeInStack] at hr1
  simp only [St.ea, St.base, inStack_size] at hv1
  let B := s1.rsp
  let A : AMem := fun x => if s.rbp + off ≤ x ∧ x < s.rbp + off + l.size then v (x - (s.rbp + off)).toNat else none
  have hA : Agrees B A s1 := by
    intro x b hx
    simp only [A] at hx
    split at hx
    · next hxx =>
      refine ⟨by simp only [B]; omega, ?_⟩
      have := hv1 (x - (s.rbp + off)).toNat (by omega) b (by unfold trunc; rw [if_pos (by omega)]; exact hx)
      rw [show s.rbp + off + ((x - (s.rbp + off)).toNat : Int) = x by omega] at this
      exact this
    · cases hx
  obtain ⟨s2, he2, hh2, -, hr2, -⟩ := var_right (rbp := s.rbp) (B := B) (off := off) (l := l) hl s1 A hb1 (by simp [B]) hA
  refine ⟨s2, exec_append_some he1 he2, ?_, ?_⟩
  · have hval : ∀ i < l.size, (den s.rbp (.var off l) A).1 i = v i := by
      intro i hi
      simp only [den, aread, A]
      rw [if_pos hi, if_pos (by omega)]
      congr 1
      omega
    refine ⟨fun hc i hi b hvi => hh2.1 hc i hi b (by rw [hval i hi]; exact hvi), ?_⟩
    intro as g f hb a ha i hi b hvi
    refine hh2.2 as g f hb a ha i hi b ?_
    rw [hval _ ?_]
    · exact hvi
    · cases hsh with
      | void h0 hc => rw [build_none (.inl hc)] at hb; cases hb
      | mem hc => rw [build_none (.inr hc)] at hb; cases hb
      | one r g f hb' h0 h8 hr hc =>
        rw [hb'] at hb
        cases hb
        rw [List.mem_singleton] at ha
        subst ha
        simp only at hi ⊢
        omega
      | two r1 r2 g f hb' h0 h16 hr1 hr2 hne hc =>
        rw [hb'] at hb
        cases hb
        simp only [List.mem_cons, List.not_mem_nil, or_false] at ha
        rcases ha with ha | ha <;> subst ha <;> simp only at hi ⊢ <;> omega
  · rw [hr2]
    show s1.rsp - (l.sizeInStack true : Int) = s.rsp
    omega

/-- C54: pushing and then popping gives the value back, for every type. -/
theorem push_pop {l : Layout} (hl : Regular l) {s : St} {v : Val} (hv : Held l s v) :
    ∃ s', exec ((push l).cat (pop l)).1 s = some s' ∧ Held l s' v ∧ s'.rsp = s.rsp ∧ ((push l).cat (pop l)).2 = 0 := by
  obtain ⟨s1, he1, hst1, hr1, hd1, hm1, hb1⟩ := push_spec (Regular.shape hl) hv
  obtain ⟨s2, he2, hh2, hr2, hd2, hm2, hb2⟩ := pop_spec (Regular.shape hl) hst1
  refine ⟨s2, exec_append_some he1 he2, hh2, by omega, ?_⟩
  show (push l).2 + (pop l).2 = 0
  omega

/-! ### Reading field 0 of a struct in the same number of registers -/

def f32 : Layout := Layout.fp 4
def i32 : Layout := Layout.integer 4
/-- `(struct (F32) (I32))`: one eightbyte, of class integer. -/
def mixed : Layout := Layout.product [f32, i32]

theorem regular_f32 : Regular f32 := regular_prim 4 2 .floatingPoint (.inr rfl) (by decide)
theorem regular_i32 : Regular i32 := regular_prim 4 2 .integer (.inl rfl) (by decide)
theorem regular_mixed : Regular mixed := regular_product (by
  intro l hl
  simp only [List.mem_cons, List.not_mem_nil, or_false] at hl
  rcases hl with rfl | rfl
  · exact regular_f32
  · exact regular_i32)

def zeroSt : St := { gpr := fun _ _ => 0, xmm := fun _ _ => 0, rsp := 0, rbp := 100, rdi := 0, mem := fun _ => 1 }

/-- The part of C54 that does not hold: the value of field 0 of a struct of an `F32` and an `I32` is not the last value after the code that reads
it, because no code is emitted and the struct is in `rax` while an `F32` is in `xmm0` (codegen.rs:641-651). -/
theorem elem_zero_refuted : ∃ (e : Ex) (c : Code) (s s' : St) (A : AMem), compile e = some (c, ty e) ∧ Regular (ty e) ∧ s.rsp ≤ s.rbp ∧
    Agrees s.rbp A s ∧ exec c.1 s = some s' ∧ ¬ Held (ty e) s' (den s.rbp e A).1 := by
  refine ⟨.elem 0 (.var 0 mixed), _, zeroSt, _, fun x => if x = 100 then some 1 else none, rfl, regular_f32, by decide, ?_, rfl, ?_⟩
  · intro a b h
    by_cases ha : a = 100
    · simp only [ha, if_true, Option.some.injEq] at h
      subst ha h
      exact ⟨by decide, rfl⟩
    · simp [ha] at h
  · intro h
    have hb : build f32 gps fps = some ([⟨0, 4, .xmm 0⟩], [0, 2], [1]) := by decide +kernel
    have := h.2 _ _ _ hb ⟨0, 4, .xmm 0⟩ (by simp) 0 (by decide) 1 (by rfl)
    revert this
    decide +kernel

/-! ### Cases that meet the hypotheses -/

/-- `(struct (I32 F64 I32))` of 24 bytes, in memory. -/
def big : Layout := Layout.product [i32, Layout.fp 8, i32]

theorem regular_f64 : Regular (Layout.fp 8) := regular_prim 8 3 .floatingPoint (.inr rfl) (by decide)
theorem regular_big : Regular big := regular_product (by
  intro l hl
  simp only [List.mem_cons, List.not_mem_nil, or_false] at hl
  rcases hl with rfl | rfl | rfl
  · exact regular_i32
  · exact regular_f64
  · exact regular_i32)

example : big.cls = .memory ∧ big.size = 24 ∧ mixed.cls = .integer := by decide +kernel

/-- Constructing a struct in memory from variables and a part of a struct in registers, binding it and reading its second component. -/
def sample : Ex := .letv (-64) (.struct big [.var (-8) i32, .var (-16) (Layout.fp 8), .elem 1 (.var (-24) mixed)]) (.elem 1 (.var (-64) big))

example : Ok 1000 900 sample := by
  refine ⟨by decide, ⟨⟨_, rfl, rfl, ?_⟩, regular_i32, regular_f64, ⟨⟨_, _, 4, i32, rfl, rfl, regular_i32, ?_⟩, regular_mixed⟩, trivial⟩,
    ⟨⟨_, _, 8, Layout.fp 8, rfl, rfl, regular_f64, ?_⟩, regular_big⟩⟩
  · intro l hl
    simp only [List.mem_cons, List.not_mem_nil, or_false] at hl
    rcases hl with rfl | rfl | rfl
    · exact regular_i32
    · exact regular_f64
    · exact regular_i32
  · intro h; cases h
  · intro h; cases h

/-- Reading field 0 of a struct with the same registers is allowed: a struct of an `I32` and an `F32`. -/
example : Ok 1000 900 (.elem 0 (.var (-8) (Layout.product [i32, f32]))) := by
  refine ⟨⟨_, _, 0, i32, rfl, rfl, regular_i32, ?_⟩, ?_⟩
  · intro _ _ as g f bs g' f' h1 h2
    have e1 : build (Layout.product [i32, f32]) gps fps = some ([⟨0, 8, .gpr 0⟩], [2], [0, 1]) := by decide +kernel
    have e2 : build i32 gps fps = some ([⟨0, 4, .gpr 0⟩], [2], [0, 1]) := by decide +kernel
    have h1 : build (Layout.product [i32, f32]) gps fps = some (as, g, f) := h1
    rw [e1] at h1
    rw [e2] at h2
    cases h1; cases h2
    rfl
  · refine regular_product ?_
    intro l hl
    simp only [List.mem_cons, List.not_mem_nil, or_false] at hl
    rcases hl with rfl | rfl
    · exact regular_i32
    · exact regular_f32

example : Held big { zeroSt with mem := fun x => x.toNat } (fun i => some i) := by
  refine ⟨fun _ i _ b h => ?_, fun as g f h => ?_⟩
  · cases h
    simp [zeroSt]
  · have : build big gps fps = none := build_none (.inr (by decide +kernel))
    rw [this] at h; cases h

end Verif.StackMachine
