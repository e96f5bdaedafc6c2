import Verif.Obj.Lemmas

/-! # C25: jumps land on their labels; C56: operands naming a label refer to its location -/

namespace Verif.Obj

open Verif.Asm Verif.Asm.Spec Spec

/-- The jumps among the instructions with a label. -/
def LabelInst.jump : LabelInst → Option Jump
  | .call _ => some .call
  | .jmp _ | .jmpShort _ => some .jmp
  | .jcc cc _ | .jccShort cc _ => some (.jcc cc.val)
  | _ => none

/-- The instructions with a memory operand: mandatory prefixes, REX.W, opcode and register operand. -/
def LabelInst.mem : LabelInst → Option (List Nat × Bool × List Nat × RegSlot)
  | .callTable _ => some ([], false, [0xFF], .digit 2)
  | .jmpTable _ => some ([], false, [0xFF], .digit 4)
  | .storeGpr _ r => some ([], true, [0x89], .reg (.r64 r))
  | .storeXmm _ x => some ([0x66], true, [0x0F, 0x7E], .reg (.xmm x))
  | .loadGpr r _ | .loadGprTable r _ => some ([], true, [0x8B], .reg (.r64 r))
  | .loadXmm x _ | .loadXmmTable x _ => some ([0x66], true, [0x0F, 0x6E], .reg (.xmm x))
  | .lea r _ => some ([], true, [0x8D], .reg (.r64 r))
  | _ => none

/-- The instructions through the address table. -/
def LabelInst.viaTable : LabelInst → Bool
  | .callTable _ | .jmpTable _ | .loadGprTable _ _ | .loadXmmTable _ _ => true
  | _ => false

/-! ## What the bytes of an instruction mean -/

theorem signedVal_le {ty : RelocType} {v : Int} (h : InRange ty v) (hw : ty ≠ .abs64) :
    signedVal (leBytes (Spec.width ty) v) = v := by
  cases ty
  · exact signedVal_leBytes 1 v (by simp only [InRange] at h; omega) (by simp only [InRange] at h; omega)
  · exact signedVal_leBytes 4 v (by simp only [InRange] at h; omega) (by simp only [InRange] at h; omega)
  · exact signedVal_leBytes 4 v (by simp only [InRange] at h; omega) (by simp only [InRange] at h; omega)
  · exact absurd rfl hw

theorem leBytes_sub (n : Nat) : ∀ v : Int, leBytes n (v - 256 ^ n) = leBytes n v := by
  induction n with
  | zero => intro v; rfl
  | succ n ih =>
    intro v
    simp only [leBytes]
    have e : (256 : Int) ^ (n + 1) = 256 * 256 ^ n := by rw [Int.pow_succ]; omega
    generalize hp : (256 : Int) ^ n = p at *
    rw [e]
    congr 1
    · congr 1; omega
    · rw [← ih (v / 256)]
      congr 1
      omega

theorem leBytes_leVal {f : List Nat} (h : ∀ b ∈ f, b < 256) : leBytes f.length (leVal f : Int) = f := by
  induction f with
  | nil => rfl
  | cons b f ih =>
    have hb := h b (List.mem_cons_self ..)
    have := ih (fun x hx => h x (List.mem_cons_of_mem _ hx))
    simp only [List.length_cons, leBytes, leVal]
    congr 1
    · omega
    · have e : ((b + 256 * leVal f : Nat) : Int) / 256 = (leVal f : Int) := by omega
      rw [e]
      exact this

theorem leVal_lt {f : List Nat} (h : ∀ b ∈ f, b < 256) : leVal f < 256 ^ f.length := by
  induction f with
  | nil => exact Nat.one_pos
  | cons b f ih =>
    have hb := h b (List.mem_cons_self ..)
    have := ih (fun x hx => h x (List.mem_cons_of_mem _ hx))
    simp only [leVal, List.length_cons, Nat.pow_succ]
    omega

theorem leBytes_signedVal {f : List Nat} (h : ∀ b ∈ f, b < 256) : leBytes f.length (signedVal f) = f := by
  unfold signedVal
  split
  · exact leBytes_leVal h
  · rw [show ((256 ^ f.length : Nat) : Int) = (256 : Int) ^ f.length from Int.natCast_pow 256 f.length, leBytes_sub]
    exact leBytes_leVal h

/-- The instruction at `s` is `bs` with its field (the last bytes) replaced by `f`. -/
def InstAt (text : List Nat) (s : Nat) (bs f : List Nat) : Prop :=
  ∃ rest, text.drop s = bs.take (bs.length - f.length) ++ f ++ rest

theorem jump_meaning {i : LabelInst} {k : Jump} {bs f text : List Nat} {s : Nat} (hk : i.jump = some k)
    (hb : i.bytes = some bs) (hf : f.length = i.width) (h : InstAt text s bs f) :
    jumpAt text s = some (k, (s : Int) + bs.length + signedVal f) := by
  obtain ⟨rest, h⟩ := h
  have hr : ∀ n, f.length = n → readDisp n (f ++ rest) = some (signedVal f, rest) :=
    fun n hn => readDisp_append f n hn rest
  cases i <;> simp only [LabelInst.jump] at hk <;> cases hk <;> cases hb <;>
    simp only [LabelInst.width, LabelInst.use, Spec.width] at hf
  case call =>
    have h' : text.drop s = 0xE8 :: (f ++ rest) := by rw [h, hf]; rfl
    simp only [jumpAt, h', hr _ hf, Option.map]; simp [leBytes_length]
  case jmp =>
    have h' : text.drop s = 0xE9 :: (f ++ rest) := by rw [h, hf]; rfl
    simp only [jumpAt, h', hr _ hf, Option.map]; simp [leBytes_length]
  case jmpShort =>
    have h' : text.drop s = 0xEB :: (f ++ rest) := by rw [h, hf]; rfl
    simp only [jumpAt, h', hr _ hf, Option.map]; simp [leBytes_length]
  case jcc cc _ =>
    have h' : text.drop s = 0x0F :: (0x80 + cc.val) :: (f ++ rest) := by rw [h, hf]; rfl
    have e1 : (128 + cc.val) / 16 = 8 := by omega
    have e2 : (128 + cc.val) % 16 = cc.val := by omega
    simp only [jumpAt, h', hr _ hf, Option.map, e1, e2, if_true]; simp [leBytes_length]
  case jccShort cc _ =>
    have h' : text.drop s = (0x70 + cc.val) :: (f ++ rest) := by rw [h, hf]; rfl
    have e1 : (112 + cc.val) / 16 = 7 := by omega
    have e2 : (112 + cc.val) % 16 = cc.val := by omega
    unfold jumpAt
    rw [h']
    split
    case h_5 => rename_i hh; cases hh; simp [e1, e2, hr _ hf, leBytes_length]
    all_goals (rename_i hh; first | (simp only [List.cons.injEq] at hh; omega) | cases hh)

theorem mem_meaning {i : LabelInst} {legacy opcode : List Nat} {w : Bool} {reg : RegSlot} {bs f text : List Nat}
    {s : Nat} (hk : i.mem = some (legacy, w, opcode, reg)) (hb : i.bytes = some bs) (hf : f.length = i.width)
    (hbytes : ∀ b ∈ f, b < 256) (h : InstAt text s bs f) (hs : s + bs.length ≤ text.length) :
    ∃ d, ripOperandAt 0 text s = some (d, (s : Int) + bs.length + signedVal f) ∧
      d.legacy = legacy ∧ d.rexW = w ∧ d.opcode = opcode ∧ RegMatches reg d.rexPresent d.reg := by
  obtain ⟨rest, h⟩ := h
  have hb' : encodeModRM legacy w opcode reg (.mem (.ripDisp 0)) [] = some bs := by
    cases i <;> simp only [LabelInst.mem] at hk <;> cases hk <;> exact hb
  have hw : i.width = 4 := by
    cases i <;> simp only [LabelInst.mem] at hk <;> cases hk <;> rfl
  have hl : ∀ b ∈ legacy, isLegacy b = true := by
    cases i <;> simp only [LabelInst.mem] at hk <;> cases hk <;> decide
  have ho : OpcodeOk opcode := by
    cases i <;> simp only [LabelInst.mem] at hk <;> cases hk <;> first
      | exact .inl ⟨_, rfl, by decide, by decide, by decide⟩
      | exact .inr (.inl ⟨_, rfl, by decide, by decide⟩)
  obtain ⟨pre, rfl, _, hall⟩ := encode_rip_shape hb'
  rw [hw] at hf
  have hv := leBytes_signedVal hbytes
  rw [hf] at hv
  have hrange : -2147483648 ≤ signedVal f ∧ signedVal f < 2147483648 := by
    have hlt := leVal_lt hbytes
    rw [hf] at hlt
    simp only [signedVal, hf]
    split <;> omega
  obtain ⟨d, hd, h1, h2, h3, h4, h5, h6⟩ := decode_encode legacy w opcode reg (.mem (.ripDisp (signedVal f))) []
    _ rest hl ho ⟨fun i hi => (by cases hi), hrange⟩ (hall (signedVal f) [])
  have e : text.drop s = pre ++ leBytes 4 (signedVal f) ++ [] ++ rest := by
    rw [h, hv, hf]
    simp [leBytes_length]
  refine ⟨d, ?_, h1, h2, h3, h4⟩
  have hd' : decode .c64 (text.drop s) = some d := by rw [e]; exact hd
  have hlen := congrArg List.length e
  simp only [List.length_drop, List.length_append, leBytes_length, List.length_nil] at hlen hs
  simp only [ripOperandAt, hd', h5, rmVal, effAddr, h6]
  congr 2
  simp only [List.nil_append, List.length_append, leBytes_length, List.length_nil]
  omega

/-! ## Fields after linking -/

/-- The address of a label when the object is loaded at `base`: where it was defined, or the address of the
symbol of its name. -/
def LabelAddr (w : Writer) (base : Section → Nat) (sym : String → Option Nat) (l a : Nat) : Prop :=
  (∃ d, w.defs[l]? = some (some d) ∧ a = base d.location.section_ + d.location.pos) ∨
  (w.defs[l]? = some none ∧ ∃ n, HMap.get w.names n = some l ∧ sym n = some a)

theorem symbolsOf_mem {w : Writer} : ∀ {l : List (String × Nat)} {syms : List (String × Binding)},
    symbolsOf w l = some syms → ∀ {n k}, (n, k) ∈ l → ∃ b, bindingOf w k = some b ∧ (n, b) ∈ syms := by
  intro l
  induction l with
  | nil => intro syms _ n k h; cases h
  | cons p l ih =>
    intro syms h n k hm
    obtain ⟨name, v⟩ := p
    simp only [symbolsOf, bind, Option.bind_eq_some_iff] at h
    obtain ⟨b, hb, rest, hr, h⟩ := h
    cases h
    rcases List.mem_cons.1 hm with e | hm
    · cases e
      exact ⟨b, hb, List.mem_cons_self ..⟩
    · obtain ⟨b', h1, h2⟩ := ih hr hm
      exact ⟨b', h1, List.mem_cons_of_mem _ h2⟩

theorem labelSymbol_mem {names : HMap String Nat} {l : Nat} {n : String} (h : labelSymbol names l = some n) :
    (n, l) ∈ names := by
  unfold labelSymbol at h
  cases hf : List.find? (fun p => p.2 == l) names with
  | none => rw [hf] at h; cases h
  | some p =>
    rw [hf] at h
    cases h
    have h1 := List.mem_of_find?_eq_some hf
    have h2 := List.find?_some hf
    simp only [beq_iff_eq] at h2
    rw [← h2]
    exact h1

/-- The relocation of a use refers to its label. -/
theorem useReloc_target {w : Writer} (hi : Inv w) {syms : List (String × Binding)}
    (hs : symbolsOf w w.names = some syms) {o : Object} (ho : o.symbols = syms) {u : Use} {r : Reloc}
    (hu : useReloc w u = some r) (hlt : u.target < w.defs.length) {base : Section → Nat} {sym table : String → Option Nat}
    {img : Section → List Nat} (hl : Linked o base sym table img) {a : Nat}
    (ha : targetAddr base sym r.target = some a) :
    r.location = u.location ∧ r.ty = u.ty ∧
      ∃ a', LabelAddr w base sym u.target a' ∧ (a : Int) + r.addend = (a' : Int) + u.addend := by
  have hdl : ∃ d?, w.defs[u.target]? = some d? := ⟨_, List.getElem?_eq_getElem hlt⟩
  obtain ⟨d?, hd⟩ := hdl
  unfold useReloc at hu
  cases hr : relocOf w.names ((w.defs[u.target]?).bind id) u with
  | error e => rw [hr] at hu; cases hu
  | ok r' =>
    rw [hr] at hu
    cases hu
    unfold relocOf at hr
    cases hn : labelSymbol w.names u.target with
    | some name =>
      rw [hn] at hr
      cases hr
      refine ⟨rfl, rfl, a, ?_, rfl⟩
      have hmem := labelSymbol_mem hn
      have hget := HMap.mem_get hi.keys hmem
      cases d? with
      | none => exact .inr ⟨hd, name, hget, ha⟩
      | some d =>
        refine .inl ⟨d, hd, ?_⟩
        obtain ⟨b, h1, h2⟩ := symbolsOf_mem hs hmem
        simp only [bindingOf, hd] at h1
        rw [← ho] at h2
        have : sym name = some (base d.location.section_ + d.location.pos) := by
          apply hl.defined name d.location
          split at h1 <;> cases h1
          · exact .inr h2
          · exact .inl h2
        have ha' : sym name = some a := ha
        rw [this] at ha'
        cases ha'
        rfl
    | none =>
      rw [hn, hd] at hr
      cases d? with
      | none => cases hr
      | some d =>
        cases hr
        have ha' : some (base d.location.section_) = some a := ha
        cases ha'
        refine ⟨rfl, rfl, base d.location.section_ + d.location.pos, .inl ⟨d, hd, rfl⟩, ?_⟩
        show (base d.location.section_ : Int) + ((d.location.pos : Int) + u.addend) = _
        omega

theorem reloc_of_use {w : Writer} {syms : List (String × Binding)} {o : Object} (hp : Produced w syms w.uses o)
    {r : Reloc} (hr : r ∈ o.relocs) : ∃ u ∈ w.uses, staticValue w u = none ∧ useReloc w u = some r ∧
      r.location = u.location ∧ r.ty = u.ty := by
  rw [hp.reloc, List.mem_filterMap] at hr
  obtain ⟨u, hu, h⟩ := hr
  split at h
  · cases h
  · rename_i hn
    refine ⟨u, hu, ?_, h, ?_⟩
    · cases hv : staticValue w u with
      | none => rfl
      | some v => rw [hv] at hn; exact absurd rfl hn
    · unfold useReloc at h
      cases hr : relocOf w.names ((w.defs[u.target]?).bind id) u with
      | error e => rw [hr] at h; cases h
      | ok r' =>
        rw [hr] at h
        cases h
        unfold relocOf at hr
        split at hr <;> cases hr <;> exact ⟨rfl, rfl⟩

theorem apart_symm {u v : Use} (h : Apart u v) : Apart v u := fun e => (h e.symm).symm

theorem pairwise_apart {l : List Use} (h : l.Pairwise Apart) {u v : Use} (hu : u ∈ l) (hv : v ∈ l) (hne : u ≠ v) :
    Apart u v := by
  induction h with
  | nil => cases hu
  | cons h1 _ ih =>
    rcases List.mem_cons.1 hu with eu | hu' <;> rcases List.mem_cons.1 hv with ev | hv'
    · exact absurd (eu.trans ev.symm) hne
    · exact eu ▸ h1 _ hv'
    · exact apart_symm (ev ▸ h1 _ hu')
    · exact ih hu' hv'

/-- C25, C56 (fields): after linking, the field of every relative use contains the distance from the place
to the label, plus the addend. -/
theorem use_linked {w : Writer} {o : Object} (hi : Inv w) (hprod : produce w = .ok o) {base : Section → Nat}
    {sym table : String → Option Nat} {img : Section → List Nat} (hl : Linked o base sym table img) {u : Use}
    (hu : u ∈ w.uses) (ht : u.ty = .pcRel8 ∨ u.ty = .pcRel32) :
    ∃ a, LabelAddr w base sym u.target a ∧
      signedVal (readField (img u.location.section_) u.location.pos (Spec.width u.ty)) =
        (a : Int) + u.addend - ((base u.location.section_ : Int) + (u.location.pos : Int)) := by
  obtain ⟨syms, hs, hp⟩ := produce_ok hi.inSection hi.apart hprod
  have hin := hi.inSection u hu
  cases hv : staticValue w u with
  | some v =>
    obtain ⟨hr, hf⟩ := hp.static u hu v hv
    have hsame : readField (img u.location.section_) u.location.pos (Spec.width u.ty) =
        readField (o.buf u.location.section_) u.location.pos (Spec.width u.ty) := by
      apply readField_congr
      intro j j1 j2
      apply hl.same _ _ hin.1
      intro r hr ⟨c1, c2, c3⟩
      obtain ⟨u', hu', hn', _, e1, e2⟩ := reloc_of_use hp hr
      rw [e1] at c1 c2 c3
      rw [e2] at c3
      have hne : u' ≠ u := fun e => by rw [e, hv] at hn'; cases hn'
      have := pairwise_apart hi.apart hu' hu hne c1
      omega
    have hw : u.ty ≠ .abs64 := by rcases ht with h | h <;> rw [h] <;> decide
    rw [hsame, hf, signedVal_le hr hw]
    unfold staticValue at hv
    split at hv
    · rename_i d hd
      split at hv
      · rename_i hc
        cases hv
        refine ⟨_, .inl ⟨d, hd, rfl⟩, ?_⟩
        rw [hc.1]
        omega
      · cases hv
    · cases hv
  | none =>
    have hsome := hp.needed u hu hv
    cases hr : useReloc w u with
    | none => rw [hr] at hsome; cases hsome
    | some r =>
      have hmem : r ∈ o.relocs := by
        rw [hp.reloc, List.mem_filterMap]
        exact ⟨u, hu, by simp [hv, hr]⟩
      have hfield := hl.field r hmem
      have hrty : r.ty = .pcRel8 ∨ r.ty = .pcRel32 := by
        obtain ⟨u', _, _, h3, _, h5⟩ := reloc_of_use hp hmem
        have : r.ty = u.ty := by
          unfold useReloc at hr
          cases hx : relocOf w.names ((w.defs[u.target]?).bind id) u with
          | error e => rw [hx] at hr; cases hr
          | ok r' =>
            rw [hx] at hr
            cases hr
            unfold relocOf at hx
            split at hx <;> cases hx <;> rfl
        rw [this]
        exact ht
      have hfield' : ∃ addr, targetAddr base sym r.target = some addr ∧
          signedVal (readField (img r.location.section_) r.location.pos (Spec.width r.ty)) =
            (addr : Int) + r.addend - ((base r.location.section_ : Int) + (r.location.pos : Int)) := by
        unfold FieldOk at hfield
        rcases hrty with h | h <;> simp only [h] at hfield ⊢ <;> exact hfield
      obtain ⟨addr, h1, h2⟩ := hfield'
      obtain ⟨e1, e2, a, h3, h4⟩ := useReloc_target hi hs hp.symbols hr (hi.labels u hu) hl h1
      refine ⟨a, h3, ?_⟩
      rw [e1, e2] at h2
      rw [h2]
      omega

/-- Fields through the address table: the distance to the entry of the label's name. -/
theorem use_linked_table {w : Writer} {o : Object} (hi : Inv w) (hprod : produce w = .ok o) {base : Section → Nat}
    {sym table : String → Option Nat} {img : Section → List Nat} (hl : Linked o base sym table img) {u : Use}
    (hu : u ∈ w.uses) (ht : u.ty = .table32) :
    ∃ n a, HMap.get w.names n = some u.target ∧ table n = some a ∧
      signedVal (readField (img u.location.section_) u.location.pos (Spec.width u.ty)) =
        (a : Int) + u.addend - ((base u.location.section_ : Int) + (u.location.pos : Int)) := by
  obtain ⟨syms, hs, hp⟩ := produce_ok hi.inSection hi.apart hprod
  have hv : staticValue w u = none := by
    unfold staticValue
    split
    · rw [if_neg]
      rintro ⟨_, _, h | h⟩ <;> rw [ht] at h <;> cases h
    · rfl
  have hsome := hp.needed u hu hv
  cases hr : useReloc w u with
  | none => rw [hr] at hsome; cases hsome
  | some r =>
    have hmem : r ∈ o.relocs := by
      rw [hp.reloc, List.mem_filterMap]
      exact ⟨u, hu, by simp [hv, hr]⟩
    have hfield := hl.field r hmem
    unfold useReloc at hr
    cases hx : relocOf w.names ((w.defs[u.target]?).bind id) u with
    | error e => rw [hx] at hr; cases hr
    | ok r' =>
      rw [hx] at hr
      cases hr
      unfold relocOf at hx
      cases hn : labelSymbol w.names u.target with
      | some name =>
        rw [hn] at hx
        cases hx
        unfold FieldOk at hfield
        simp only [ht] at hfield ⊢
        obtain ⟨n, a, h1, h2, h3⟩ := hfield
        cases h1
        exact ⟨name, a, HMap.mem_get hi.keys (labelSymbol_mem hn), h2, h3⟩
      | none =>
        rw [hn] at hx
        exfalso
        split at hx
        · rename_i h; cases h
        · cases hx
          unfold FieldOk at hfield
          simp only [ht] at hfield
          obtain ⟨n, a, h1, _⟩ := hfield
          cases h1
        · cases hx

/-- Absolute fields contain the address of the label plus the addend. -/
theorem use_linked_abs {w : Writer} {o : Object} (hi : Inv w) (hprod : produce w = .ok o) {base : Section → Nat}
    {sym table : String → Option Nat} {img : Section → List Nat} (hl : Linked o base sym table img) {u : Use}
    (hu : u ∈ w.uses) (ht : u.ty = .abs64) :
    ∃ a, LabelAddr w base sym u.target a ∧
      ((leVal (readField (img u.location.section_) u.location.pos 8) : Int) - ((a : Int) + u.addend)) % 2 ^ 64 = 0 := by
  obtain ⟨syms, hs, hp⟩ := produce_ok hi.inSection hi.apart hprod
  have hv : staticValue w u = none := by
    unfold staticValue
    split
    · rw [if_neg]
      rintro ⟨_, _, h | h⟩ <;> rw [ht] at h <;> cases h
    · rfl
  have hsome := hp.needed u hu hv
  cases hr : useReloc w u with
  | none => rw [hr] at hsome; cases hsome
  | some r =>
    have hmem : r ∈ o.relocs := by
      rw [hp.reloc, List.mem_filterMap]
      exact ⟨u, hu, by simp [hv, hr]⟩
    have hfield := hl.field r hmem
    have hr' := hr
    have he : r.ty = .abs64 ∧ r.location = u.location := by
      unfold useReloc at hr
      cases hx : relocOf w.names ((w.defs[u.target]?).bind id) u with
      | error e => rw [hx] at hr; cases hr
      | ok r' =>
        rw [hx] at hr
        cases hr
        unfold relocOf at hx
        split at hx <;> cases hx <;> exact ⟨ht, rfl⟩
    unfold FieldOk at hfield
    simp only [he.1, he.2] at hfield
    obtain ⟨addr, h1, h2⟩ := hfield
    obtain ⟨e1, e2, a, h3, h4⟩ := useReloc_target hi hs hp.symbols hr' (hi.labels u hu) hl h1
    refine ⟨a, h3, ?_⟩
    rw [← h4]
    exact h2

/-! ## Instructions with a label -/

/-- The instruction is in the linked text: its bytes up to the field, then the field. -/
theorem inst_linked {pre post : List Op} {i : LabelInst} {w : Writer}
    (hok : ProgOk Writer.new (pre ++ .inst i :: post)) (hrun : run Writer.new (pre ++ .inst i :: post) = some w)
    {o : Object} (hprod : produce w = .ok o) {base : Section → Nat} {sym table : String → Option Nat}
    {img : Section → List Nat} (hl : Linked o base sym table img) :
    Inv w ∧ ∃ w0 bs, run Writer.new pre = some w0 ∧ i.bytes = some bs ∧ i.width ≤ bs.length ∧
      (⟨⟨.text, w0.text.length + (bs.length - i.width)⟩, i.label, i.use.2.1, i.use.2.2⟩ : Use) ∈ w.uses ∧
      w0.text.length + bs.length ≤ (img .text).length ∧
      InstAt (img .text) w0.text.length bs
        (readField (img .text) (w0.text.length + (bs.length - i.width)) i.width) := by
  obtain ⟨hi, w0, bs, h0, hb, hbl, hu, hpre, hfree⟩ := inst_in_writer hok hrun
  obtain ⟨syms, hs, hp⟩ := produce_ok hi.inSection hi.apart hprod
  have hlen : w0.text.length + bs.length ≤ (img .text).length := by
    rw [hl.len .text (by decide), hp.len]
    have := hpre.length_le
    rw [List.length_append] at this
    exact this
  refine ⟨hi, w0, bs, h0, hb, hbl, hu, hlen, ?_⟩
  have hfl : (readField (img .text) (w0.text.length + (bs.length - i.width)) i.width).length = i.width := by
    unfold readField
    rw [List.length_take, List.length_drop]
    omega
  refine ⟨(img .text).drop (w0.text.length + bs.length), ?_⟩
  rw [hfl]
  apply List.ext_getElem?
  intro j
  rw [List.getElem?_drop, List.append_assoc]
  by_cases h1 : j < bs.length - i.width
  · rw [List.getElem?_append_left (by rw [List.length_take]; omega), List.getElem?_take, if_pos h1]
    have hnc : ∀ u ∈ w.uses, ¬ Covers u .text (w0.text.length + j) := by
      rintro u hu ⟨c1, c2, c3⟩
      have := hfree u hu c1
      omega
    rw [hl.same .text _ (by decide), hp.frame .text _ (fun u hu _ => hnc u hu)]
    · obtain ⟨t, ht⟩ := hpre
      show w.text[w0.text.length + j]? = bs[j]?
      rw [← ht, List.append_assoc, List.getElem?_append_right (by omega), List.getElem?_append_left (by omega)]
      congr 1
      omega
    · intro r hr hc
      obtain ⟨u, hu, _, _, e1, e2⟩ := reloc_of_use hp hr
      unfold RelocCovers at hc
      rw [e1, e2] at hc
      exact hnc u hu hc
  · rw [List.getElem?_append_right (by rw [List.length_take]; omega), List.length_take]
    by_cases h2 : j < bs.length
    · rw [List.getElem?_append_left (by rw [hfl]; omega), readField_get, if_pos (by omega)]
      congr 1
      omega
    · rw [List.getElem?_append_right (by rw [hfl]; omega), hfl, List.getElem?_drop]
      congr 1
      omega

theorem use_shape {i : LabelInst} {k : Jump} (hk : i.jump = some k) :
    i.use.2.1 = -(i.width : Int) ∧ (i.use.2.2 = .pcRel8 ∨ i.use.2.2 = .pcRel32) := by
  cases i <;> simp only [LabelInst.jump] at hk <;> cases hk <;> refine ⟨rfl, ?_⟩ <;> first | exact .inl rfl | exact .inr rfl

/-- C25 after linking: wherever the object is loaded, every direct call or jump to a label, executed by the
processor from the linked bytes, arrives at the address of the label: the place of its definition, or the
symbol of its name if it has no definition in the object. -/
theorem jump_linked {pre post : List Op} {i : LabelInst} {k : Jump} {w : Writer}
    (hok : ProgOk Writer.new (pre ++ .inst i :: post)) (hrun : run Writer.new (pre ++ .inst i :: post) = some w)
    {o : Object} (hprod : produce w = .ok o) {base : Section → Nat} {sym table : String → Option Nat}
    {img : Section → List Nat} (hl : Linked o base sym table img) (hk : i.jump = some k) :
    ∃ w0 t a, run Writer.new pre = some w0 ∧ jumpAt (img .text) w0.text.length = some (k, t) ∧
      LabelAddr w base sym i.label a ∧ (base .text : Int) + t = a := by
  obtain ⟨hi, w0, bs, h0, hb, hbl, hu, hlen, hat⟩ := inst_linked hok hrun hprod hl
  obtain ⟨e1, e2⟩ := use_shape hk
  obtain ⟨a, ha, hf⟩ := use_linked hi hprod hl hu e2
  have hfl : (readField (img .text) (w0.text.length + (bs.length - i.width)) i.width).length = i.width := by
    unfold readField
    rw [List.length_take, List.length_drop]
    omega
  have hj := jump_meaning hk hb hfl hat
  refine ⟨w0, _, a, h0, hj, ha, ?_⟩
  simp only [e1] at hf
  have hf' : signedVal (readField (img .text) (w0.text.length + (bs.length - i.width)) i.width) = _ := hf
  rw [hf']
  omega

/-- C25: after `produce` every direct call or jump to a label defined in the text of the object arrives at
the position of the definition: `pre` and `pre'` are the parts of the program before the jump and before the
definition (in either order), the positions are what they wrote to `.text`. -/
theorem jump_lands {ops pre post pre' post' : List Op} {i : LabelInst} {k : Jump} {g : Bool} {w : Writer}
    (hok : ProgOk Writer.new ops) (hrun : run Writer.new ops = some w) (hi : ops = pre ++ .inst i :: post)
    (hd : ops = pre' ++ .define .text i.label g :: post') {o : Object} (hprod : produce w = .ok o)
    (hk : i.jump = some k) :
    ∃ w0 w1, run Writer.new pre = some w0 ∧ run Writer.new pre' = some w1 ∧
      jumpAt o.text w0.text.length = some (k, (w1.text.length : Int)) := by
  obtain ⟨w1, h1, hdef⟩ := define_in_writer (hd ▸ hok) (hd ▸ hrun)
  obtain ⟨hinv, w0, bs, h0, hb, hbl, hu, hpre, hfree⟩ := inst_in_writer (hi ▸ hok) (hi ▸ hrun)
  obtain ⟨syms, hs, hp⟩ := produce_ok hinv.inSection hinv.apart hprod
  refine ⟨w0, w1, h0, h1, ?_⟩
  obtain ⟨e1, e2⟩ := use_shape hk
  have hv : staticValue w ⟨⟨.text, w0.text.length + (bs.length - i.width)⟩, i.label, i.use.2.1, i.use.2.2⟩ =
      some ((w1.text.length : Int) + i.use.2.1 - ((w0.text.length + (bs.length - i.width) : Nat) : Int)) := by
    simp only [staticValue, hdef]
    have hc : (Section.text = Section.text) ∧ Section.text ≠ Section.bss ∧
        (i.use.2.2 = .pcRel8 ∨ i.use.2.2 = .pcRel32) := ⟨rfl, by decide, e2⟩
    simp only [e2, and_true, if_true, Writer.pos, ne_eq, reduceCtorEq, not_false_eq_true]
  obtain ⟨hr, hf⟩ := hp.static _ hu _ hv
  have hfl : (leBytes i.width ((w1.text.length : Int) + i.use.2.1 -
      ((w0.text.length + (bs.length - i.width) : Nat) : Int))).length = i.width := leBytes_length _ _
  have hot : (o.buf .text).length = w.text.length := hp.len .text
  have hwl := hpre.length_le
  rw [List.length_append] at hwl
  have hat : InstAt o.text w0.text.length bs (leBytes i.width ((w1.text.length : Int) + i.use.2.1 -
      ((w0.text.length + (bs.length - i.width) : Nat) : Int))) := by
    refine ⟨o.text.drop (w0.text.length + bs.length), ?_⟩
    rw [hfl]
    apply List.ext_getElem?
    intro j
    rw [List.getElem?_drop, List.append_assoc]
    by_cases h1 : j < bs.length - i.width
    · rw [List.getElem?_append_left (by rw [List.length_take]; omega), List.getElem?_take, if_pos h1]
      have hnc : ∀ u ∈ w.uses, ¬ Covers u .text (w0.text.length + j) := by
        rintro u hu ⟨c1, c2, c3⟩
        have := hfree u hu c1
        omega
      have hfr : o.text[w0.text.length + j]? = w.text[w0.text.length + j]? :=
        hp.frame .text _ (fun u hu _ => hnc u hu)
      rw [hfr]
      obtain ⟨t, ht⟩ := hpre
      rw [← ht, List.append_assoc, List.getElem?_append_right (by omega), List.getElem?_append_left (by omega)]
      congr 1
      omega
    · rw [List.getElem?_append_right (by rw [List.length_take]; omega), List.length_take]
      by_cases h2 : j < bs.length
      · rw [List.getElem?_append_left (by rw [hfl]; omega)]
        have hf' : readField o.text (w0.text.length + (bs.length - i.width)) i.width = leBytes i.width _ := hf
        rw [← hf', readField_get, if_pos (by omega)]
        congr 1
        omega
      · rw [List.getElem?_append_right (by rw [hfl]; omega), hfl, List.getElem?_drop]
        congr 1
        omega
  have hj := jump_meaning hk hb hfl hat
  rw [hj]
  have hsv := signedVal_le hr (by rcases e2 with h | h <;> simp only [h] <;> exact fun h => by cases h)
  have hsv' : signedVal (leBytes i.width _) = _ := hsv
  rw [hsv', e1]
  congr 2
  omega

theorem mem_use_shape {i : LabelInst} {x : List Nat × Bool × List Nat × RegSlot} (hk : i.mem = some x) :
    i.use.2.1 = -4 ∧ i.width = 4 ∧ (if i.viaTable then i.use.2.2 = .table32 else i.use.2.2 = .pcRel32) := by
  cases i <;> simp only [LabelInst.mem] at hk <;> cases hk <;> exact ⟨rfl, rfl, rfl⟩

/-- C56 (partial: without `movq label, imm32`, see `operand_linked_refuted`): wherever the object is loaded,
the processor reads every load, store or `lea` with a label as the instruction given (opcode and register),
with an operand at the address of the label. -/
theorem operand_linked_partial {pre post : List Op} {i : LabelInst} {w : Writer}
    (hok : ProgOk Writer.new (pre ++ .inst i :: post)) (hrun : run Writer.new (pre ++ .inst i :: post) = some w)
    {o : Object} (hprod : produce w = .ok o) {base : Section → Nat} {sym table : String → Option Nat}
    {img : Section → List Nat} (hl : Linked o base sym table img) {legacy opcode : List Nat} {rexW : Bool}
    {reg : RegSlot} (hk : i.mem = some (legacy, rexW, opcode, reg)) (ht : i.viaTable = false) :
    ∃ w0 d t a, run Writer.new pre = some w0 ∧ ripOperandAt 0 (img .text) w0.text.length = some (d, t) ∧
      (d.legacy = legacy ∧ d.rexW = rexW ∧ d.opcode = opcode ∧ RegMatches reg d.rexPresent d.reg) ∧
      LabelAddr w base sym i.label a ∧ (base .text : Int) + t = a := by
  obtain ⟨hi, w0, bs, h0, hb, hbl, hu, hlen, hat⟩ := inst_linked hok hrun hprod hl
  obtain ⟨e1, e2, e3⟩ := mem_use_shape hk
  rw [ht] at e3
  obtain ⟨a, ha, hf⟩ := use_linked hi hprod hl hu (.inr e3)
  have hfl : (readField (img .text) (w0.text.length + (bs.length - i.width)) i.width).length = i.width := by
    unfold readField
    rw [List.length_take, List.length_drop]
    omega
  have hbytes : ∀ b ∈ readField (img .text) (w0.text.length + (bs.length - i.width)) i.width, b < 256 :=
    fun b hb => hl.bytes .text b (List.mem_of_mem_drop (List.mem_of_mem_take hb))
  obtain ⟨d, hd, hrest⟩ := mem_meaning hk hb hfl hbytes hat hlen
  refine ⟨w0, d, _, a, h0, hd, hrest, ha, ?_⟩
  simp only [e1] at hf
  have hf' : signedVal (readField (img .text) (w0.text.length + (bs.length - i.width)) i.width) = _ := hf
  rw [hf']
  omega

/-- C56: calls, jumps and loads through the address table have their operand at the entry of the label's
name. -/
theorem table_operand_linked {pre post : List Op} {i : LabelInst} {w : Writer}
    (hok : ProgOk Writer.new (pre ++ .inst i :: post)) (hrun : run Writer.new (pre ++ .inst i :: post) = some w)
    {o : Object} (hprod : produce w = .ok o) {base : Section → Nat} {sym table : String → Option Nat}
    {img : Section → List Nat} (hl : Linked o base sym table img) {legacy opcode : List Nat} {rexW : Bool}
    {reg : RegSlot} (hk : i.mem = some (legacy, rexW, opcode, reg)) (ht : i.viaTable = true) :
    ∃ w0 d t n a, run Writer.new pre = some w0 ∧ ripOperandAt 0 (img .text) w0.text.length = some (d, t) ∧
      (d.legacy = legacy ∧ d.rexW = rexW ∧ d.opcode = opcode ∧ RegMatches reg d.rexPresent d.reg) ∧
      HMap.get w.names n = some i.label ∧ table n = some a ∧ (base .text : Int) + t = a := by
  obtain ⟨hi, w0, bs, h0, hb, hbl, hu, hlen, hat⟩ := inst_linked hok hrun hprod hl
  obtain ⟨e1, e2, e3⟩ := mem_use_shape hk
  rw [ht, if_pos rfl] at e3
  obtain ⟨n, a, hn, ha, hf⟩ := use_linked_table hi hprod hl hu e3
  have hfl : (readField (img .text) (w0.text.length + (bs.length - i.width)) i.width).length = i.width := by
    unfold readField
    rw [List.length_take, List.length_drop]
    omega
  have hbytes : ∀ b ∈ readField (img .text) (w0.text.length + (bs.length - i.width)) i.width, b < 256 :=
    fun b hb => hl.bytes .text b (List.mem_of_mem_drop (List.mem_of_mem_take hb))
  obtain ⟨d, hd, hrest⟩ := mem_meaning hk hb hfl hbytes hat hlen
  refine ⟨w0, d, _, n, a, h0, hd, hrest, hn, ha, ?_⟩
  simp only [e1] at hf
  have hf' : signedVal (readField (img .text) (w0.text.length + (bs.length - i.width)) i.width) = _ := hf
  rw [hf']
  omega

/-! ## `movq label, imm32` -/

/-- `movq x, 5` with `x` in `.data`. -/
def storeImmProg : List Op :=
  [.get "x", .define .data 0 true, .write .data [0, 0, 0, 0, 0, 0, 0, 0], .inst (.storeImm 0 5)]

/-- The writer after `storeImmProg`. -/
def storeImmWriter : Writer :=
  ⟨[0x48, 0xC7, 0x05, 0, 0, 0, 0, 5, 0, 0, 0], [0, 0, 0, 0, 0, 0, 0, 0], [], 0,
    [some ⟨true, ⟨.data, 0⟩⟩], [⟨⟨.text, 7⟩, 0, -4, .pcRel32⟩], [("x", 0)]⟩

/-- The object of `storeImmProg`. -/
def storeImmObj : Object :=
  ⟨[0x48, 0xC7, 0x05, 0, 0, 0, 0, 5, 0, 0, 0], [0, 0, 0, 0, 0, 0, 0, 0], [], 0,
    [("x", .global (some ⟨.data, 0⟩))], [⟨⟨.text, 7⟩, .symbol "x", -4, .pcRel32⟩]⟩

/-- Text at 4096, data at 8192. -/
def storeImmBase : Section → Nat
  | .text => 4096
  | .data => 8192
  | .rodata => 12288
  | .bss => 8200

/-- `storeImmObj` linked. -/
def storeImmImg : Section → List Nat
  | .text => [0x48, 0xC7, 0x05, 0, 0, 0, 0, 0xF5, 0x0F, 0, 0]
  | .data => [0, 0, 0, 0, 0, 0, 0, 0]
  | _ => []

theorem storeImm_linked :
    Linked storeImmObj storeImmBase (fun n => if n = "x" then some 8192 else none) (fun _ => none) storeImmImg := by
  refine ⟨?_, ?_, ?_, ?_, ?_⟩
  · intro s _; cases s <;> rfl
  · intro s; cases s <;> decide
  · intro s j _ h
    cases s
    · match j with
      | 0 | 1 | 2 | 3 | 4 | 5 | 6 => rfl
      | 7 | 8 | 9 | 10 => exact absurd ⟨rfl, by decide, by decide⟩ (h _ (List.mem_singleton.2 rfl))
      | n + 11 => rfl
    all_goals rfl
  · intro r hr
    rw [show storeImmObj.relocs = [⟨⟨.text, 7⟩, .symbol "x", -4, .pcRel32⟩] from rfl, List.mem_singleton] at hr
    subst hr
    exact ⟨8192, rfl, by decide⟩
  · intro n loc h
    simp only [storeImmObj, List.mem_singleton, Prod.mk.injEq, reduceCtorEq, and_false, false_or,
      Binding.global.injEq, Option.some.injEq] at h
    obtain ⟨rfl, rfl⟩ := h
    rfl

/-- C56 fails for `movq label, imm32` (writer.rs:446): the use is recorded for the last four bytes of the
instruction, which are the immediate.  Linking overwrites the immediate 5 and leaves the displacement 0: the
operand is the next instruction, not `x`. -/
theorem operand_linked_refuted : ProgOk Writer.new storeImmProg ∧ run Writer.new storeImmProg = some storeImmWriter ∧
    produce storeImmWriter = .ok storeImmObj ∧
    ∃ sym table, Linked storeImmObj storeImmBase sym table storeImmImg ∧
      LabelAddr storeImmWriter storeImmBase sym 0 8192 ∧
      (∃ d, ripOperandAt 4 (storeImmImg .text) 0 = some (d, 11) ∧ (storeImmBase .text : Int) + 11 ≠ 8192 ∧
        d.opcode = [0xC7] ∧ leVal (d.rest.take 4) ≠ 5) := by
  refine ⟨?_, by rfl, by rfl, _, _, storeImm_linked, .inl ⟨_, rfl, rfl⟩,
    ⟨[], true, true, [0xC7], 0, .mem ⟨.rip, none, 0⟩, [0xF5, 0x0F, 0, 0]⟩, by decide +kernel, by decide, rfl, by decide⟩
  refine ⟨trivial, fun w h => ?_⟩
  cases h
  refine ⟨Nat.zero_lt_one, fun w h => ?_⟩
  cases h
  refine ⟨trivial, fun w h => ?_⟩
  cases h
  refine ⟨Nat.zero_lt_one, fun w h => trivial⟩

/-! ## When `produce` succeeds; labels -/

theorem labelSymbol_isSome {names : HMap String Nat} {n : String} {l : Nat} (h : (n, l) ∈ names) :
    ∃ m, labelSymbol names l = some m := by
  unfold labelSymbol
  cases hf : List.find? (fun p => p.2 == l) names with
  | some p => exact ⟨p.1, rfl⟩
  | none =>
    have := List.find?_eq_none.1 hf (n, l) h
    simp at this

theorem symbolsOf_some {w : Writer} : ∀ {l : List (String × Nat)}, (∀ n k, (n, k) ∈ l → k < w.defs.length) →
    ∃ syms, symbolsOf w l = some syms := by
  intro l
  induction l with
  | nil => exact fun _ => ⟨[], rfl⟩
  | cons p l ih =>
    intro h
    obtain ⟨name, v⟩ := p
    obtain ⟨syms, hs⟩ := ih (fun n k hm => h n k (List.mem_cons_of_mem _ hm))
    have hv := h name v (List.mem_cons_self ..)
    have : ∃ b, bindingOf w v = some b := by
      unfold bindingOf
      rw [List.getElem?_eq_getElem hv]
      cases w.defs[v] with
      | none => exact ⟨_, rfl⟩
      | some d => exact ⟨_, rfl⟩
    obtain ⟨b, hb⟩ := this
    exact ⟨(name, b) :: syms, by simp [symbolsOf, hb, hs]⟩

/-- A use `produce` can handle: its label is defined or named, and a definition in the same section is near
enough for the field. -/
def UseProducible (w : Writer) (u : Use) : Prop :=
  ((∃ d, w.defs[u.target]? = some (some d)) ∨ ∃ n, HMap.get w.names n = some u.target) ∧
  ∀ d, w.defs[u.target]? = some (some d) → d.location.section_ = u.location.section_ →
    (u.ty = .pcRel8 ∨ u.ty = .pcRel32) → InRange u.ty ((d.location.pos : Int) + u.addend - (u.location.pos : Int))

theorem produceUse_iff {w : Writer} (hi : Inv w) {u : Use} (hu : u ∈ w.uses) (o : Object) :
    (∃ o', produceUse w o u = .ok o') ↔ UseProducible w u := by
  have hlt := hi.labels u hu
  have hin := hi.inSection u hu
  constructor
  · rintro ⟨o', h⟩
    obtain ⟨_, hc⟩ := produceUse_cases h
    rcases hc with ⟨v, hv, hr, _⟩ | ⟨hv, r, hr, _⟩
    · unfold staticValue at hv
      split at hv
      · rename_i d hd
        split at hv
        · cases hv
          refine ⟨.inl ⟨d, hd⟩, fun d' hd' _ _ => ?_⟩
          rw [hd] at hd'
          cases hd'
          exact hr
        · cases hv
      · cases hv
    · refine ⟨?_, fun d hd h1 h2 => ?_⟩
      · unfold useReloc at hr
        cases hx : relocOf w.names ((w.defs[u.target]?).bind id) u with
        | error e => rw [hx] at hr; cases hr
        | ok r' =>
          unfold relocOf at hx
          split at hx
          · rename_i name hn
            exact .inr ⟨name, HMap.mem_get hi.keys (labelSymbol_mem hn)⟩
          · rename_i d _ hd
            left
            cases hz : w.defs[u.target]? with
            | none => rw [hz] at hd; cases hd
            | some d? =>
              rw [hz] at hd
              have : d? = some d := hd
              exact ⟨d, by rw [this]⟩
          · cases hx
      · unfold staticValue at hv
        rw [hd] at hv
        simp only at hv
        rw [if_pos ⟨h1, hin.1, h2⟩] at hv
        cases hv
  · rintro ⟨h1, h2⟩
    unfold produceUse
    cases hd : w.defs[u.target]? with
    | none => rw [List.getElem?_eq_none_iff] at hd; omega
    | some d? =>
      cases d? with
      | none =>
        rcases h1 with ⟨d, hd'⟩ | ⟨n, hn⟩
        · rw [hd] at hd'; cases hd'
        · obtain ⟨m, hm⟩ := labelSymbol_isSome (HMap.get_some_mem hn)
          simp only [relocOf, hm]
          exact ⟨_, rfl⟩
      | some d =>
        simp only
        have hreloc : ∃ r, relocOf w.names (some d) u = .ok r := by
          unfold relocOf
          cases labelSymbol w.names u.target with
          | some name => exact ⟨_, rfl⟩
          | none => exact ⟨_, rfl⟩
        obtain ⟨r, hr⟩ := hreloc
        have ht : (∃ o1, tryStatic d o u = .ok (some o1)) ∨ tryStatic d o u = .ok none := by
          unfold tryStatic
          split
          · rename_i hc
            cases hty : u.ty with
            | pcRel8 =>
              have := h2 d hd hc.1 (.inl hty)
              rw [hty] at this
              unfold InRange at this
              simp only [resolveStatically, if_pos this]
              exact .inl ⟨_, rfl⟩
            | pcRel32 =>
              have := h2 d hd hc.1 (.inr hty)
              rw [hty] at this
              unfold InRange at this
              simp only [resolveStatically, if_pos this]
              exact .inl ⟨_, rfl⟩
            | table32 => exact .inr rfl
            | abs64 => exact .inr rfl
          · exact .inr rfl
        rcases ht with ⟨o1, ht⟩ | ht
        · rw [ht]; exact ⟨_, rfl⟩
        · rw [ht]; simp only [hr]; exact ⟨_, rfl⟩

/-- `produce` succeeds exactly when every used label is defined or named and every definition in the section
of a relative use is near enough; nothing is truncated. -/
theorem produce_succeeds_iff {ops : List Op} {w : Writer} (hok : ProgOk Writer.new ops)
    (hrun : run Writer.new ops = some w) :
    (∃ o, produce w = .ok o) ↔ ∀ u ∈ w.uses, UseProducible w u := by
  have hi := (run_inv inv_new hok hrun).1
  obtain ⟨syms, hs⟩ := symbolsOf_some (w := w) (l := w.names) hi.names
  unfold produce
  rw [hs]
  simp only
  have key : ∀ (us : List Use) (o : Object), (∀ u ∈ us, u ∈ w.uses) →
      ((∃ o', produceUses w o us = .ok o') ↔ ∀ u ∈ us, UseProducible w u) := by
    intro us
    induction us with
    | nil => intro o _; exact ⟨fun _ u hu => (by cases hu), fun _ => ⟨o, rfl⟩⟩
    | cons u us ih =>
      intro o hmem
      have h1 := produceUse_iff hi (hmem u (List.mem_cons_self ..)) o
      simp only [produceUses]
      constructor
      · rintro ⟨o', h⟩
        split at h
        · rename_i o1 ho
          intro x hx
          rcases List.mem_cons.1 hx with rfl | hx
          · exact h1.1 ⟨o1, ho⟩
          · exact (ih o1 (fun x hx => hmem x (List.mem_cons_of_mem _ hx))).1 ⟨o', h⟩ x hx
        · cases h
      · intro h
        obtain ⟨o1, ho⟩ := h1.2 (h u (List.mem_cons_self ..))
        rw [ho]
        exact (ih o1 (fun x hx => hmem x (List.mem_cons_of_mem _ hx))).2
          (fun x hx => h x (List.mem_cons_of_mem _ hx))
  exact key _ _ (fun _ h => h)

theorem names_inj {names : HMap String Nat} (h : (names.map (·.2)).Nodup) {n m : String} {l : Nat} (hn : (n, l) ∈ names)
    (hm : (m, l) ∈ names) : n = m := by
  induction names with
  | nil => cases hn
  | cons p names ih =>
    rw [List.map_cons, List.nodup_cons] at h
    rcases List.mem_cons.1 hn with e1 | h1 <;> rcases List.mem_cons.1 hm with e2 | h2
    · rw [← e1] at e2; cases e2; rfl
    · exact absurd (e1 ▸ List.mem_map_of_mem (f := (·.2)) h2) h.1
    · exact absurd (e2 ▸ List.mem_map_of_mem (f := (·.2)) h1) h.1
    · exact ih h.2 h1 h2

/-- A name always stands for the same label, different names for different labels, and an unnamed label is
new. -/
theorem labels_distinct {ops : List Op} {w : Writer} (hok : ProgOk Writer.new ops)
    (hrun : run Writer.new ops = some w) (n m : String) :
    let (l, w1) := getLabel w n
    (getLabel w1 n).1 = l ∧ (m ≠ n → (getLabel w1 m).1 ≠ l) ∧ (issueLabel w1).1 ≠ l := by
  have hi := (run_inv inv_new hok hrun).1
  obtain ⟨hi1, _⟩ := get_inv (name := n) hi
  have hg : HMap.get (getLabel w n).2.names n = some (getLabel w n).1 := by
    unfold getLabel
    split
    · rename_i l hl; exact hl
    · show HMap.get (HMap.insert w.names n w.defs.length) n = some w.defs.length
      rw [HMap.get_insert, if_pos rfl]
  have hlt := hi1.names n _ (HMap.get_some_mem hg)
  show (getLabel (getLabel w n).2 n).1 = (getLabel w n).1 ∧
    (m ≠ n → (getLabel (getLabel w n).2 m).1 ≠ (getLabel w n).1) ∧ (getLabel w n).2.defs.length ≠ (getLabel w n).1
  generalize (getLabel w n).2 = w1 at *
  generalize (getLabel w n).1 = l at *
  refine ⟨?_, ?_, by omega⟩
  · unfold getLabel
    rw [hg]
  · intro hm
    unfold getLabel
    split
    · rename_i l' hl
      intro e
      have e : l' = l := e
      subst e
      exact hm (names_inj hi1.vals (HMap.get_some_mem hl) (HMap.get_some_mem hg))
    · show w1.defs.length ≠ _
      omega

/-- The instructions with a label never panic. -/
theorem inst_some (w : Writer) (i : LabelInst) : (inst w i).isSome = true := by
  have hb : i.bytes.isSome = true := by
    cases i
    case storeGpr r | loadGpr r _ | loadGprTable r _ | lea r _ => cases r <;> rfl
    case storeXmm x | loadXmm x _ | loadXmmTable x _ => cases x <;> rfl
    all_goals rfl
  obtain ⟨bs, hbs⟩ := Option.isSome_iff_exists.1 hb
  have hbl := bytes_shape hbs
  have e : i.use.1 = -(i.width : Int) := by cases i <;> rfl
  unfold inst
  rw [hbs]
  have hc : 0 ≤ ((w.text.length + bs.length : Nat) : Int) + -(i.width : Int) := by omega
  simp only [write, bind, Option.bind, useRelative, Location.offset, Writer.pos, List.length_append, e, if_pos hc]
  rfl

/-! ## A program with a forward jump, a backward jump and a call of an external function -/

/-- `jmp end; start: call puts; je start; end:` -/
def loopProg : List Op :=
  [.issue, .issue, .get "puts", .inst (.jmp 1), .define .text 0 false, .inst (.call 2), .inst (.jccShort 4 0),
    .define .text 1 false]

def loopWriter : Writer := (run Writer.new loopProg).get (by decide +kernel)

theorem loopProg_runs : run Writer.new loopProg = some loopWriter := (Option.some_get _).symm

theorem loopProg_ok : ProgOk Writer.new loopProg := by
  refine ⟨trivial, fun w h => ?_⟩; cases h
  refine ⟨trivial, fun w h => ?_⟩; cases h
  refine ⟨trivial, fun w h => ?_⟩; cases h
  refine ⟨(by decide : 1 < 3), fun w h => ?_⟩; cases h
  refine ⟨(by decide : 0 < 3), fun w h => ?_⟩; cases h
  refine ⟨(by decide : 2 < 3), fun w h => ?_⟩; cases h
  refine ⟨(by decide : 0 < 3), fun w h => ?_⟩; cases h
  exact ⟨(by decide : 1 < 3), fun w h => trivial⟩

/-- The object: the displacements 7 and -7 are filled in, the call is left to the linker. -/
def loopObj : Object :=
  { text := [0xE9, 7, 0, 0, 0, 0xE8, 0, 0, 0, 0, 0x74, 0xF9], data := [], rodata := [], bss := 0,
    relocs := [⟨⟨.text, 6⟩, .symbol "puts", -4, .pcRel32⟩], symbols := [("puts", .global none)] }

theorem loopProg_produces : produce loopWriter = .ok loopObj := by rfl

example : ∃ w0 w1, run Writer.new (loopProg.take 3) = some w0 ∧ run Writer.new (loopProg.take 7) = some w1 ∧
    jumpAt loopObj.text w0.text.length = some (.jmp, (w1.text.length : Int)) :=
  jump_lands (i := .jmp 1) (post := loopProg.drop 4) (post' := []) (g := false) loopProg_ok loopProg_runs rfl rfl
    loopProg_produces rfl

example : ∃ w0 w1, run Writer.new (loopProg.take 6) = some w0 ∧ run Writer.new (loopProg.take 4) = some w1 ∧
    jumpAt loopObj.text w0.text.length = some (.jcc 4, (w1.text.length : Int)) :=
  jump_lands (i := .jccShort 4 0) (post := loopProg.drop 7) (post' := loopProg.drop 5) (g := false) loopProg_ok
    loopProg_runs rfl rfl loopProg_produces rfl

example : jumpAt loopObj.text 0 = some (.jmp, 12) ∧ jumpAt loopObj.text 10 = some (.jcc 4, 5) := by decide

example : ∀ u ∈ loopWriter.uses, UseProducible loopWriter u :=
  (produce_succeeds_iff loopProg_ok loopProg_runs).1 ⟨_, loopProg_produces⟩

/-- A label never defined nor named makes `produce` fail. -/
example : produce ((run Writer.new [.issue, .inst (.jmp 0)]).get (by decide +kernel)) = .error (.noDefinition 0) := by rfl

end Verif.Obj
