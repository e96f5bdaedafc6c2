import Verif.Rw.Model
import Verif.Utf8.Props

/-!
# C82 and C83: readers and writers
-/

namespace Verif.Rw

variable {R E : Type}

/-! ## Reading to the end -/

theorem toEndLoop_spec (rd : Read R E) (src : R → List UInt8 → Option E → Prop) (hp : Proper rd src)
    (fuel : Nat) (tmp : List UInt8) (ht : tmp ≠ []) (total : BitVec 64) (buf : List UInt8) (r : R)
    (bs : List UInt8) (stop : Option E) (hs : src r bs stop) (hf : bs.length < fuel) :
    (stop = none → ∃ r', toEndLoop rd fuel tmp total buf r =
      some (.ok (total + BitVec.ofNat 64 bs.length), buf ++ bs, r') ∧ src r' [] none) ∧
    (∀ e, stop = some e → ∃ k r', toEndLoop rd fuel tmp total buf r =
      some (.error e, buf ++ bs.take k, r')) := by
  induction fuel generalizing tmp total buf r bs with
  | zero => omega
  | succ fuel ih =>
    rcases hp tmp r bs stop hs with ⟨n, r', h, h1, h2, h3, h4⟩ | ⟨e, tmp', r', he, h⟩
    · have hl : (bs.take n ++ tmp.drop n).length = tmp.length := by simp; omega
      have htake : (bs.take n ++ tmp.drop n).take (min n (bs.take n ++ tmp.drop n).length) =
          bs.take n := by
        rw [hl, Nat.min_eq_left h1, List.take_left' (by simp; omega)]
      unfold toEndLoop
      simp only [h, htake]
      by_cases hn : n = 0
      · subst hn
        rcases h3 rfl with h3 | ⟨h3, h5⟩
        · exact absurd h3 ht
        · subst h3 h5
          simp_all
      · have ht' : bs.take n ++ tmp.drop n ≠ [] := by
          intro h0
          rw [h0] at hl
          exact ht (List.length_eq_zero_iff.mp hl.symm)
        have hd : (bs.drop n).length < fuel := by simp; omega
        obtain ⟨i1, i2⟩ := ih _ ht' (total + BitVec.ofNat 64 n) (buf ++ bs.take n) r' _ h4 hd
        simp only [hn, ne_eq, not_false_eq_true, if_true]
        constructor
        · intro h0
          obtain ⟨r'', i1, i3⟩ := i1 h0
          refine ⟨r'', ?_, i3⟩
          rw [i1, List.append_assoc, List.take_append_drop, BitVec.add_assoc, ← BitVec.ofNat_add]
          simp only [List.length_drop]
          rw [Nat.add_sub_cancel' h2]
        · intro e h0
          obtain ⟨k, r'', i2⟩ := i2 e h0
          refine ⟨n + k, r'', ?_⟩
          rw [i2, List.append_assoc, List.take_add]
    · subst he
      unfold toEndLoop
      simp only [h]
      refine ⟨by simp, ?_⟩
      intro e' he'
      cases he'
      exact ⟨0, r', by simp⟩

theorem toEndLoop_mono (rd : Read R E) (n : Nat) (tmp : List UInt8) (total : BitVec 64)
    (buf : List UInt8) (r : R) (x : Except E (BitVec 64) × List UInt8 × R)
    (h : toEndLoop rd n tmp total buf r = some x) (k : Nat) :
    toEndLoop rd (n + k) tmp total buf r = some x := by
  induction n generalizing tmp total buf r with
  | zero => simp [toEndLoop] at h
  | succ n ih =>
    rw [Nat.add_right_comm]
    rw [toEndLoop] at h ⊢
    split <;> rename_i h1 <;> simp only [h1] at h
    · exact h
    · exact h
    · split at h
      · rename_i h2
        simp only [h2, ne_eq, not_false_eq_true, if_true]
        exact ih _ _ _ _ h
      · rename_i h2
        simp only [h2, if_false]
        exact h

/-- C82: every reader that keeps to the class is read to its end, however it splits what it has; the
array in between may have had anything in it. -/
theorem toEndInto_reads (rd : Read R E) (src : R → List UInt8 → Option E → Prop) (hp : Proper rd src)
    (tmp : List UInt8) (ht : tmp.length = 4096) (buf : List UInt8) (r : R) (bs : List UInt8)
    (hs : src r bs none) : ∃ r', src r' [] none ∧ ∃ n0, ∀ n, n0 ≤ n → toEndInto rd n tmp buf r =
      some (.ok (BitVec.ofNat 64 bs.length), buf ++ bs, r') := by
  have h0 : tmp ≠ [] := by rintro rfl; simp at ht
  have key := fun n (hn : bs.length < n) =>
    (toEndLoop_spec rd src hp n tmp h0 0 buf r bs none hs hn).1 rfl
  obtain ⟨r', h1, h2⟩ := key (bs.length + 1) (by omega)
  refine ⟨r', h2, bs.length + 1, ?_⟩
  intro n hn
  obtain ⟨k, rfl⟩ := Nat.exists_eq_add_of_le hn
  have h3 := toEndLoop_mono rd _ _ _ _ _ _ h1 k
  simpa [toEndInto] using h3

/-- C82: a reader that fails makes the whole fail, and what was read before is in the buffer. -/
theorem toEndInto_fails (rd : Read R E) (src : R → List UInt8 → Option E → Prop) (hp : Proper rd src)
    (tmp : List UInt8) (ht : tmp.length = 4096) (buf : List UInt8) (r : R) (bs : List UInt8) (e : E)
    (hs : src r bs (some e)) (n : Nat) (hn : bs.length < n) :
    ∃ k r', toEndInto rd n tmp buf r = some (.error e, buf ++ bs.take k, r') := by
  have h0 : tmp ≠ [] := by rintro rfl; simp at ht
  exact (toEndLoop_spec rd src hp n tmp h0 0 buf r bs (some e) hs hn).2 e rfl

/-- C82: `read-bytes-to-end!`. -/
theorem toEnd_reads (rd : Read R E) (src : R → List UInt8 → Option E → Prop) (hp : Proper rd src)
    (tmp : List UInt8) (ht : tmp.length = 4096) (r : R) (bs : List UInt8) (hs : src r bs none) :
    ∃ r', src r' [] none ∧ ∃ n0, ∀ n, n0 ≤ n → toEnd rd n tmp r = some (.ok bs, r') := by
  obtain ⟨r', h1, n0, h2⟩ := toEndInto_reads rd src hp tmp ht [] r bs hs
  refine ⟨r', h1, n0, fun n hn => ?_⟩
  simp [toEnd, h2 n hn]

/-- C82: and it fails with the error of the reader. -/
theorem toEnd_fails (rd : Read R E) (src : R → List UInt8 → Option E → Prop) (hp : Proper rd src)
    (tmp : List UInt8) (ht : tmp.length = 4096) (r : R) (bs : List UInt8) (e : E)
    (hs : src r bs (some e)) (n : Nat) (hn : bs.length < n) :
    ∃ r', toEnd rd n tmp r = some (.error e, r') := by
  obtain ⟨k, r', h⟩ := toEndInto_fails rd src hp tmp ht [] r bs e hs n hn
  exact ⟨r', by simp [toEnd, h]⟩

/-- C82: `read-string-to-end!` gives what is left exactly if it is the text of characters that the
standard library knows (C38), and the error for invalid data if not. -/
theorem stringToEnd_reads (rd : Read R E) (src : R → List UInt8 → Option E → Prop)
    (hp : Proper rd src) (invalidData : E) (tmp : List UInt8) (ht : tmp.length = 4096) (r : R)
    (bs : List UInt8) (hs : src r bs none) :
    ∃ r', src r' [] none ∧ ∃ n0, ∀ n, n0 ≤ n →
      ((∃ xs, (∀ x ∈ xs, Utf8.Known x) ∧ bs.map UInt8.toNat = Utf8.Spec.utf8s xs) →
        stringToEnd rd invalidData n tmp r = some (.ok bs, r')) ∧
      (¬ (∃ xs, (∀ x ∈ xs, Utf8.Known x) ∧ bs.map UInt8.toNat = Utf8.Spec.utf8s xs) →
        stringToEnd rd invalidData n tmp r = some (.error invalidData, r')) := by
  obtain ⟨r', h1, n0, h2⟩ := toEnd_reads rd src hp tmp ht r bs hs
  refine ⟨r', h1, n0, fun n hn => ?_⟩
  have hb : ∀ b ∈ bs.map UInt8.toNat, b < 256 := by
    intro b hb
    obtain ⟨x, _, rfl⟩ := List.mem_map.mp hb
    exact x.toNat_lt
  rw [← Utf8.valid_iff_partial _ hb]
  simp only [stringToEnd, h2 n hn]
  constructor
  · intro h; simp [h]
  · intro h; simp [h]

/-- C82: and it fails with the error of the reader, if that fails. -/
theorem stringToEnd_fails (rd : Read R E) (src : R → List UInt8 → Option E → Prop)
    (hp : Proper rd src) (invalidData : E) (tmp : List UInt8) (ht : tmp.length = 4096) (r : R)
    (bs : List UInt8) (e : E) (hs : src r bs (some e)) (n : Nat) (hn : bs.length < n) :
    ∃ r', stringToEnd rd invalidData n tmp r = some (.error e, r') := by
  obtain ⟨r', h⟩ := toEnd_fails rd src hp tmp ht r bs e hs n hn
  exact ⟨r', by simp [stringToEnd, h]⟩

/-! ## The readers of the standard library -/

/-- What a vector has to give: all that is in it. -/
def vectorSrc (r bs : List UInt8) (stop : Option E) : Prop := bs = r ∧ stop = none

theorem readVector_eq (buf r : List UInt8) : (readVector : Read _ E).readIntoBuf buf r =
    some (.ok (min buf.length r.length), r.take (min buf.length r.length) ++
      buf.drop (min buf.length r.length), r.drop (min buf.length r.length)) := by
  simp only [readVector, consume, copy]
  by_cases h : min buf.length r.length = 0
  · simp [h]
  · rw [if_neg h, if_pos (Nat.min_le_right ..)]
    have : (r.take (min buf.length r.length)).length = min buf.length r.length := by simp
    simp only [this]
    rw [if_pos (Nat.min_le_left ..)]

/-- C82: vectors are such readers. -/
theorem vector_filling : Filling (readVector : Read _ E) vectorSrc := by
  constructor
  · rintro buf r bs stop ⟨rfl, rfl⟩
    left
    refine ⟨_, _, readVector_eq buf bs, by omega, by omega, ?_, rfl, rfl⟩
    intro h
    rcases Nat.min_eq_zero_iff.mp h with h | h
    · exact .inl (List.length_eq_zero_iff.mp h)
    · exact .inr ⟨List.length_eq_zero_iff.mp h, rfl⟩
  · rintro buf r bs stop ⟨rfl, rfl⟩
    rw [readVector_eq]
    constructor
    · rintro n buf' r' h
      simp only [Option.some.injEq, Prod.mk.injEq, Except.ok.injEq] at h
      exact ⟨h.1.symm, fun _ => rfl⟩
    · rintro e buf' r' h
      simp at h

/-- What a file has to give: what is left of it, and the error after it; nothing if it is closed. -/
def fileSrc (f : File) (bs : List UInt8) (stop : Option IoError) : Prop :=
  match f.handle with
  | none => bs = [] ∧ stop = some .closed
  | some s => bs = s.rest ∧ stop = s.fault.map .system ∧ (s.eof = true → s.fault = none)

/-- C82: files are such readers. -/
theorem file_filling : Filling readFile fileSrc := by
  have key : ∀ buf f bs stop, fileSrc f bs stop →
      (∃ r', fileRead buf f = (.ok (min buf.length bs.length), bs.take (min buf.length bs.length) ++
          buf.drop (min buf.length bs.length), r') ∧ fileSrc r' (bs.drop (min buf.length bs.length)) stop ∧
          (min buf.length bs.length < buf.length → stop = none)) ∨
      (∃ e buf' r', stop = some e ∧ fileRead buf f = (.error e, buf', r') ∧
        (bs.length < buf.length ∨ bs = [])) := by
    rintro buf ⟨handle, closes⟩ bs stop hs
    cases handle with
    | none =>
      obtain ⟨rfl, rfl⟩ := hs
      exact .inr ⟨_, _, _, rfl, rfl, .inr rfl⟩
    | some s =>
      obtain ⟨rfl, rfl, he⟩ := hs
      rcases Nat.lt_or_ge s.rest.length buf.length with hl | hl
      · have ht : s.rest.take buf.length = s.rest := List.take_of_length_le (by omega)
        cases hf : s.fault with
        | none =>
          left
          refine ⟨⟨some (fread buf.length s).2, closes⟩, ?_, ?_, by simp⟩
          · have hc : (fread buf.length s).1.length = buf.length ∨
                (fread buf.length s).2.eof = true := by
              right; simp [fread, hf, hl]
            simp only [fileRead]
            rw [if_pos hc, Nat.min_eq_right (by omega)]
            simp [fread, ht]
          · simp [fileSrc, fread, hf, Nat.min_eq_right (Nat.le_of_lt hl), Nat.le_of_lt hl]
        | some e =>
          right
          have h0 : s.eof = false := by
            cases h : s.eof
            · rfl
            · simp [he h] at hf
          have hc : ¬ ((fread buf.length s).1.length = buf.length ∨
              (fread buf.length s).2.eof = true) := by
            simp [fread, hf, h0]; omega
          refine ⟨.system e, s.rest ++ buf.drop s.rest.length, ⟨some (fread buf.length s).2, closes⟩,
            rfl, ?_, .inl hl⟩
          simp only [fileRead]
          rw [if_neg hc]
          simp [fread, hf, ht]
      · left
        refine ⟨⟨some (fread buf.length s).2, closes⟩, ?_, ?_, by omega⟩
        · have hc : (fread buf.length s).1.length = buf.length ∨
              (fread buf.length s).2.eof = true := by
            left; simp [fread]; omega
          simp only [fileRead]
          rw [if_pos hc]
          simp [fread, Nat.min_eq_left hl]
        · simp only [fileSrc, fread, Nat.min_eq_left hl, true_and]
          intro h
          apply he
          simpa [Nat.not_lt.mpr hl] using h
  constructor
  · intro buf f bs stop hs
    rcases key buf f bs stop hs with ⟨r', h1, h2, h3⟩ | ⟨e, buf', r', h1, h2, h3⟩
    · left
      refine ⟨min buf.length bs.length, r', by simp [readFile, h1], by omega, by omega, ?_, h2⟩
      intro h0
      rcases buf with _ | ⟨b, buf⟩
      · exact .inl rfl
      · simp only [List.length_cons] at h0 h3
        exact .inr ⟨List.length_eq_zero_iff.mp (by omega), h3 (by omega)⟩
    · exact .inr ⟨e, buf', r', h1, by simp [readFile, h2]⟩
  · intro buf f bs stop hs
    rcases key buf f bs stop hs with ⟨r', h1, h2, h3⟩ | ⟨e, buf', r', h1, h2, h3⟩
    · constructor
      · intro n b x h
        simp only [readFile, h1, Option.some.injEq, Prod.mk.injEq, Except.ok.injEq] at h
        exact ⟨h.1.symm, h.1 ▸ h3⟩
      · intro e b x h
        simp [readFile, h1] at h
    · constructor
      · intro n b x h
        simp [readFile, h2] at h
      · intro _ _ _ _
        exact h3

/-! ## Reading so many bytes -/

/-- C83, partial: `read-bytes!` fills the array if there are enough bytes, and fails if not. Missing:
readers that give fewer bytes than they are asked for, see `short_read_fails`. -/
theorem readBytes_fills_partial (rd : Read R E) (src : R → List UInt8 → Option E → Prop)
    (hp : Filling rd src) (unexpectedEof : E) (bytes : List UInt8) (r : R) (bs : List UInt8)
    (stop : Option E) (hs : src r bs stop) :
    (0 < bytes.length → bytes.length ≤ bs.length → ∃ r',
      readBytes rd unexpectedEof bytes r = some (.ok (), bs.take bytes.length, r') ∧
      src r' (bs.drop bytes.length) stop) ∧
    (bs.length < bytes.length → ∃ bytes' r',
      readBytes rd unexpectedEof bytes r = some (.error (stop.getD unexpectedEof), bytes', r')) := by
  obtain ⟨p1, p2⟩ := hp
  obtain ⟨q1, q2⟩ := p2 bytes r bs stop hs
  rcases p1 bytes r bs stop hs with ⟨n, r', h, h1, h2, h3, h4⟩ | ⟨e, buf', r', he, h⟩
  · obtain ⟨hn, hst⟩ := q1 _ _ _ h
    have hl : (bs.take n ++ bytes.drop n).length = bytes.length := by simp; omega
    constructor
    · intro _ hle
      have e : n = bytes.length := by omega
      refine ⟨r', ?_, e ▸ h4⟩
      simp only [readBytes, h, hl]
      rw [if_pos e, e]
      simp
    · intro hlt
      have : n ≠ bytes.length := by omega
      refine ⟨bs.take n ++ bytes.drop n, r', ?_⟩
      simp only [readBytes, h, hl]
      rw [if_neg this, hst (by omega)]
      rfl
  · constructor
    · intro h0 hle
      rcases q2 _ _ _ h with h5 | h5
      · omega
      · subst h5; simp only [List.length_nil] at hle; omega
    · intro _
      exact ⟨buf', r', by simp [readBytes, h, he]⟩

/-- A reader that gives one byte at a time, as a connection may. -/
def slow : Read (List UInt8) Unit where
  readIntoBuf buf r := some (.ok (min (min 1 buf.length) r.length),
    r.take (min (min 1 buf.length) r.length) ++ buf.drop (min (min 1 buf.length) r.length),
    r.drop (min (min 1 buf.length) r.length))

theorem slow_proper : Proper slow vectorSrc := by
  rintro buf r bs stop ⟨rfl, rfl⟩
  left
  refine ⟨_, _, rfl, by omega, by omega, ?_, rfl, rfl⟩
  intro h
  rcases buf with _ | ⟨b, buf⟩
  · exact .inl rfl
  · refine .inr ⟨List.length_eq_zero_iff.mp ?_, rfl⟩
    simp only [List.length_cons] at h
    omega

/-- C83 fails: the reader has two bytes, and `read-u16!` says that it has ended. -/
theorem short_read_fails : Proper slow vectorSrc ∧
    readBytes slow () [0, 0] [1, 2] = some (.error (), [1, 0], [2]) ∧
    readInt slow () 2 [1, 2] = some (.error (), [2]) :=
  ⟨slow_proper, rfl, rfl⟩

/-! ## Integers -/

theorem bytearray_length (k v : Nat) : (bytearray k v).length = k := by
  induction k generalizing v with
  | zero => rfl
  | succ k ih => simp [bytearray, ih]

theorem load_eq_number (bs : List UInt8) : load bs = number bs := by
  induction bs with
  | nil => rfl
  | cons b bs ih => simp [load, number, ih]

theorem number_bytearray (k v : Nat) : number (bytearray k v) = v % 256 ^ k := by
  induction k generalizing v with
  | zero => simp [bytearray, number, Nat.mod_one]
  | succ k ih =>
    simp only [bytearray, number, ih]
    rw [Nat.pow_succ, Nat.mul_comm, Nat.mul_comm (256 ^ k), Nat.mod_mul]
    simp
    omega

/-- C82: integers are written as their bytes, the least significant one first. -/
theorem writeInt_bytes (size value : Nat) (w : List UInt8) (hv : value < 256 ^ size) :
    ∃ bs, writeInt size value w = w ++ bs ∧ bs.length = size ∧ number bs = value :=
  ⟨_, rfl, bytearray_length .., by rw [number_bytearray, Nat.mod_eq_of_lt hv]⟩

/-- C82: an integer is read from the bytes that come first. -/
theorem readInt_bytes (rd : Read R E) (src : R → List UInt8 → Option E → Prop) (hp : Filling rd src)
    (unexpectedEof : E) (size : Nat) (h0 : 0 < size) (r : R) (bs rest : List UInt8)
    (hl : bs.length = size) (stop : Option E) (hs : src r (bs ++ rest) stop) :
    ∃ r', readInt rd unexpectedEof size r = some (.ok (number bs), r') ∧ src r' rest stop := by
  obtain ⟨r', h1, h2⟩ := (readBytes_fills_partial rd src hp unexpectedEof (bytearray size 0) r _ stop
    hs).1 (by rwa [bytearray_length]) (by simp [bytearray_length, hl])
  rw [bytearray_length, List.take_left' hl] at h1
  rw [bytearray_length, List.drop_left' hl] at h2
  exact ⟨r', by simp [readInt, h1, load_eq_number], h2⟩

/-- Integers of some sizes, one after the other. -/
def writeInts (vs : List (Nat × Nat)) (w : List UInt8) : List UInt8 :=
  vs.foldl (fun w v => writeInt v.1 v.2 w) w

/-- To read integers of these sizes. -/
def readInts (rd : Read R E) (unexpectedEof : E) : List Nat → R → Option (Except E (List Nat) × R)
  | [], r => some (.ok [], r)
  | size :: sizes, r =>
    match readInt rd unexpectedEof size r with
    | none => none
    | some (.error e, r) => some (.error e, r)
    | some (.ok v, r) =>
      match readInts rd unexpectedEof sizes r with
      | none => none
      | some (.error e, r) => some (.error e, r)
      | some (.ok vs, r) => some (.ok (v :: vs), r)

theorem writeInts_eq (vs : List (Nat × Nat)) (w : List UInt8) :
    writeInts vs w = w ++ vs.flatMap fun v => bytearray v.1 v.2 := by
  induction vs generalizing w with
  | nil => simp [writeInts]
  | cons v vs ih =>
    have : writeInts (v :: vs) w = writeInts vs (writeInt v.1 v.2 w) := rfl
    rw [this, ih]
    simp [writeInt, writeVector]

/-- C82: integers of all sizes that were written one after the other are read again, from any reader
that has what was written. -/
theorem ints_roundtrip (rd : Read R E) (src : R → List UInt8 → Option E → Prop) (hp : Filling rd src)
    (unexpectedEof : E) (vs : List (Nat × Nat)) (hv : ∀ v ∈ vs, 0 < v.1 ∧ v.2 < 256 ^ v.1)
    (r : R) (rest : List UInt8) (stop : Option E) (hs : src r (writeInts vs [] ++ rest) stop) :
    ∃ r', readInts rd unexpectedEof (vs.map (·.1)) r = some (.ok (vs.map (·.2)), r') ∧
      src r' rest stop := by
  rw [writeInts_eq, List.nil_append] at hs
  induction vs generalizing r with
  | nil => exact ⟨r, rfl, hs⟩
  | cons v vs ih =>
    obtain ⟨h1, h2⟩ := hv v (by simp)
    rw [List.flatMap_cons, List.append_assoc] at hs
    obtain ⟨r1, h3, h4⟩ := readInt_bytes rd src hp unexpectedEof v.1 h1 r _ _
      (bytearray_length v.1 v.2) stop hs
    rw [number_bytearray, Nat.mod_eq_of_lt h2] at h3
    obtain ⟨r2, h5, h6⟩ := ih (fun w hw => hv w (by simp [hw])) r1 h4
    exact ⟨r2, by simp [readInts, h3, h5], h6⟩

/-- Three integers in a vector. -/
example : writeInts [(2, 770), (1, 7), (4, 16975111)] [] = [2, 3, 7, 7, 5, 3, 1] ∧
    readInts (readVector : Read _ Unit) () [2, 1, 4] [2, 3, 7, 7, 5, 3, 1, 9] =
      some (.ok [770, 7, 16975111], [9]) := by
  constructor <;> rfl

/-! ## Files -/

/-- C82: what was written to a file is there, as long as there is room. -/
theorem fileWrite_appends (src : List UInt8) (s : Stream) (c : Nat) (h : src.length ≤ s.room) :
    ∃ s', fileWrite src ⟨some s, c⟩ = (.ok (), ⟨some s', c⟩) ∧ s'.written = s.written ++ src := by
  refine ⟨(fwrite src s).2, ?_, ?_⟩
  · have hc : (fwrite src s).1 = src.length := by simp only [fwrite]; omega
    simp only [fileWrite]
    rw [if_pos hc]
  · simp [fwrite, List.take_of_length_le h]

/-- C82: and an error is not lost. -/
theorem fileWrite_fails (src : List UInt8) (s : Stream) (c : Nat) (h : s.room < src.length) :
    ∃ s', fileWrite src ⟨some s, c⟩ = (.error (.system s.full), ⟨some s', c⟩) := by
  have hc : ¬ (fwrite src s).1 = src.length := by simp only [fwrite]; omega
  refine ⟨(fwrite src s).2, ?_⟩
  simp only [fileWrite]
  rw [if_neg hc]
  rfl

/-- C82: however often a file is written to, and whatever happens, the bytes that were given are in
it in their order, without a gap, until there is no room. -/
theorem fileWrites (srcs : List (List UInt8)) (s : Stream) (c : Nat) :
    ∃ s', srcs.foldl (fun f src => (fileWrite src f).2) ⟨some s, c⟩ = ⟨some s', c⟩ ∧
      s'.written = s.written ++ srcs.flatten.take s.room := by
  induction srcs generalizing s with
  | nil => exact ⟨s, rfl, by simp⟩
  | cons src srcs ih =>
    have h : (fileWrite src ⟨some s, c⟩).2 = ⟨some (fwrite src s).2, c⟩ := by
      simp only [fileWrite]
      split <;> rfl
    obtain ⟨s', h1, h2⟩ := ih (fwrite src s).2
    refine ⟨s', by rw [List.foldl_cons, h, h1], ?_⟩
    rw [h2]
    simp [fwrite, List.take_append]

/-- Room for three bytes, and five to write. -/
example : ([[1, 2], [3, 4, 5]].foldl (fun f src => (fileWrite src f).2)
    ⟨some ⟨[], none, false, [9], 3, 28⟩, 0⟩).handle.map (·.written) = some [9, 1, 2, 3] := rfl

/-- A handle that is there was not closed, and one that is not was closed once. -/
def Once (f : File) : Prop := f.closes = if f.handle.isSome then 0 else 1

theorem once_read (dest : List UInt8) (f : File) (h : Once f) : Once (fileRead dest f).2.2 := by
  obtain ⟨_ | s, c⟩ := f
  · exact h
  · simp only [fileRead]
    split <;> exact h

theorem once_write (src : List UInt8) (f : File) (h : Once f) : Once (fileWrite src f).2 := by
  obtain ⟨_ | s, c⟩ := f
  · exact h
  · simp only [fileWrite]
    split <;> exact h

theorem once_close (result : Option Nat) (f : File) (h : Once f) :
    Once (fileClose result f).2 ∧ (fileClose result f).2.handle = none := by
  obtain ⟨_ | s, c⟩ := f
  · exact ⟨h, rfl⟩
  · cases result <;> simp_all [Once, fileClose]

theorem once_run {A : Type} (p : Prog A) (f : File) (h : Once f) : Once (p.run f).2 := by
  induction p generalizing f with
  | done a => exact h
  | read dest k ih => exact ih _ _ (once_read dest f h)
  | write src k ih => exact ih _ _ (once_write src f h)
  | close result k ih => exact ih _ _ (once_close result f h).1

/-- C82: `with-file!` gives what the function gives, and closes the file once, whatever the function
does, also if it fails or closes the file. -/
theorem withFile_closes {A : Type} (s : Stream) (result : Option Nat) (p : Prog A) :
    ∃ f, withFile (.ok s) result p = ((p.run ⟨some s, 0⟩).1, some f) ∧ f.handle = none ∧
      f.closes = 1 := by
  obtain ⟨h1, h2⟩ := once_close result _ (once_run p ⟨some s, 0⟩ rfl)
  refine ⟨_, rfl, h2, ?_⟩
  simpa [Once, h2] using h1

/-- C82: a file that cannot be opened is the error of the system, and nothing is run. -/
theorem withFile_fails {A : Type} (e : Nat) (result : Option Nat) (p : Prog A) :
    withFile (.error e) result p = (.error (.system e), none) := rfl

/-- C82: a file that is closed is neither read nor written, and may be closed again. -/
theorem closed_file (f : File) (h : f.handle = none) (buf : List UInt8) (result : Option Nat) :
    fileRead buf f = (.error .closed, buf, f) ∧ fileWrite buf f = (.error .closed, f) ∧
      fileClose result f = (.ok (), f) := by
  obtain ⟨_, c⟩ := f
  cases h
  exact ⟨rfl, rfl, rfl⟩

/-- A file of three bytes is read to its end; the array in between is full of something else. -/
example : toEnd readFile 9 [7, 7] ⟨some ⟨[1, 2, 3], none, false, [], 0, 0⟩, 0⟩ =
    some (.ok [1, 2, 3], ⟨some ⟨[], none, true, [], 0, 0⟩, 0⟩) := rfl

/-- A file that fails after three bytes. -/
example : toEndInto readFile 9 [7, 7] [] ⟨some ⟨[1, 2, 3], some 5, false, [], 0, 0⟩, 0⟩ =
    some (.error (.system 5), [1, 2], ⟨some ⟨[], some 5, false, [], 0, 0⟩, 0⟩) := rfl

end Verif.Rw
