import Verif.Model.Serialize

/-!
# C53 and C64: serialisation

`utils/serialize.hpp`.
-/

namespace Verif.Ser

theorem serialize_eq (T : Ty) (obj : Bytes) (h : obj.length = T.size) : serialize T obj = .ok (obj ++ T.tag) := by
  unfold serialize copyInto
  dsimp only
  rw [if_pos (by simp [T.tag_len])]
  simp only [Out.ok_bind]
  rw [if_pos (by simp [T.tag_len, h])]
  refine congrArg Out.ok ?_
  simp [h, T.tag_len]

/-- **C53 (what is accepted).** Exactly when `deserialize` is undefined, throws, and returns, for all data. -/
theorem C53_deserialize (asserts : Bool) (T : Ty) (data : Bytes) :
    (deserialize asserts T data = .ub ↔ data.length < T.size + 8) ∧
    (deserialize asserts T data = .throw .assertion ↔
      T.size + 8 ≤ data.length ∧ asserts = true ∧ (data.drop T.size).take 8 ≠ T.tag) ∧
    (∀ obj, deserialize asserts T data = .ok obj ↔
      T.size + 8 ≤ data.length ∧ (asserts = true → (data.drop T.size).take 8 = T.tag) ∧ obj = data.take T.size) := by
  unfold deserialize copyFrom
  by_cases h : T.size + 8 ≤ data.length
  · rw [if_pos h, if_pos (show 0 + T.size ≤ data.length by omega)]
    simp only [Out.ok_bind, List.drop_zero]
    cases asserts with
    | false => simp [h, eq_comm]
    | true =>
      by_cases ht : T.tag = (data.drop T.size).take 8
      · have : (T.tag == (data.drop T.size).take 8) = true := by simpa using ht
        rw [this]
        simp [h, ← ht, eq_comm]
      · have : (T.tag == (data.drop T.size).take 8) = false := by simpa using ht
        rw [this]
        simp [h, Ne.symm ht]
  · rw [if_neg h]
    simp [h]; omega

/-- **C53 (round trip).** What was serialised for a type comes back unchanged, with or without assertions. -/
theorem C53_round_trip (asserts : Bool) (T : Ty) (obj : Bytes) (h : obj.length = T.size) :
    (serialize T obj >>= deserialize asserts T) = .ok obj := by
  rw [serialize_eq T obj h, Out.ok_bind, (C53_deserialize asserts T _).2.2]
  refine ⟨by simp [h, T.tag_len], fun _ => ?_, ?_⟩
  · rw [← h, List.drop_left, ← T.tag_len, List.take_length]
  · rw [← h, List.take_left]

/-- The property: the data of another type, and data cut short anywhere, are rejected by an exception. -/
def C53Claim (asserts : Bool) : Prop :=
  (∀ T U obj data, obj.length = T.size → T.tag ≠ U.tag → serialize T obj = .ok data →
    ∃ e, deserialize asserts U data = .throw e) ∧
  (∀ T obj data n, obj.length = T.size → serialize T obj = .ok data → n < data.length →
    ∃ e, deserialize asserts T (data.take n) = .throw e)

/-- **C53 (disproved).** Both halves fail, with and without assertions. Cut-short data are always read past their end. With
assertions a type of another size is accepted when the object holds the bytes of the tag at the right place. -/
theorem C53_false (asserts : Bool) :
    ¬ C53Claim asserts ∧
    (∀ T obj data n, obj.length = T.size → serialize T obj = .ok data → n < data.length →
      deserialize asserts T (data.take n) = .ub) ∧
    (∃ T U obj data, obj.length = T.size ∧ T.tag ≠ U.tag ∧ serialize T obj = .ok data ∧
      (deserialize asserts U data).isOk = true) := by
  have cut : ∀ T obj data n, obj.length = T.size → serialize T obj = .ok data → n < data.length →
      deserialize asserts T (data.take n) = .ub := by
    intro T obj data n h hs hn
    rw [serialize_eq T obj h] at hs
    have := Out.ok.inj hs
    subst this
    rw [(C53_deserialize asserts T _).1]
    simp only [List.length_append, T.tag_len, h, List.length_take] at hn ⊢
    omega
  refine ⟨fun hc => ?_, cut, ?_⟩
  · obtain ⟨e, he⟩ := hc.2 ⟨0, List.replicate 8 0, rfl⟩ [] (List.replicate 8 0) 7 rfl (serialize_eq _ _ rfl) (by decide)
    rw [cut ⟨0, List.replicate 8 0, rfl⟩ [] (List.replicate 8 0) 7 rfl (serialize_eq _ _ rfl) (by decide)] at he
    cases he
  · refine ⟨⟨9, List.replicate 8 0, rfl⟩, ⟨1, List.replicate 8 1, rfl⟩, List.replicate 9 1, _, rfl, by decide,
      serialize_eq _ _ rfl, ?_⟩
    cases asserts <;> decide

/-- **C53 (partial).** With assertions, data of another type of the same size are rejected whatever the object; more generally
whenever the eight bytes after the object are not the tag. Missing: see `C53_false`. -/
theorem C53_partial (T U : Ty) (obj data : Bytes) (h : obj.length = T.size) (hs : serialize T obj = .ok data)
    (hsz : U.size ≤ T.size) (ht : (data.drop U.size).take 8 ≠ U.tag) :
    deserialize true U data = .throw .assertion := by
  rw [serialize_eq T obj h] at hs
  have := Out.ok.inj hs
  subst this
  rw [(C53_deserialize true U _).2.1]
  exact ⟨by simp [T.tag_len, h]; omega, rfl, ht⟩

theorem C53_same_size_partial (T U : Ty) (obj data : Bytes) (h : obj.length = T.size) (hs : serialize T obj = .ok data)
    (hsz : U.size = T.size) (ht : T.tag ≠ U.tag) : deserialize true U data = .throw .assertion := by
  apply C53_partial T U obj data h hs (Nat.le_of_eq hsz)
  rw [serialize_eq T obj h] at hs
  have := Out.ok.inj hs
  subst this
  rw [hsz, ← h, List.drop_left, ← T.tag_len, List.take_length]
  exact ht

example : ∃ T U : Ty, U.size = T.size ∧ T.tag ≠ U.tag := ⟨⟨4, [1,2,3,4,5,6,7,8], rfl⟩, ⟨4, [1,2,3,4,5,6,7,9], rfl⟩, rfl, by decide⟩

/-! ### Files -/

theorem toText_length (d : Bytes) : d.length ≤ (toText d).length ∧ ((toText d).length = d.length ↔ (10 : UInt8) ∉ d) := by
  induction d with
  | nil => simp [toText]
  | cons b d ih =>
    unfold toText
    by_cases hb : b = 10
    · subst hb
      simp
      omega
    · rw [if_neg hb]
      simp [ih, Ne.symm hb]

theorem toText_eq {d : Bytes} (h : (10 : UInt8) ∉ d) : toText d = d := by
  induction d with
  | nil => rfl
  | cons b d ih =>
    simp only [List.mem_cons, not_or] at h
    unfold toText
    rw [if_neg (Ne.symm h.1), ih h.2]

theorem fromText_eq {d : Bytes} (h : (10 : UInt8) ∉ d) : fromText d = d := by
  induction d with
  | nil => rfl
  | cons b d ih =>
    simp only [List.mem_cons, not_or] at h
    cases d with
    | nil => rfl
    | cons c d =>
      have hc : c ≠ 10 := by
        intro hc; subst hc; simp at h
      unfold fromText
      rw [if_neg (fun hh => hc hh.2), ih h.2]

theorem fromText_length (d : Bytes) : (fromText d).length ≤ d.length := by
  fun_induction fromText d with
  | case1 => simp
  | case2 => simp
  | case3 a b s _ ih => simp; omega
  | case4 a b s _ ih => simp at ih ⊢; omega

theorem fromText_short {d : Bytes} (h : (10 : UInt8) ∈ d) : (fromText (toText d)).length < (toText d).length := by
  suffices ∀ d : Bytes, (10 : UInt8) ∈ d → ∀ a : Option UInt8,
      (fromText (a.toList ++ toText d)).length < (a.toList ++ toText d).length by simpa using this d h none
  clear h d
  intro d
  induction d with
  | nil => intro h; cases h
  | cons b d ih =>
    intro h a
    by_cases hb : b = 10
    · subst hb
      cases a with
      | none =>
        have := fromText_length (toText d)
        simp [toText, fromText]
        omega
      | some a =>
        have := fromText_length (toText d)
        simp [toText, fromText]
        omega
    · have hd : (10 : UInt8) ∈ d := by
        simpa [Ne.symm hb] using h
      have e : toText (b :: d) = b :: toText d := by
        rw [toText, if_neg hb]
      rw [e]
      cases a with
      | none =>
        have := ih hd (some b)
        simpa using this
      | some a =>
        have := ih hd (some b)
        simp only [Option.toList_some, List.singleton_append, List.length_cons] at this ⊢
        show (fromText (a :: b :: toText d)).length < _
        unfold fromText
        rw [if_neg (fun hh => hb hh.2)]
        simp only [List.length_cons]
        omega

/-- The property: when `write` reports success, `read` restores the data from the file. -/
def C64Claim (env : Env) : Prop :=
  ∀ path data old w, (write env path data).1 = true →
    read env path (some ⟨(write env path data).2, w⟩) old = (true, data)

/-- What `read` gives for the whole file, outside the text mode of Windows. -/
theorem read_raw (env : Env) (path : List Char) (hp : env.windows = false ∨ binMode path = true) (bytes old : Bytes) :
    read env path (some ⟨bytes, true⟩) old = (true, bytes) := by
  have : (env.windows && !binMode path) = false := by rcases hp with h | h <;> simp [h]
  unfold read
  simp [this, resize]
  omega

/-- **C64 (partial).** A reported success is a success when the device takes all the bytes, the file may be written, and the file
is not opened in the text mode of Windows or has no newline byte.
Missing: see `C64_false`, and `C64_text` for the text mode. -/
theorem C64_partial (env : Env) (path : List Char) (data old : Bytes) (hr : data.length ≤ env.room)
    (hp : env.windows = false ∨ binMode path = true ∨ (10 : UInt8) ∉ data) :
    (write env path data).1 = true ∧ read env path (some ⟨(write env path data).2, true⟩) old = (true, data) := by
  by_cases hb : (env.windows && !binMode path) = true
  · have hd : (10 : UInt8) ∉ data := by
      rcases hp with h | h | h
      · simp [h] at hb
      · simp [h] at hb
      · exact h
    unfold write read
    simp [hb, toText_eq hd, hr, List.take_of_length_le hr, fromText_eq hd, resize]
    omega
  · have hb : (env.windows && !binMode path) = false := by simpa using hb
    have hw : write env path data = (true, data) := by
      unfold write
      simp [hb, hr, List.take_of_length_le hr]
    rw [hw]
    refine ⟨rfl, read_raw env path ?_ data old⟩
    cases h : env.windows <;> simp_all

/-- **C64 (a full device).** Whatever does not fit is cut off; `write` still reports success while the bytes fit in the stream's
buffer, and `read` then succeeds with the shortened data. -/
theorem C64_full_device (env : Env) (path : List Char) (hp : env.windows = false ∨ binMode path = true) (data old : Bytes)
    (h : env.room < data.length) :
    ((write env path data).1 = true ↔ data.length < env.buffer) ∧
    read env path (some ⟨(write env path data).2, true⟩) old = (true, data.take env.room) := by
  have hb : (env.windows && !binMode path) = false := by rcases hp with h | h <;> simp [h]
  unfold write
  simp only [hb, Bool.false_eq_true, if_false]
  refine ⟨by simp; omega, read_raw env path hp _ old⟩

/-- **C64 (text mode).** On Windows, with a path without `.bin`, data that contain the newline byte are never read back. -/
theorem C64_text (env : Env) (path : List Char) (data old : Bytes) (hw : env.windows = true) (hp : binMode path = false)
    (hd : (10 : UInt8) ∈ data) (hr : (toText data).length ≤ env.room) :
    (read env path (some ⟨(write env path data).2, true⟩) old).1 = false := by
  unfold write read
  simp only [hw, hp, Bool.not_false, Bool.and_self, if_true, List.take_of_length_le hr]
  have := fromText_short hd
  simp; omega

/-- **C64 (disproved).** On every system, for a file that is read-only when it is read: `read` opens it for writing too. -/
theorem C64_false (env : Env) : ¬ C64Claim env := by
  intro h
  have := h [] [] [] false (by unfold write; simp [toText])
  unfold read at this
  simp at this

/-- Even for writable files, when the device has room for fewer bytes than the buffer. -/
theorem C64_false_writable (env : Env) (hb : env.room + 1 < env.buffer) (hp : env.windows = false) :
    ∃ path data old, (write env path data).1 = true ∧
      read env path (some ⟨(write env path data).2, true⟩) old ≠ (true, data) := by
  have h := C64_full_device env [] (Or.inl hp) (List.replicate (env.room + 1) 0) [] (by simp)
  refine ⟨[], List.replicate (env.room + 1) 0, [], h.1.2 (by simpa using hb), ?_⟩
  rw [h.2]
  intro hc
  have := congrArg (fun p => p.2.length) hc
  simp at this

/-- **C53/C64 (crash while writing).** If only the first bytes reached the disk, `read` reports success all the same, and
`deserialize` then reads past the end of the data. -/
theorem C64_crash (env : Env) (path : List Char) (hp : env.windows = false ∨ binMode path = true) (asserts : Bool) (T : Ty)
    (obj data old : Bytes) (h : obj.length = T.size) (hs : serialize T obj = .ok data) (n : Nat) (hn : n < data.length) :
    read env path (some ⟨data.take n, true⟩) old = (true, data.take n) ∧
    deserialize asserts T (read env path (some ⟨data.take n, true⟩) old).2 = .ub := by
  rw [read_raw env path hp]
  exact ⟨rfl, (C53_false asserts).2.1 T obj data n h hs hn⟩

example : binMode "data.binary.txt".toList = true ∧ binMode "data.dat".toList = false := by decide

end Verif.Ser
