import Verif.Model.ClTypes
import Mathlib.Tactic.Ring
import Mathlib.Tactic.Linarith

/-!
Lemmas for C133: bytes, kernels and temporaries.
-/

namespace Verif.ClTypes

/-! ### Bytes -/

theorem enc_length (c v : Nat) : (enc c v).length = c := by
  induction c generalizing v with
  | zero => rfl
  | succ c ih => simp [enc, ih]

theorem dec_enc (c v : Nat) (h : v < 256 ^ c) : dec (enc c v) = v := by
  induction c generalizing v with
  | zero => simp at h; simp [enc, dec, h]
  | succ c ih =>
    have : v / 256 < 256 ^ c := by
      rw [Nat.div_lt_iff_lt_mul (by norm_num)]
      rw [pow_succ] at h
      exact h
    simp only [enc, dec, ih _ this]
    omega

theorem encAll_length (c : Nat) (vs : List Nat) : (encAll c vs).length = vs.length * c := by
  induction vs with
  | nil => simp [encAll]
  | cons v vs ih => simp [encAll, enc_length, ih]; ring

theorem encAll_append (c : Nat) (vs ws : List Nat) : encAll c (vs ++ ws) = encAll c vs ++ encAll c ws := by
  induction vs with
  | nil => rfl
  | cons v vs ih => simp [encAll, ih]

/-- The bytes of element `i` of a buffer. -/
def slice (c : Nat) (b : List Nat) (i : Nat) : List Nat := (b.drop (i * c)).take c

theorem slice_encAll (c : Nat) (vs : List Nat) (rest : List Nat) (i : Nat) (h : i < vs.length) :
    slice c (encAll c vs ++ rest) i = enc c vs[i] := by
  induction vs generalizing i with
  | nil => simp at h
  | cons v vs ih =>
    cases i with
    | zero =>
      simp only [slice, encAll, Nat.zero_mul, List.drop_zero, List.append_assoc, List.getElem_cons_zero]
      rw [List.take_append_of_le_length (by rw [enc_length])]
      exact List.take_of_length_le (by rw [enc_length])
    | succ i =>
      have hi : i < vs.length := by simpa using h
      have e : (i + 1) * c = (enc c v).length + i * c := by rw [enc_length]; ring
      simp only [slice, encAll, List.getElem_cons_succ, List.append_assoc]
      rw [e, ← List.drop_drop, List.drop_left]
      exact ih i hi

theorem load_eq (c : Nat) (b : List Nat) (i : Nat) (h : (i + 1) * c ≤ b.length) : load c b i = .ok (dec (slice c b i)) := by
  simp [load, h, slice]

theorem load_ub (c : Nat) (b : List Nat) (i : Nat) (h : b.length < (i + 1) * c) : load c b i = .ub := by
  simp [load, Nat.not_le.mpr h]

theorem bytes_pos (t : Ty) : 0 < t.bytes := by cases t <;> decide

theorem fresh_length (junk : Nat → Nat) (n : Nat) (t : Ty) : (fresh junk n t).length = n * t.bytes := by simp [fresh]

/-! ### One kernel -/

/-- An argument of a kernel for the type `k` is inside its buffer for `n` work items. -/
def Arg.Fits (m : Mem) (k : Ty) (n : Nat) : Arg → Prop
  | .scalar _ _ => True
  | .buf id => ∃ b, m[id]? = some b ∧ n * k.bytes ≤ b.length

/-- All arguments are inside their buffers. -/
def Call.Fits (m : Mem) (k : Ty) (n : Nat) : Call → Prop
  | .un _ x => x.Fits m k n
  | .bin _ x y => x.Fits m k n ∧ y.Fits m k n

theorem fetch_ok_of_fits (A : Arith) {k : Ty} {m : Mem} {n i : Nat} {x : Arg} (h : x.Fits m k n) (hi : i < n) :
    ∃ v, fetch A k m i x = .ok v := by
  cases x with
  | scalar t v => exact ⟨_, rfl⟩
  | buf id =>
    obtain ⟨b, hb, hl⟩ := h
    have : (i + 1) * k.bytes ≤ b.length := le_trans (Nat.mul_le_mul_right _ hi) hl
    exact ⟨_, by simp only [fetch, hb]; exact load_eq _ _ _ this⟩

theorem fetch_cases (A : Arith) (k : Ty) (m : Mem) (i : Nat) (x : Arg) :
    (∃ v, fetch A k m i x = .ok v) ∨ fetch A k m i x = .ub := by
  cases x with
  | scalar t v => exact .inl ⟨_, rfl⟩
  | buf id =>
    simp only [fetch]
    cases m[id]? with
    | none => exact .inr rfl
    | some b =>
      simp only [load]
      split
      · exact .inl ⟨_, rfl⟩
      · exact .inr rfl

theorem fetch_ub_of_not_fits (A : Arith) {k : Ty} {m : Mem} {n : Nat} {x : Arg} (h : ¬ x.Fits m k (n + 1)) :
    fetch A k m n x = .ub := by
  cases x with
  | scalar t v => exact absurd trivial h
  | buf id =>
    simp only [fetch]
    cases hb : m[id]? with
    | none => rfl
    | some b =>
      apply load_ub
      by_contra hl
      exact h ⟨b, hb, by omega⟩

theorem val_cases (A : Arith) (k : Ty) (m : Mem) (i : Nat) (c : Call) :
    (∃ v, c.val A k m i = .ok v) ∨ c.val A k m i = .ub := by
  cases c with
  | un op x =>
    rcases fetch_cases A k m i x with ⟨v, hv⟩ | hv
    · exact .inl ⟨A.un op k v, by simp only [Call.val, hv, Out.bind]⟩
    · exact .inr (by simp only [Call.val, hv, Out.bind])
  | bin op x y =>
    rcases fetch_cases A k m i x with ⟨v, hv⟩ | hv
    · rcases fetch_cases A k m i y with ⟨w, hw⟩ | hw
      · exact .inl ⟨A.bin op k v w, by simp only [Call.val, hv, hw, Out.bind]⟩
      · exact .inr (by simp only [Call.val, hv, hw, Out.bind])
    · exact .inr (by simp only [Call.val, hv, Out.bind])

theorem val_ub_of_not_fits (A : Arith) {k : Ty} {m : Mem} {n : Nat} {c : Call} (h : ¬ c.Fits m k (n + 1)) :
    c.val A k m n = .ub := by
  cases c with
  | un op x => simp only [Call.val, fetch_ub_of_not_fits A h, Out.bind]
  | bin op x y =>
    by_cases hx : x.Fits m k (n + 1)
    · have hy : ¬ y.Fits m k (n + 1) := fun hy => h ⟨hx, hy⟩
      rcases fetch_cases A k m n x with ⟨v, hv⟩ | hv
      · simp only [Call.val, hv, fetch_ub_of_not_fits A hy, Out.bind]
      · simp only [Call.val, hv, Out.bind]
    · simp only [Call.val, fetch_ub_of_not_fits A hx, Out.bind]

theorem val_ok_of_fits (A : Arith) {k : Ty} {m : Mem} {n i : Nat} {c : Call} (h : c.Fits m k n) (hi : i < n) :
    ∃ v, c.val A k m i = .ok v := by
  cases c with
  | un op x =>
    obtain ⟨v, hv⟩ := fetch_ok_of_fits A h hi
    exact ⟨A.un op k v, by simp only [Call.val, hv, Out.bind]⟩
  | bin op x y =>
    obtain ⟨v, hv⟩ := fetch_ok_of_fits A h.1 hi
    obtain ⟨w, hw⟩ := fetch_ok_of_fits A h.2 hi
    exact ⟨A.bin op k v w, by simp only [Call.val, hv, hw, Out.bind]⟩

/-- The state after the first `i` work items: the first `i` elements of the destination are written. -/
def after (m : Mem) (dst : Nat) (c : Nat) (b : List Nat) (f : Nat → Nat) (i : Nat) : Mem :=
  m.set dst (encAll c ((List.range i).map f) ++ b.drop (i * c))

theorem written_length (c : Nat) (b : List Nat) (f : Nat → Nat) (i : Nat) (h : i * c ≤ b.length) :
    (encAll c ((List.range i).map f) ++ b.drop (i * c)).length = b.length := by
  simp [encAll_length]; omega

theorem written_slice (c : Nat) (b : List Nat) (f : Nat → Nat) (i : Nat) :
    slice c (encAll c ((List.range i).map f) ++ b.drop (i * c)) i = slice c b i := by
  unfold slice
  have e : (encAll c ((List.range i).map f)).length = i * c := by simp [encAll_length]
  rw [List.drop_append_of_le_length (by omega)]
  rw [List.drop_of_length_le (by omega)]
  simp

theorem fetch_after (A : Arith) (k : Ty) (m : Mem) (dst i : Nat) (b : List Nat) (f : Nat → Nat) (x : Arg)
    (hd : m[dst]? = some b) (hb : i * k.bytes ≤ b.length) :
    fetch A k (after m dst k.bytes b f i) i x = fetch A k m i x := by
  cases x with
  | scalar t v => rfl
  | buf id =>
    simp only [fetch, after]
    by_cases hid : id = dst
    · subst hid
      have hlt : id < m.length := by
        by_contra h
        rw [List.getElem?_eq_none (by omega)] at hd
        exact absurd hd (by simp)
      rw [List.getElem?_set_self hlt, hd]
      simp only [load, written_length _ _ f _ hb]
      have := written_slice k.bytes b f i
      simp only [slice] at this
      rw [this]
    · rw [List.getElem?_set_ne (Ne.symm hid)]

theorem val_after (A : Arith) (k : Ty) (m : Mem) (dst i : Nat) (b : List Nat) (f : Nat → Nat) (c : Call)
    (hd : m[dst]? = some b) (hb : i * k.bytes ≤ b.length) :
    c.val A k (after m dst k.bytes b f i) i = c.val A k m i := by
  cases c with
  | un op x => simp only [Call.val, fetch_after A k m dst i b f x hd hb]
  | bin op x y => simp only [Call.val, fetch_after A k m dst i b f x hd hb, fetch_after A k m dst i b f y hd hb]

theorem store_written (c : Nat) (b : List Nat) (f : Nat → Nat) (i : Nat) (h : (i + 1) * c ≤ b.length) :
    store c (encAll c ((List.range i).map f) ++ b.drop (i * c)) i (f i)
      = .ok (encAll c ((List.range (i + 1)).map f) ++ b.drop ((i + 1) * c)) := by
  have hi : i * c ≤ b.length := by
    have : (i + 1) * c = i * c + c := by ring
    omega
  unfold store
  rw [written_length c b f i hi, if_pos h]
  have e : (encAll c ((List.range i).map f)).length = i * c := by simp [encAll_length]
  congr 1
  rw [List.take_append_of_le_length (by omega), List.take_of_length_le (by omega), List.range_succ, List.map_append,
    encAll_append]
  have e2 : (i + 1) * c = (encAll c ((List.range i).map f)).length + c := by rw [e]; ring
  have e3 : (encAll c ((List.range i).map f) ++ b.drop (i * c)).drop ((i + 1) * c) = b.drop ((i + 1) * c) := by
    rw [e2, List.drop_length_add_append, List.drop_drop, e]
  rw [e3]
  simp [encAll]

/-- What a kernel does when every work item is defined. -/
theorem run_spec (A : Arith) (k : Ty) (m : Mem) (dst n : Nat) (b : List Nat) (f : Nat → Nat) (c : Call)
    (hd : m[dst]? = some b) (hb : n * k.bytes ≤ b.length) (hv : ∀ i, i < n → c.val A k m i = .ok (f i)) :
    run A k dst c m n = .ok (after m dst k.bytes b f n) := by
  have key : ∀ i, i ≤ n → run A k dst c m i = .ok (after m dst k.bytes b f i) := by
    intro i
    induction i with
    | zero =>
      intro _
      simp only [run, after, List.range_zero, List.map_nil, encAll, Nat.zero_mul, List.drop_zero, List.nil_append]
      congr 1
      have hlt : dst < m.length := by
        by_contra h
        rw [List.getElem?_eq_none (by omega)] at hd
        exact absurd hd (by simp)
      rw [List.getElem?_eq_getElem hlt, Option.some_inj] at hd
      rw [← hd, List.set_getElem_self]
    | succ i ih =>
      intro hi
      have hib : (i + 1) * k.bytes ≤ b.length := le_trans (Nat.mul_le_mul_right _ hi) hb
      have hib0 : i * k.bytes ≤ b.length := le_trans (Nat.mul_le_mul_right _ (by omega)) hib
      have hlt : dst < m.length := by
        by_contra h
        rw [List.getElem?_eq_none (by omega)] at hd
        exact absurd hd (by simp)
      simp only [run, ih (by omega), Out.bind, item, val_after A k m dst i b f c hd hib0, hv i (by omega), write]
      simp only [after, List.getElem?_set_self hlt, store_written k.bytes b f i hib, Out.bind, List.set_set]
  exact key n le_rfl

theorem store_length {c : Nat} {b b' : List Nat} {i v : Nat} (h : store c b i v = .ok b') : b'.length = b.length := by
  unfold store at h
  split at h
  · simp only [Out.ok.injEq] at h
    subst h
    have : (i + 1) * c = i * c + c := by ring
    simp [enc_length]
    omega
  · simp at h

/-- The sizes of the buffers. -/
def sizes (m : Mem) : List Nat := m.map List.length

theorem write_sizes {k : Ty} {m m' : Mem} {dst i v : Nat} (h : write k m dst i v = .ok m') : sizes m' = sizes m := by
  unfold write at h
  split at h
  · simp at h
  · next b hb =>
    cases hs : store k.bytes b i v with
    | ok b' =>
      simp only [hs, Out.bind, Out.ok.injEq] at h
      subst h
      have hlt : dst < m.length := by
        by_contra h
        rw [List.getElem?_eq_none (by omega)] at hb
        exact absurd hb (by simp)
      rw [List.getElem?_eq_getElem hlt, Option.some_inj] at hb
      simp only [sizes, List.map_set, store_length hs]
      apply List.ext_getElem
      · simp
      · intro j h1 h2
        rw [List.getElem_set]
        split
        · next hj => subst hj; simp [hb]
        · rfl
    | throw e => simp [hs, Out.bind] at h
    | ub => simp [hs, Out.bind] at h

theorem item_sizes {A : Arith} {k : Ty} {m m' : Mem} {dst i : Nat} {c : Call} (h : item A k dst c i m = .ok m') :
    sizes m' = sizes m := by
  unfold item at h
  cases hv : c.val A k m i with
  | ok v => simp only [hv, Out.bind] at h; exact write_sizes h
  | throw e => simp [hv, Out.bind] at h
  | ub => simp [hv, Out.bind] at h

theorem run_sizes {A : Arith} {k : Ty} {m : Mem} {dst : Nat} {c : Call} (n : Nat) {m' : Mem}
    (h : run A k dst c m n = .ok m') : sizes m' = sizes m := by
  induction n generalizing m' with
  | zero => simp only [run, Out.ok.injEq] at h; rw [h]
  | succ n ih =>
    simp only [run] at h
    cases hr : run A k dst c m n with
    | ok m1 => simp only [hr, Out.bind] at h; rw [item_sizes h, ih hr]
    | throw e => simp [hr, Out.bind] at h
    | ub => simp [hr, Out.bind] at h

theorem write_cases (k : Ty) (m : Mem) (dst i v : Nat) : (∃ m', write k m dst i v = .ok m') ∨ write k m dst i v = .ub := by
  unfold write
  split
  · exact .inr rfl
  · unfold store
    split
    · exact .inl ⟨_, rfl⟩
    · exact .inr rfl

theorem item_cases (A : Arith) (k : Ty) (dst : Nat) (c : Call) (i : Nat) (m : Mem) :
    (∃ m', item A k dst c i m = .ok m') ∨ item A k dst c i m = .ub := by
  unfold item
  rcases val_cases A k m i c with ⟨v, hv⟩ | hv
  · simp only [hv, Out.bind]; exact write_cases k m dst i v
  · simp [hv, Out.bind]

theorem run_cases (A : Arith) (k : Ty) (dst : Nat) (c : Call) (m : Mem) (n : Nat) :
    (∃ m', run A k dst c m n = .ok m') ∨ run A k dst c m n = .ub := by
  induction n with
  | zero => exact .inl ⟨_, rfl⟩
  | succ n ih =>
    simp only [run]
    rcases ih with ⟨m', hm⟩ | hm
    · simp only [hm, Out.bind]; exact item_cases A k dst c n m'
    · simp [hm, Out.bind]

theorem sizes_getElem? {m m' : Mem} (h : sizes m' = sizes m) {id : Nat} {b : List Nat} (hb : m'[id]? = some b) :
    ∃ b', m[id]? = some b' ∧ b'.length = b.length := by
  have h1 : (sizes m')[id]? = some b.length := by simp [sizes, hb]
  rw [h] at h1
  simp only [sizes, List.getElem?_map, Option.map_eq_some_iff] at h1
  exact h1

theorem argFits_sizes {m m' : Mem} (h : sizes m' = sizes m) {k : Ty} {n : Nat} {x : Arg} (hx : x.Fits m' k n) : x.Fits m k n := by
  cases x with
  | scalar t v => trivial
  | buf id =>
    obtain ⟨b, hb, hl⟩ := hx
    obtain ⟨b', hb', hl'⟩ := sizes_getElem? h hb
    exact ⟨b', hb', by omega⟩

theorem callFits_sizes {m m' : Mem} (h : sizes m' = sizes m) {k : Ty} {n : Nat} {c : Call} (hc : c.Fits m' k n) : c.Fits m k n := by
  cases c with
  | un op x => exact argFits_sizes h hc
  | bin op x y => exact ⟨argFits_sizes h hc.1, argFits_sizes h hc.2⟩

theorem write_ub (k : Ty) {m : Mem} {dst n v : Nat} (h : ¬ (Arg.buf dst).Fits m k (n + 1)) : write k m dst n v = .ub := by
  unfold write
  cases hb : m[dst]? with
  | none => rfl
  | some b =>
    have : ¬ (n + 1) * k.bytes ≤ b.length := fun hl => h ⟨b, hb, hl⟩
    simp only [store, if_neg this, Out.bind]

/-- A kernel with at least one work item is defined exactly if all its arguments and its destination are inside their buffers. -/
theorem run_ub (A : Arith) (k : Ty) (m : Mem) (dst n : Nat) (c : Call) (hn : 0 < n)
    (h : ¬ (c.Fits m k n ∧ (Arg.buf dst).Fits m k n)) : run A k dst c m n = .ub := by
  obtain ⟨n, rfl⟩ : ∃ j, n = j + 1 := ⟨n - 1, by omega⟩
  simp only [run]
  rcases run_cases A k dst c m n with ⟨m', hm⟩ | hm
  · simp only [hm, Out.bind]
    have hs := run_sizes n hm
    unfold item
    by_cases hc : c.Fits m k (n + 1)
    · have hd : ¬ (Arg.buf dst).Fits m' k (n + 1) := fun hd => h ⟨hc, argFits_sizes hs hd⟩
      rcases val_cases A k m' n c with ⟨v, hv⟩ | hv
      · simp only [hv, Out.bind]; exact write_ub k hd
      · simp only [hv, Out.bind]
    · have hc' : ¬ c.Fits m' k (n + 1) := fun hc' => hc (callFits_sizes hs hc')
      simp only [val_ub_of_not_fits A hc', Out.bind]
  · simp only [hm, Out.bind]

/-! ### Expressions -/

/-- The operand is a scalar, not an array or a function. -/
def Expr.isScalar : Expr → Bool
  | .scalar _ _ => true
  | _ => false

/-- Every array of the expression is in memory, with `n` elements of its type. -/
def Expr.Valid (m : Mem) (n : Nat) : Expr → Prop
  | .arr id t => ∃ b, m[id]? = some b ∧ b.length = n * t.bytes
  | .scalar _ _ => True
  | .un _ x => x.Valid m n
  | .bin _ x y => x.Valid m n ∧ y.Valid m n

/-- No kernel is wider than the elements of the arrays it reads. -/
def Expr.Fits : Expr → Prop
  | .arr _ _ => True
  | .scalar _ _ => True
  | .un _ x => x.Fits
  | .bin op x y => x.Fits ∧ y.Fits ∧ (x.isScalar = true ∨ (op.resTy x.ty y.ty).bytes ≤ x.ty.bytes) ∧
      (y.isScalar = true ∨ (op.resTy x.ty y.ty).bytes ≤ y.ty.bytes)

/-- What a kernel for the type `k` sees as element `i` of an operand. -/
def obs (A : Arith) (m : Mem) (n : Nat) (k : Ty) (i : Nat) : Expr → Nat
  | .arr id _ => dec (slice k.bytes (m[id]?.getD []) i)
  | .scalar t v => A.cast t k v
  | .un op x => dec (slice k.bytes (encAll x.ty.bytes ((List.range n).map fun j => A.un op x.ty (obs A m n x.ty j x))) i)
  | .bin op x y => dec (slice k.bytes (encAll (op.resTy x.ty y.ty).bytes ((List.range n).map fun j =>
      A.bin op (op.resTy x.ty y.ty) (obs A m n (op.resTy x.ty y.ty) j x) (obs A m n (op.resTy x.ty y.ty) j y))) i)

/-- What the kernel of a function computes as element `j`. -/
def nodeVal (A : Arith) (m : Mem) (n : Nat) (e : Expr) (j : Nat) : Nat :=
  match e with
  | .arr _ _ => 0
  | .scalar _ _ => 0
  | .un op x => A.un op x.ty (obs A m n x.ty j x)
  | .bin op x y => A.bin op (op.resTy x.ty y.ty) (obs A m n (op.resTy x.ty y.ty) j x) (obs A m n (op.resTy x.ty y.ty) j y)

/-- An operand has been prepared: a kernel for a type `k` that is not wider sees `obs`, also after further temporaries. -/
def Ready (A : Arith) (m : Mem) (n : Nat) (e : Expr) (m' : Mem) (a : Arg) : Prop :=
  ∀ us k i, i < n → (e.isScalar = true ∨ k.bytes ≤ e.ty.bytes) → fetch A k (m' ++ us) i a = .ok (obs A m n k i e)

theorem valid_append {m : Mem} {n : Nat} (ts : Mem) {e : Expr} (h : e.Valid m n) : e.Valid (m ++ ts) n := by
  induction e with
  | arr id t =>
    obtain ⟨b, hb, hl⟩ := h
    refine ⟨b, ?_, hl⟩
    have : id < m.length := by
      by_contra hc
      rw [List.getElem?_eq_none (by omega)] at hb
      exact absurd hb (by simp)
    rw [List.getElem?_append_left this, hb]
  | scalar t v => trivial
  | un op x ih => exact ih h
  | bin op x y ihx ihy => exact ⟨ihx h.1, ihy h.2⟩

theorem obs_append (A : Arith) {m : Mem} {n : Nat} (ts : Mem) {e : Expr} (h : e.Valid m n) (k : Ty) (i : Nat) :
    obs A (m ++ ts) n k i e = obs A m n k i e := by
  induction e generalizing k i with
  | arr id t =>
    obtain ⟨b, hb, hl⟩ := h
    have : id < m.length := by
      by_contra hc
      rw [List.getElem?_eq_none (by omega)] at hb
      exact absurd hb (by simp)
    simp only [obs, List.getElem?_append_left this]
  | scalar t v => rfl
  | un op x ih => simp only [obs, ih h]
  | bin op x y ihx ihy => simp only [obs, ihx h.1, ihy h.2]

theorem fetch_new (A : Arith) (m us : Mem) (k t : Ty) (n i : Nat) (f : Nat → Nat) (hi : i < n) (hk : k.bytes ≤ t.bytes) :
    fetch A k ((m ++ [encAll t.bytes ((List.range n).map f)]) ++ us) i (.buf m.length)
      = .ok (dec (slice k.bytes (encAll t.bytes ((List.range n).map f)) i)) := by
  have e : ((m ++ [encAll t.bytes ((List.range n).map f)]) ++ us)[m.length]? = some (encAll t.bytes ((List.range n).map f)) := by
    rw [List.append_assoc, List.getElem?_append_right le_rfl]
    simp
  simp only [fetch, e]
  apply load_eq
  rw [encAll_length, List.length_map, List.length_range]
  exact Nat.mul_le_mul hi hk

/-- A kernel into a new temporary. -/
theorem run_fresh (A : Arith) (junk : Nat → Nat) (k : Ty) (m : Mem) (n : Nat) (f : Nat → Nat) (c : Call)
    (hv : ∀ i, i < n → c.val A k (m ++ [fresh junk n k]) i = .ok (f i)) :
    run A k m.length c (m ++ [fresh junk n k]) n = .ok (m ++ [encAll k.bytes ((List.range n).map f)]) := by
  rw [run_spec A k _ m.length n (fresh junk n k) f c (by simp) (by rw [fresh_length]) hv]
  simp only [after]
  rw [List.drop_of_length_le (by rw [fresh_length])]
  simp

theorem operand_ok (A : Arith) (junk : Nat → Nat) (n : Nat) (e : Expr) : ∀ (m : Mem), e.Valid m n → e.Fits →
    ∃ ts a, operand A junk n e m = .ok (m ++ ts, a) ∧ Ready A m n e (m ++ ts) a := by
  induction e with
  | arr id t =>
    intro m hval _
    refine ⟨[], .buf id, by simp [operand], ?_⟩
    intro us k i hi hk
    have hv := valid_append ([] ++ us) hval
    rw [← List.append_assoc] at hv
    obtain ⟨b, hb, hl⟩ := hv
    obtain ⟨b0, hb0, hl0⟩ := hval
    have : id < m.length := by
      by_contra hc
      rw [List.getElem?_eq_none (by omega)] at hb0
      exact absurd hb0 (by simp)
    have hbb : b0 = b := by
      rw [List.append_nil, List.getElem?_append_left this, hb0] at hb
      exact Option.some_inj.mp hb
    subst hbb
    have hk' : k.bytes ≤ t.bytes := by
      rcases hk with h | h
      · simp [Expr.isScalar] at h
      · exact h
    simp only [fetch, hb, obs, hb0, Option.getD_some]
    apply load_eq
    rw [hl]
    exact Nat.mul_le_mul hi hk'
  | scalar t v =>
    intro m _ _
    exact ⟨[], .scalar t v, by simp [operand], fun us k i _ _ => rfl⟩
  | un op x ih =>
    intro m hval hfit
    obtain ⟨ts, a, ho, hr⟩ := ih m hval hfit
    refine ⟨ts ++ [encAll x.ty.bytes ((List.range n).map fun j => A.un op x.ty (obs A m n x.ty j x))], .buf (m ++ ts).length, ?_, ?_⟩
    · simp only [operand, ho, Out.bind]
      rw [run_fresh A junk x.ty (m ++ ts) n (fun j => A.un op x.ty (obs A m n x.ty j x))]
      · simp
      · intro i hi
        simp only [Call.val, hr [fresh junk n x.ty] x.ty i hi (.inr le_rfl), Out.bind]
    · intro us k i hi hk
      have hk' : k.bytes ≤ x.ty.bytes := by
        rcases hk with h | h
        · simp [Expr.isScalar] at h
        · exact h
      rw [← List.append_assoc]
      exact fetch_new A (m ++ ts) us k x.ty n i _ hi hk'
  | bin op x y ihx ihy =>
    intro m hval hfit
    obtain ⟨ts, a, ho, hr⟩ := ihx m hval.1 hfit.1
    obtain ⟨us, a', ho', hr'⟩ := ihy (m ++ ts) (valid_append ts hval.2) hfit.2.1
    refine ⟨ts ++ us ++ [encAll (op.resTy x.ty y.ty).bytes ((List.range n).map fun j => A.bin op (op.resTy x.ty y.ty)
      (obs A m n (op.resTy x.ty y.ty) j x) (obs A m n (op.resTy x.ty y.ty) j y))], .buf (m ++ ts ++ us).length, ?_, ?_⟩
    · simp only [operand, ho, ho', Out.bind]
      rw [run_fresh A junk (op.resTy x.ty y.ty) (m ++ ts ++ us) n (fun j => A.bin op (op.resTy x.ty y.ty)
        (obs A m n (op.resTy x.ty y.ty) j x) (obs A m n (op.resTy x.ty y.ty) j y))]
      · simp
      · intro i hi
        have h1 := hr (us ++ [fresh junk n (op.resTy x.ty y.ty)]) (op.resTy x.ty y.ty) i hi hfit.2.2.1
        have h2 := hr' [fresh junk n (op.resTy x.ty y.ty)] (op.resTy x.ty y.ty) i hi hfit.2.2.2
        rw [← List.append_assoc] at h1
        rw [obs_append A ts hval.2] at h2
        simp only [Call.val, h1, h2, Out.bind]
    · intro vs k i hi hk
      have hk' : k.bytes ≤ (op.resTy x.ty y.ty).bytes := by
        rcases hk with h | h
        · simp [Expr.isScalar] at h
        · exact h
      have e : m ++ (ts ++ us ++ [encAll (op.resTy x.ty y.ty).bytes ((List.range n).map fun j => A.bin op (op.resTy x.ty y.ty)
          (obs A m n (op.resTy x.ty y.ty) j x) (obs A m n (op.resTy x.ty y.ty) j y))]) = (m ++ ts ++ us) ++
          [encAll (op.resTy x.ty y.ty).bytes ((List.range n).map fun j => A.bin op (op.resTy x.ty y.ty)
          (obs A m n (op.resTy x.ty y.ty) j x) (obs A m n (op.resTy x.ty y.ty) j y))] := by simp
      rw [e]
      exact fetch_new A (m ++ ts ++ us) vs k _ n i _ hi hk'

/-- A prepared operand is a scalar exactly if the expression is one; otherwise its buffer has exactly `n` elements of its type. -/
def Sized (n : Nat) (e : Expr) (m' : Mem) (a : Arg) : Prop :=
  (e.isScalar = true ∨ ∃ id b, a = .buf id ∧ m'[id]? = some b ∧ b.length = n * e.ty.bytes)

theorem sized_sizes {n : Nat} {e : Expr} {m m' : Mem} {a : Arg} (us : Mem) (h : Sized n e m a) (hs : sizes m' = sizes (m ++ us)) :
    Sized n e m' a := by
  rcases h with h | ⟨id, b, ha, hb, hl⟩
  · exact .inl h
  · refine .inr ⟨id, ?_⟩
    have hlt : id < m.length := by
      by_contra hc
      rw [List.getElem?_eq_none (by omega)] at hb
      exact absurd hb (by simp)
    have hb' : (m ++ us)[id]? = some b := by rw [List.getElem?_append_left hlt, hb]
    obtain ⟨b', hb'', hl'⟩ := sizes_getElem? hs.symm hb'
    exact ⟨b', ha, hb'', by omega⟩

theorem valid_sizes {m m' : Mem} {n : Nat} (us : Mem) {e : Expr} (h : e.Valid m n) (hs : sizes m' = sizes (m ++ us)) :
    e.Valid m' n := by
  have h' := valid_append us h
  clear h
  induction e with
  | arr id t =>
    obtain ⟨b, hb, hl⟩ := h'
    obtain ⟨b', hb', hl'⟩ := sizes_getElem? hs.symm hb
    exact ⟨b', hb', by omega⟩
  | scalar t v => trivial
  | un op x ih => exact ih h'
  | bin op x y ihx ihy => exact ⟨ihx h'.1, ihy h'.2⟩

theorem sizes_append (m us : Mem) : sizes (m ++ us) = sizes m ++ sizes us := by simp [sizes]

/-- Whatever the types, preparing an operand only appends temporaries, as far as the sizes are concerned, and never throws. -/
theorem operand_shape (A : Arith) (junk : Nat → Nat) (n : Nat) (e : Expr) : ∀ (m : Mem), e.Valid m n →
    (∃ m' us a, operand A junk n e m = .ok (m', a) ∧ sizes m' = sizes (m ++ us) ∧ Sized n e m' a) ∨ operand A junk n e m = .ub := by
  induction e with
  | arr id t =>
    intro m hval
    obtain ⟨b, hb, hl⟩ := hval
    exact .inl ⟨m, [], .buf id, rfl, by simp, .inr ⟨id, b, rfl, hb, hl⟩⟩
  | scalar t v => intro m _; exact .inl ⟨m, [], .scalar t v, rfl, by simp, .inl rfl⟩
  | un op x ih =>
    intro m hval
    rcases ih m hval with ⟨m1, us, a, ho, hs, hz⟩ | ho
    · simp only [operand, ho, Out.bind]
      rcases run_cases A x.ty m1.length (.un op a) (m1 ++ [fresh junk n x.ty]) n with ⟨m2, hr⟩ | hr
      · refine .inl ⟨m2, us ++ [fresh junk n x.ty], .buf m1.length, by simp [hr], ?_, .inr ⟨m1.length, ?_⟩⟩
        · rw [run_sizes n hr, sizes_append, hs, ← sizes_append, List.append_assoc]
        · obtain ⟨b, hb, hl⟩ := sizes_getElem? (run_sizes n hr).symm
            (show (m1 ++ [fresh junk n x.ty])[m1.length]? = some (fresh junk n x.ty) by simp)
          exact ⟨b, rfl, hb, by rw [hl, fresh_length]; rfl⟩
      · right; simp [hr]
    · right; simp [operand, ho, Out.bind]
  | bin op x y ihx ihy =>
    intro m hval
    rcases ihx m hval.1 with ⟨m1, us, a, ho, hs, hz⟩ | ho
    · rcases ihy m1 (valid_sizes us hval.2 hs) with ⟨m2, vs, a', ho', hs', hz'⟩ | ho'
      · simp only [operand, ho, ho', Out.bind]
        rcases run_cases A (op.resTy x.ty y.ty) m2.length (.bin op a a') (m2 ++ [fresh junk n (op.resTy x.ty y.ty)]) n with ⟨m3, hr⟩ | hr
        · refine .inl ⟨m3, us ++ vs ++ [fresh junk n (op.resTy x.ty y.ty)], .buf m2.length, by simp [hr], ?_, .inr ⟨m2.length, ?_⟩⟩
          · rw [run_sizes n hr, sizes_append, hs', sizes_append, hs]
            simp only [sizes_append, List.append_assoc]
          · obtain ⟨b, hb, hl⟩ := sizes_getElem? (run_sizes n hr).symm
              (show (m2 ++ [fresh junk n (op.resTy x.ty y.ty)])[m2.length]? = some (fresh junk n (op.resTy x.ty y.ty)) by simp)
            exact ⟨b, rfl, hb, by rw [hl, fresh_length]; rfl⟩
        · right; simp [hr]
      · right; simp [operand, ho, ho', Out.bind]
    · right; simp [operand, ho, Out.bind]

/-- An operand that is not wide enough. -/
theorem not_argFits {n : Nat} {e : Expr} {m m' : Mem} {a : Arg} {k : Ty} (hn : 0 < n) (us : Mem) (hs : sizes m' = sizes (m ++ us))
    (hz : Sized n e m a) (he : e.isScalar = false) (hk : e.ty.bytes < k.bytes) : ¬ a.Fits m' k n := by
  rcases sized_sizes us hz hs with h | ⟨id, b, ha, hb, hl⟩
  · simp [h] at he
  · subst ha
    rintro ⟨b', hb', hl'⟩
    rw [hb, Option.some_inj] at hb'
    subst hb'
    rw [hl] at hl'
    exact absurd hl' (by rw [Nat.not_le]; exact Nat.mul_lt_mul_of_pos_left hk hn)

theorem not_fits_bin {op : BinOp} {x y : Expr} (h : ¬ (Expr.bin op x y).Fits) (hx : x.Fits) (hy : y.Fits) :
    (x.isScalar = false ∧ x.ty.bytes < (op.resTy x.ty y.ty).bytes) ∨ (y.isScalar = false ∧ y.ty.bytes < (op.resTy x.ty y.ty).bytes) := by
  simp only [Expr.Fits, not_and_or, not_or, Nat.not_le, Bool.not_eq_true] at h
  rcases h with h | h | h | h
  · exact absurd hx h
  · exact absurd hy h
  · exact .inl h
  · exact .inr h

theorem operand_ub (A : Arith) (junk : Nat → Nat) (n : Nat) (hn : 0 < n) (e : Expr) : ∀ (m : Mem), e.Valid m n → ¬ e.Fits →
    operand A junk n e m = .ub := by
  induction e with
  | arr id t => intro m _ h; exact absurd trivial h
  | scalar t v => intro m _ h; exact absurd trivial h
  | un op x ih => intro m hval h; simp only [operand, ih m hval h, Out.bind]
  | bin op x y ihx ihy =>
    intro m hval h
    by_cases hx : x.Fits
    · rcases operand_shape A junk n x m hval.1 with ⟨m1, us, a, ho, hs, hz⟩ | ho
      · by_cases hy : y.Fits
        · rcases operand_shape A junk n y m1 (valid_sizes us hval.2 hs) with ⟨m2, vs, a', ho', hs', hz'⟩ | ho'
          · simp only [operand, ho, ho', Out.bind]
            rw [run_ub A _ _ _ n _ hn]
            rintro ⟨⟨h1, h2⟩, -⟩
            rcases not_fits_bin h hx hy with ⟨hc, hl⟩ | ⟨hc, hl⟩
            · exact not_argFits hn (vs ++ [fresh junk n (op.resTy x.ty y.ty)])
                (by rw [sizes_append, hs']; simp only [sizes_append, List.append_assoc]) hz hc hl h1
            · exact not_argFits hn [fresh junk n (op.resTy x.ty y.ty)] rfl hz' hc hl h2
          · simp only [operand, ho, ho', Out.bind]
        · simp only [operand, ho, ihy m1 (valid_sizes us hval.2 hs) hy, Out.bind]
      · simp only [operand, ho, Out.bind]
    · simp only [operand, ihx m hval.1 hx, Out.bind]

theorem set_append (m ts : Mem) (dst : Nat) (b : List Nat) (h : dst < m.length) : (m ++ ts).set dst b = m.set dst b ++ ts :=
  List.set_append_left dst b h

theorem lt_of_getElem? {m : Mem} {id : Nat} {b : List Nat} (h : m[id]? = some b) : id < m.length := by
  by_contra hc
  rw [List.getElem?_eq_none (by omega)] at h
  exact absurd h (by simp)

/-- What an assignment does when no kernel leaves its buffers. -/
theorem assign_spec (A : Arith) (junk : Nat → Nat) (n dst : Nat) (e : Expr) (m : Mem) (b : List Nat) (hfn : e.isFn = true)
    (hval : e.Valid m n) (hfit : e.Fits) (hd : m[dst]? = some b) (hb : n * e.ty.bytes ≤ b.length) :
    ∃ ts, assign A junk n dst e m = .ok (after m dst e.ty.bytes b (nodeVal A m n e) n ++ ts) := by
  have hlt := lt_of_getElem? hd
  cases e with
  | arr id t => simp [Expr.isFn] at hfn
  | scalar t v => simp [Expr.isFn] at hfn
  | un op x =>
    obtain ⟨ts, a, ho, hr⟩ := operand_ok A junk n x m hval hfit
    refine ⟨ts, ?_⟩
    simp only [assign, ho, Out.bind]
    rw [run_spec A x.ty (m ++ ts) dst n b (nodeVal A m n (.un op x)) _ (by rw [List.getElem?_append_left hlt, hd]) hb]
    · simp only [after, set_append _ _ _ _ hlt]; rfl
    · intro i hi
      have h1 := hr [] x.ty i hi (.inr le_rfl)
      rw [List.append_nil] at h1
      simp only [Call.val, h1, Out.bind, nodeVal]
  | bin op x y =>
    obtain ⟨ts, a, ho, hr⟩ := operand_ok A junk n x m hval.1 hfit.1
    obtain ⟨us, a', ho', hr'⟩ := operand_ok A junk n y (m ++ ts) (valid_append ts hval.2) hfit.2.1
    refine ⟨ts ++ us, ?_⟩
    simp only [assign, ho, ho', Out.bind]
    rw [run_spec A (op.resTy x.ty y.ty) (m ++ ts ++ us) dst n b (nodeVal A m n (.bin op x y)) _
      (by rw [List.append_assoc, List.getElem?_append_left hlt, hd]) hb]
    · simp only [after, List.append_assoc, set_append _ _ _ _ hlt]; rfl
    · intro i hi
      have h1 := hr us (op.resTy x.ty y.ty) i hi hfit.2.2.1
      have h2 := hr' [] (op.resTy x.ty y.ty) i hi hfit.2.2.2
      rw [List.append_nil, obs_append A ts hval.2] at h2
      simp only [Call.val, h1, h2, Out.bind, nodeVal]

/-- An assignment is undefined when some kernel leaves its buffers. -/
theorem assign_ub (A : Arith) (junk : Nat → Nat) (n dst : Nat) (hn : 0 < n) (e : Expr) (m : Mem) (b : List Nat) (hfn : e.isFn = true)
    (hval : e.Valid m n) (hd : m[dst]? = some b) (h : ¬ (e.Fits ∧ n * e.ty.bytes ≤ b.length)) :
    assign A junk n dst e m = .ub := by
  have hdst : ∀ (m' us : Mem), sizes m' = sizes (m ++ us) → (Arg.buf dst).Fits m' e.ty n → n * e.ty.bytes ≤ b.length := by
    rintro m' us hs ⟨b', hb', hl'⟩
    obtain ⟨b'', hb'', hl''⟩ := sizes_getElem? hs hb'
    rw [List.getElem?_append_left (lt_of_getElem? hd), hd, Option.some_inj] at hb''
    subst hb''
    omega
  cases e with
  | arr id t => simp [Expr.isFn] at hfn
  | scalar t v => simp [Expr.isFn] at hfn
  | un op x =>
    by_cases hx : x.Fits
    · rcases operand_shape A junk n x m hval with ⟨m1, us, a, ho, hs, hz⟩ | ho
      · simp only [assign, ho, Out.bind]
        apply run_ub A _ _ _ n _ hn
        rintro ⟨-, h2⟩
        exact h ⟨hx, hdst m1 us hs h2⟩
      · simp only [assign, ho, Out.bind]
    · simp only [assign, operand_ub A junk n hn x m hval hx, Out.bind]
  | bin op x y =>
    by_cases hx : x.Fits
    · rcases operand_shape A junk n x m hval.1 with ⟨m1, us, a, ho, hs, hz⟩ | ho
      · by_cases hy : y.Fits
        · rcases operand_shape A junk n y m1 (valid_sizes us hval.2 hs) with ⟨m2, vs, a', ho', hs', hz'⟩ | ho'
          · simp only [assign, ho, ho', Out.bind]
            apply run_ub A _ _ _ n _ hn
            rintro ⟨⟨h1, h2⟩, h3⟩
            have hs2 : sizes m2 = sizes (m ++ (us ++ vs)) := by rw [hs', sizes_append, hs]; simp only [sizes_append, List.append_assoc]
            by_cases hf : (Expr.bin op x y).Fits
            · exact h ⟨hf, hdst m2 (us ++ vs) hs2 h3⟩
            · rcases not_fits_bin hf hx hy with ⟨hc, hl⟩ | ⟨hc, hl⟩
              · exact not_argFits hn vs hs' hz hc hl h1
              · exact not_argFits hn [] (by simp) hz' hc hl h2
          · simp only [assign, ho, ho', Out.bind]
        · simp only [assign, ho, operand_ub A junk n hn y m1 (valid_sizes us hval.2 hs) hy, Out.bind]
      · simp only [assign, ho, Out.bind]
    · simp only [assign, operand_ub A junk n hn x m hval.1 hx, Out.bind]

end Verif.ClTypes
