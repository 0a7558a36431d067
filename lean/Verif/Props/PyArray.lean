import Verif.Model.PyArray

/-!
# C125: the Python function `Array` makes the array its arguments describe

The documentation names the parameters `shape`, `dtype` and `backend` in this order (librapid/__init__.py 49-65). The claim is false: the first
positional argument is taken as data.
-/

namespace Verif.PyArray

open ShapeM

variable {β : Type}

/-- C125 as documented: the first parameter is the shape. -/
def C125Claim : Prop :=
  ∀ (β : Type) (x : β) (args : List (Arg β)), array (.obj x :: args) [] = array (.none :: args) [("shape", .obj x)]

/-- `Array((2, 3))` calls the constructor from data. -/
theorem C125_false : ¬ C125Claim := by
  intro h
  have h0 := h Nat 0 []
  have h1 : array [Arg.obj 0] [] = .ok (.ofData .float (.obj 0)) := rfl
  have h2 : array [Arg.none] [("shape", Arg.obj 0)] = .ok (.ofShape .float (.obj 0)) := rfl
  rw [h1, h2] at h0
  cases h0

/-- What the arguments mean, read off the calls: the first value given for each name. -/
def given (kwargs : List (String × Arg β)) (k : String) : Arg β := (kwargs.lookup k).getD .none

/-- The names that `Array` knows. -/
def known : List String := ["shape", "data", "dtype", "backend"]

theorem keywords_ok (kwargs : List (String × Arg β)) : ∀ s : Slots β, (∀ p ∈ kwargs, p.1 ∈ known) → (kwargs.map Prod.fst).Nodup →
    keywords s kwargs = .ok ⟨(kwargs.lookup "shape").getD s.shape, (kwargs.lookup "data").getD s.data,
      (kwargs.lookup "dtype").getD s.dtype, (kwargs.lookup "backend").getD s.backend⟩ := by
  induction kwargs with
  | nil => intro s _ _; rfl
  | cons p ps ih =>
    intro s hk hn
    obtain ⟨k, a⟩ := p
    have hkn := hk (k, a) List.mem_cons_self
    simp only [List.map_cons, List.nodup_cons] at hn
    have hnone : ps.lookup k = none := by
      rw [List.lookup_eq_none_iff]
      intro q hq
      rw [bne_iff_ne]
      intro hc
      exact hn.1 (List.mem_map.2 ⟨q, hq, hc.symm⟩)
    have ih' := fun s => ih s (fun q hq => hk q (List.mem_cons_of_mem _ hq)) hn.2
    simp only [known, List.mem_cons, List.not_mem_nil, or_false] at hkn
    unfold keywords
    rcases hkn with rfl | rfl | rfl | rfl <;> simp [ih', List.lookup_cons, hnone]

theorem keywords_unknown (kwargs : List (String × Arg β)) : ∀ s : Slots β, (∃ p ∈ kwargs, p.1 ∉ known) →
    keywords s kwargs = .error .valueError := by
  induction kwargs with
  | nil => rintro s ⟨p, hp, _⟩; cases hp
  | cons p ps ih =>
    rintro s ⟨q, hq, hqn⟩
    obtain ⟨k, a⟩ := p
    unfold keywords
    by_cases hk : k ∈ known
    · have hq' : q ∈ ps := by
        rcases List.mem_cons.1 hq with rfl | hq
        · exact absurd hk hqn
        · exact hq
      have ih' := fun s => ih s ⟨q, hq', hqn⟩
      simp only [known, List.mem_cons, List.not_mem_nil, or_false] at hk
      rcases hk with rfl | rfl | rfl | rfl <;> simp [ih']
    · simp only [known, List.mem_cons, List.not_mem_nil, or_false, not_or] at hk
      simp [hk]

/-- C125, keyword calls: with known names in any order, exactly one of `shape` and `data`, a data type and the CPU (or neither given), `Array` calls
the constructor of the class whose elements have the data type, with the shape or the data that was given. -/
theorem C125_keywords_partial (kwargs : List (String × Arg β)) (hk : ∀ p ∈ kwargs, p.1 ∈ known) (hn : (kwargs.map Prod.fst).Nodup)
    (d : DType) (hd : given kwargs "dtype" = .dtype d ∨ (given kwargs "dtype" = .none ∧ d = .float32))
    (hb : given kwargs "backend" = .backend .CPU ∨ given kwargs "backend" = .none) :
    ∃ t, cpuType (β := β) (.dtype d) = some t ∧ t.sizeof = d.size ∧
      (∀ x, x ≠ .none → given kwargs "shape" = x → given kwargs "data" = .none → array [] kwargs = .ok (.ofShape t x)) ∧
      (∀ x, x ≠ .none → given kwargs "data" = x → given kwargs "shape" = .none → array [] kwargs = .ok (.ofData t x)) := by
  have hnn : ∀ x : Arg β, x ≠ .none → x.isNone = false := by
    intro x hx
    cases x <;> first | rfl | exact absurd rfl hx
  obtain ⟨t, ht, hsz⟩ : ∃ t, cpuType (β := β) (.dtype d) = some t ∧ t.sizeof = d.size := by
    cases d <;> exact ⟨_, rfl, rfl⟩
  have hkw := keywords_ok kwargs ({} : Slots β) hk hn
  have hcls : classOf (orElse (given kwargs "dtype") (.dtype .float32)) (orElse (given kwargs "backend") (.backend .CPU)) = .ok t := by
    have h1 : orElse (given kwargs "dtype") (.dtype .float32) = .dtype d := by
      rcases hd with hd | ⟨hd, rfl⟩ <;> rw [hd] <;> rfl
    have h2 : orElse (given kwargs "backend") (.backend .CPU) = .backend .CPU := by
      rcases hb with hb | hb <;> rw [hb] <;> rfl
    rw [h1, h2]
    simp only [classOf, ht]
  refine ⟨t, ht, hsz, ?_, ?_⟩
  · intro x hx h1 h2
    have hone : oneOf (⟨given kwargs "shape", given kwargs "data", given kwargs "dtype", given kwargs "backend"⟩ : Slots β) = .ok () := by
      rw [h1, h2]
      simp [oneOf, hnn x hx, Arg.isNone]
    unfold array positional
    rw [hkw]
    change (oneOf (⟨given kwargs "shape", given kwargs "data", given kwargs "dtype", given kwargs "backend"⟩ : Slots β) >>= fun _ =>
      classOf (orElse (given kwargs "dtype") (.dtype .float32)) (orElse (given kwargs "backend") (.backend .CPU)) >>= fun t =>
        pure (construct ⟨given kwargs "shape", given kwargs "data", given kwargs "dtype", given kwargs "backend"⟩ t)) = _
    rw [hone, hcls]
    simp [bind, Except.bind, pure, Except.pure, construct, h1, hnn x hx]
  · intro x hx h1 h2
    have hone : oneOf (⟨given kwargs "shape", given kwargs "data", given kwargs "dtype", given kwargs "backend"⟩ : Slots β) = .ok () := by
      rw [h1, h2]
      simp [oneOf, hnn x hx, Arg.isNone]
    unfold array positional
    rw [hkw]
    change (oneOf (⟨given kwargs "shape", given kwargs "data", given kwargs "dtype", given kwargs "backend"⟩ : Slots β) >>= fun _ =>
      classOf (orElse (given kwargs "dtype") (.dtype .float32)) (orElse (given kwargs "backend") (.backend .CPU)) >>= fun t =>
        pure (construct ⟨given kwargs "shape", given kwargs "data", given kwargs "dtype", given kwargs "backend"⟩ t)) = _
    rw [hone, hcls]
    simp [bind, Except.bind, pure, Except.pure, construct, h1, h2, Arg.isNone]

/-- C125, rejected calls: an unknown name, both of `shape` and `data`, and neither of them are `ValueError`s. -/
theorem C125_reject_partial (args : List (Arg β)) (kwargs : List (String × Arg β)) :
    ((∃ p ∈ kwargs, p.1 ∉ known) → array args kwargs = .error .valueError) ∧
    ((∀ p ∈ kwargs, p.1 ∈ known) → (kwargs.map Prod.fst).Nodup →
      (given kwargs "shape" = .none ∧ given kwargs "data" = .none ∨ given kwargs "shape" ≠ .none ∧ given kwargs "data" ≠ .none) →
      array [] kwargs = .error .valueError) := by
  constructor
  · intro h
    unfold array
    rw [keywords_unknown kwargs _ h]
    rfl
  · intro hk hn hc
    have hkw := keywords_ok kwargs ({} : Slots β) hk hn
    have hone : oneOf (⟨given kwargs "shape", given kwargs "data", given kwargs "dtype", given kwargs "backend"⟩ : Slots β) =
        .error .valueError := by
      rcases hc with ⟨h1, h2⟩ | ⟨h1, h2⟩
      · rw [h1, h2]; rfl
      · have hnn : ∀ x : Arg β, x ≠ .none → x.isNone = false := by
          intro x hx
          cases x <;> first | rfl | exact absurd rfl hx
        simp [oneOf, hnn _ h1, hnn _ h2]
    unfold array positional
    rw [hkw]
    change (oneOf (⟨given kwargs "shape", given kwargs "data", given kwargs "dtype", given kwargs "backend"⟩ : Slots β) >>= fun _ => _) = _
    rw [hone]
    rfl

theorem positional_skip (s : Slots β) (as : List (Arg β)) : ∀ i, positional s (i + 3) as = s := by
  induction as with
  | nil => intro i; rfl
  | cons a as ih => intro i; exact ih (i + 1)

/-- C125, positional arguments: they are data, data type and backend; any more are ignored without an error. -/
theorem C125_positional_partial (x t b : Arg β) (more : List (Arg β)) :
    array (x :: t :: b :: more) [] = array [] [("data", x), ("dtype", t), ("backend", b)] := by
  unfold array
  have : positional ({} : Slots β) 0 (x :: t :: b :: more) = ⟨.none, x, t, b⟩ := positional_skip _ more 0
  rw [this]
  rfl

/-- C125, `for d in shape`: the extents in order. -/
theorem C125_shape_loop_partial (e : List Nat) (fuel : Nat) (h : e.length < fuel) : shapeLoop (.shape e) fuel 0 = some (.ok e) := by
  have key : ∀ n i fuel, e.length = i + n → n < fuel → shapeLoop (.shape e) fuel i = some (.ok (e.drop i)) := by
    intro n
    induction n with
    | zero =>
      intro i fuel hi hf
      obtain ⟨fuel, rfl⟩ : ∃ f, fuel = f + 1 := ⟨fuel - 1, by omega⟩
      have : at' true (.shape e) i = .throw .outOfRange := by simp [at', show ¬ ((i : Int) < e.length) by omega]
      simp only [shapeLoop, this]
      rw [List.drop_eq_nil_of_le (by omega)]
    | succ n ih =>
      intro i fuel hi hf
      obtain ⟨fuel, rfl⟩ : ∃ f, fuel = f + 1 := ⟨fuel - 1, by omega⟩
      have hlt : i < e.length := by omega
      have : at' true (.shape e) i = .ok e[i] := by
        simp [at', hlt, readAt, List.getElem?_eq_getElem hlt]
      simp only [shapeLoop, this, ih (i + 1) fuel (by omega) (by omega), Option.map_some, Out.ok_bind]
      rw [List.drop_eq_getElem_cons hlt]
  simpa using key e.length 0 fuel (by omega) h

/-- C125, `shape[i]`: the extent, or `IndexError`; negative indices do not count from the end. -/
theorem C125_shape_get_partial (e : List Nat) (i : Int) :
    (∀ j : Nat, i = j → ∀ h : j < e.length, shapeGet e i = .ok e[j]) ∧
      ((i < 0 ∨ (e.length : Int) ≤ i) → shapeGet e i = .error .indexError) := by
  constructor
  · rintro j rfl h
    simp [shapeGet, at', h, readAt, List.getElem?_eq_getElem h]
  · intro h
    have : at' true (.shape e) i = .throw .outOfRange := by
      unfold at'
      by_cases h1 : i < e.length
      · have h0 : ¬ 0 ≤ i := by omega
        simp [h1, h0]
      · simp [h1]
    simp [shapeGet, this, PyM.pyExc]

/-- `Array(dtype=float64, shape=...)`. -/
example : array [] [("dtype", .dtype .float64), ("shape", .obj (3 : Nat))] = .ok (.ofShape .double (.obj 3)) := rfl

/-- `Array(..., data=...)`: the keyword wins, without an error. -/
example : array [.obj (1 : Nat)] [("data", .obj 2)] = .ok (.ofData .float (.obj 2)) := rfl

/-- `Array([...], float32, CPU, 9, 9)`. -/
example : array [.obj (1 : Nat), .dtype .float32, .backend .CPU, .obj 9, .obj 9] [] = .ok (.ofData .float (.obj 1)) := rfl

/-- `Array([...], backend="CPU")` raises `AttributeError`. -/
example : array [.obj (1 : Nat)] [("backend", .obj 2)] = .error .attributeError := rfl

example : shapeLoop (.shape [2, 3, 4]) 10 0 = some (.ok [2, 3, 4]) := C125_shape_loop_partial _ _ (by decide)

end Verif.PyArray
