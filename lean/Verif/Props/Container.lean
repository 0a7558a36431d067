import Verif.Lemmas.Container

/-! Property theorems for array containers (C29). -/

namespace Verif.ContM

open StorageM

variable {α : Type}

/-- The full property C29: after every program, also one in which assignments failed, every array that is alive stores as many
elements as its shape says. -/
def C29Claim : Prop :=
  ∀ (α : Type) (asserts : Bool) (cs : List (ACmd α)) (s : ASt α), (∀ c ∈ cs, c.WellFormed) → arunAll asserts cs ainit = .ok s →
    ∀ x o, s.st.objs x = some o → Consistent asserts s x

theorem not_consistent {asserts : Bool} {s : ASt α} {x : Nat} (h : sizeOf? s.st x ≠ some (s.shape x).prod) : ¬ Consistent asserts s x := by
  rintro ⟨_, vals, ⟨h1, _⟩, h2⟩
  exact h (h1.trans (by rw [h2]))

/-- **C29** is false of the code: an assignment that fails the shape check has already resized the storage. -/
theorem C29_false : ¬ C29Claim := by
  intro h
  refine not_consistent ?_ (h Nat true [.ctorShape 0 [3], .assignExpr 0 [2] [1, 2]] _ (by simp [ACmd.WellFormed]) rfl 0 _ rfl)
  decide

/-- Without assertions, assigning an expression to a default-constructed array leaves its shape at (0). -/
theorem C29_default_false : ∃ s : ASt Nat, arunAll false [.ctorDefault 0, .assignExpr 0 [2] [1, 2]] ainit = .ok s ∧
    s.shape 0 = [0] ∧ sizeOf? s.st 0 = some 2 := ⟨_, rfl, rfl, rfl⟩

/-- With assertions, it always fails with a shape error, and the array stores elements although its shape is (0). -/
theorem C29_default_throws : ∃ s s' : ASt Nat, arunAll true [.ctorDefault 0] ainit = .ok s ∧
    aexec true (.assignExpr 0 [2] [1, 2]) s = .throw .rangeError s' ∧ s'.shape 0 = [0] ∧ sizeOf? s'.st 0 = some 2 :=
  ⟨_, _, rfl, rfl, rfl, rfl⟩

/-- Assigning an empty array changes the shape but not the storage. -/
theorem C29_empty_false (asserts : Bool) : ∃ s : ASt Nat, arunAll asserts [.ctorShape 0 [3], .ctorDefault 1, .assignCopy 0 1] ainit = .ok s ∧
    s.shape 0 = [0] ∧ sizeOf? s.st 0 = some 3 := by
  cases asserts <;> exact ⟨_, rfl, rfl, rfl⟩

/-- A moved-from array keeps its shape but has no elements: reading `a[0]` of a moved-from array of shape (2) is undefined
behaviour without assertions. -/
theorem C29_moved_false : ∃ s : ASt Nat, arunAll false [.ctorShape 0 [2], .ctorMove 1 0] ainit = .ok s ∧
    s.shape 0 = [2] ∧ sizeOf? s.st 0 = some 0 ∧ StorageM.readAt false 0 0 s.st = .ub .nullAccess := ⟨_, rfl, rfl, rfl, rfl⟩

/-- Without assertions `resize` accepts any shape. -/
theorem C29_resize_false : ∃ s : ASt Nat, arunAll false [.ctorShape 0 [2], .resize 0 [5]] ainit = .ok s ∧
    s.shape 0 = [5] ∧ StorageM.readAt false 0 4 s.st = .ub .outOfBounds := ⟨_, rfl, rfl, rfl⟩

/-- A default-constructed fixed-size array says its size is 0 whatever its extents. -/
theorem C29_fixed_false : (fixedArrDefault [2, 3] : FixedArr Nat _).msize = 0 ∧ (fixedArrDefault [2, 3] : FixedArr Nat _).shape.prod = 6 :=
  ⟨rfl, rfl⟩

theorem ainv_init (asserts : Bool) : AInv asserts (ainit : ASt α) := by
  refine ⟨⟨by intro _ _ _ h; simp [ainit, StorageM.init] at h, by intro _ _ _ _ _ h; simp [ainit, StorageM.init] at h⟩, ?_⟩
  rintro x ⟨o, h, -⟩
  simp [ainit, StorageM.init] at h

theorem arunAll_ok {asserts : Bool} {cs : List (ACmd α)} {s : ASt α} (h : AInv asserts s) (ht : ATidyRun asserts cs s) :
    AOk asserts (arunAll asserts cs s) := by
  induction cs generalizing s with
  | nil => exact h
  | cons c cs ih =>
    unfold arunAll
    split
    · rename_i hf
      have := aexec_ok ht.1 ht.2.1 h (by simpa using hf)
      cases he : aexec asserts c s with
      | ok s' => rw [he] at this; exact ih this (ht.2.2 s' (Or.inl he))
      | throw e s' => rw [he] at this; exact ih this (ht.2.2 s' (Or.inr ⟨e, he⟩))
      | ub k => rw [he] at this; exact this
    · rfl

/-- **C29** for tidy programs: arrays that were not moved from are consistent, also after failed assignments. Tidy means: no
assignment from or to moved-from arrays except moves, expressions are assigned to arrays with the same number of elements, and
empty arrays only to empty arrays (without assertions, also that accesses are in bounds and `resize` keeps the size). -/
theorem C29_partial {asserts : Bool} {cs : List (ACmd α)} {s : ASt α} (ht : ATidyRun asserts cs ainit)
    (hr : arunAll asserts cs ainit = .ok s) {x : Nat} (hx : Whole s x) : Consistent asserts s x := by
  have := arunAll_ok (ainv_init asserts) ht
  rw [hr] at this
  exact this.whole x hx

/-- Tidy programs that use variables only during their lifetime have no undefined behaviour. -/
theorem C29_safe {asserts : Bool} {cs : List (ACmd α)} (ht : ATidyRun asserts cs ainit) {k : UB}
    (hr : arunAll asserts cs ainit = .ub k) : k = .badObject := by
  have := arunAll_ok (ainv_init asserts) ht
  rw [hr] at this
  exact this

/-- In a state tidy programs reach, assignment of a view, transpose or product gives an array with its shape and elements. -/
theorem C29_assign {asserts : Bool} {cs : List (ACmd α)} {s : ASt α} (ht : ATidyRun asserts cs ainit)
    (hr : arunAll asserts cs ainit = .ok s) {x : Nat} (hx : Whole s x) {dims : List Nat} {vals : List α} (hl : vals.length = dims.prod)
    (hpos : 0 < dims.prod) : ∃ s', aexec asserts (.assignOp x dims vals) s = .ok s' ∧ Holds asserts s'.st x (vals.map some) ∧
      s'.shape x = dims := by
  have := arunAll_ok (ainv_init asserts) ht
  rw [hr] at this
  exact (assignOp_ok this hx hl (fun _ h => by omega)).2 (fun _ => hpos)

/-- A concrete tidy program in which an assignment fails (shape (4) against (2,2)) and is caught. -/
example : ATidyRun (α := Nat) true [.ctorFill 0 [2, 2] 7, .assignExpr 0 [4] [1, 2, 3, 4]] ainit := by
  refine ⟨trivial, trivial, ?_⟩
  rintro s (h | ⟨e, h⟩)
  · cases h
    refine ⟨by simp [ACmd.WellFormed], ⟨⟨_, rfl, rfl⟩, Or.inl rfl⟩, ?_⟩
    intro s' _
    trivial
  · cases h

/-- `ArrayContainer::copy()` leaks: after the array and its copy are destroyed a block is still allocated. -/
theorem C27_array_copy_leaks : ∃ s : ASt Nat, arunAll true [.ctorShape 0 [2], .copyOf 1 2 0, .dtor 0, .dtor 1] ainit = .ok s ∧
    s.st.objs 0 = none ∧ s.st.objs 1 = none ∧ s.st.objs 2 = none ∧ LiveAt s.st 1 [none, none] := ⟨_, rfl, rfl, rfl, rfl, rfl⟩

end Verif.ContM
