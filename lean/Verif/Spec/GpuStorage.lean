import Verif.Model.GpuStorage

/-!
# What a storage should be: a value

A program sees each storage as a list of elements of its own.  The specification knows nothing of buffers, addresses or queues.  An element
`none` has an unspecified value.
-/

namespace Verif.GpuSt

variable {V : Type}

/-- A storage as the user sees it: its elements, and whether it has been moved from (and not assigned by a move since). -/
structure Val (V : Type) where
  vals : List (Option V)
  moved : Bool

/-- The storages of a program. -/
abbrev Env (V : Type) := Nat → Option (Val V)

/-- What each operation means.  `none`: the name is not free, or does not exist. -/
def meaning : Cmd V → Env V → Option (Env V)
  | .default x, e => if (e x).isSome then none else some (Function.update e x (some ⟨[], false⟩))
  | .size x n, e => if (e x).isSome then none else some (Function.update e x (some ⟨List.replicate n none, false⟩))
  | .fill x n v, e => if (e x).isSome then none else some (Function.update e x (some ⟨List.replicate n (some v), false⟩))
  | .list x vs, e => if (e x).isSome then none else some (Function.update e x (some ⟨vs.map some, false⟩))
  | .fromData x vs, e => if (e x).isSome then none else some (Function.update e x (some ⟨vs.map some, false⟩))
  | .copyCtor x y, e => if (e x).isSome then none else (e y).map fun v => Function.update e x (some ⟨v.vals, false⟩)
  | .copy x y, e => if (e x).isSome then none else (e y).map fun v => Function.update e x (some ⟨v.vals, false⟩)
  | .moveCtor x y, e =>
    if (e x).isSome then none
    else (e y).map fun v => Function.update (Function.update e x (some v)) y (some ⟨[], true⟩)
  | .assign x y, e =>
    (e x).bind fun _ => (e y).map fun v => if x = y then e else Function.update e x (some ⟨v.vals, false⟩)
  | .moveAssign x y, e =>
    (e x).bind fun _ => (e y).map fun v =>
      if x = y then e else Function.update (Function.update e x (some v)) y (some ⟨[], true⟩)
  | .resize x n, e =>
    (e x).map fun w => Function.update e x (some ⟨w.vals.take n ++ List.replicate (n - w.vals.length) none, w.moved⟩)
  | .resizeNew x n, e =>
    (e x).map fun w => if n = w.vals.length then e else Function.update e x (some ⟨List.replicate n none, w.moved⟩)
  | .write x i v, e =>
    (e x).bind fun w => if i < w.vals.length then some (Function.update e x (some ⟨w.vals.set i (some v), w.moved⟩)) else none
  | .destroy x, e => (e x).map fun _ => Function.update e x none

/-- A program, all of whose intermediate states are listed: the value of the storages before each operation. -/
def meanings : List (Cmd V) → Env V → Option (Env V)
  | [], e => some e
  | k :: ks, e => (meaning k e).bind (meanings ks)

/-- Uses of storages that the code carries out as meant, given the values before the operation. -/
def Careful (be : Backend) : Cmd V → Env V → Prop
  | .default _, _ => False
  | .fromData _ vs, _ => be = .cuda → vs ≠ []
  | .copyCtor _ y, e => be = .cuda → ∀ v, e y = some v → v.vals = []
  | .assign x y, e => x = y ∨ (∀ v, e y = some v → v.vals ≠ []) ∧ ∀ w, e x = some w → w.moved = false
  | .resize x n, e => 0 < n ∧ ∀ w, e x = some w → w.moved = false
  | .resizeNew x n, e => 0 < n ∧ ∀ w, e x = some w → w.moved = false
  | _, _ => True

/-- A program all of whose operations are careful. -/
def AllCareful (be : Backend) : List (Cmd V) → Env V → Prop
  | [], _ => True
  | k :: ks, e => Careful be k e ∧ ∀ e', meaning k e = some e' → AllCareful be ks e'

/-- A compilation in which no CUDA call is evaluated twice. -/
def Cfg.Single (c : Cfg) : Prop := c.be = .opencl ∨ c.asserts = false

/-- The whole property: every program whose operations have a meaning runs without undefined behaviour or exception, and afterwards each
storage reads back its value. -/
def C69Claim (c : Cfg) : Prop :=
  ∀ (V : Type) (ks : List (Cmd V)) (e : Env V), meanings ks (fun _ => none) = some e →
    ∃ s, run c ks St.empty = .ok s ∧
      ∀ x v, e x = some v → (∃ o, s.objs x = some o ∧ o.size = some v.vals.length) ∧
        ∀ i (h : i < v.vals.length) a, v.vals[i] = some a → read c x i s = .ok (some a)

end Verif.GpuSt
