import Verif.Model.Storage

/-! What the properties of storages say, in terms of programs and of what can be read through `operator[]`. -/

namespace Verif.StorageM

variable {α : Type}

/-- The command is about owning storages: it does not create one on somebody else's memory. -/
def Cmd.Owning : Cmd α → Prop
  | .ctorDependent _ _ => False
  | _ => True

/-- States that programs over owning storages reach. -/
def Reachable (asserts : Bool) (s : St α) : Prop := ∃ cs : List (Cmd α), (∀ c ∈ cs, c.Owning) ∧ runAll asserts cs init = .ok () s

/-- `x.size()`, if `x` is alive. -/
def sizeOf? (s : St α) (x : Nat) : Option Nat := (s.objs x).map Obj.size

/-- Storage `x` holds the values `vals` (uninitialised ones are `none`): its size is their number, and `x[i]` reads the `i`-th. -/
def Holds (asserts : Bool) (s : St α) (x : Nat) (vals : List (Option α)) : Prop :=
  sizeOf? s x = some vals.length ∧ ∀ (i : Nat) v, vals[i]? = some v → readAt asserts x i s = .ok v s

/-- `x` is alive and owns its memory; false after a move from `x`. -/
def Owner (s : St α) (x : Nat) : Prop := ∃ o, s.objs x = some o ∧ o.owns = true

/-- `x.data()` is null. -/
def NullData (s : St α) (x : Nat) : Prop := ∀ o, s.objs x = some o → o.ptr = none

/-- The block was allocated and has not been freed. -/
def LiveAt (s : St α) (b : Nat) (cs : List (Option α)) : Prop := s.blocks[b]? = some (.live cs)

/-- The commands that do not lose a block: a move assignment to a storage that holds memory loses it, and without assertions
so does resizing a storage that does not own its memory. -/
def Cmd.Tidy (asserts : Bool) (s : St α) : Cmd α → Prop
  | .assignMove x y => x = y ∨ NullData s x
  | .resize x _ | .resizeDiscard x _ => asserts = true ∨ Owner s x
  | .ctorDependent _ _ => False
  | _ => True

/-- Every command of the program is tidy in the state in which it runs. -/
def TidyRun (asserts : Bool) : List (Cmd α) → St α → Prop
  | [], _ => True
  | c :: cs, s => c.Tidy asserts s ∧ ∀ s', (exec asserts c s = .ok () s' ∨ ∃ e, exec asserts c s = .throw e s') → TidyRun asserts cs s'

end Verif.StorageM
