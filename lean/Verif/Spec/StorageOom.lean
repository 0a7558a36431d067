import Verif.Model.StorageOom

/-! What the property of storages that run out of memory says, in terms of programs. -/

namespace Verif.StorageOom

variable {α : Type}

/-- Ordinary circumstances: elements have a size, and the number of bytes of every storage the command asks for is a `size_t`. -/
def Cmd.Sized (env : Env α) : Cmd α → Prop
  | .ctorSize _ n | .ctorFill _ n _ | .resize _ n | .resizeDiscard _ n => n * env.esize < 2 ^ 64
  | .ctorList _ vals => vals.length * env.esize < 2 ^ 64
  | _ => True

/-- A copy assignment that needs memory gets it, and its target has not been moved from. -/
def Cmd.Supplied (env : Env α) (s : St α) : Cmd α → Prop
  | .assignCopy x y => ∀ o o', s.objs x = some o → s.objs y = some o' → o'.size ≠ 0 → o.size ≠ o'.size →
      o.owns = true ∧ env.fails s.calls (o'.size * env.esize) = false
  | _ => True

/-- Every command of the program is `Supplied` in the state in which it runs. -/
def SuppliedRun (env : Env α) : List (Cmd α) → St α → Prop
  | [], _ => True
  | c :: cs, s => c.Supplied env s ∧ ∀ s', step env c s = .ok () s' → SuppliedRun env cs s'

/-- A move assignment goes to a storage without memory (others lose the memory, C27). -/
def Cmd.Tidy (s : St α) : Cmd α → Prop
  | .assignMove x y => x = y ∨ ∀ o, s.objs x = some o → o.ptr = none
  | _ => True

/-- Every command of the program is `Tidy` in the state in which it runs. -/
def TidyRun (env : Env α) : List (Cmd α) → St α → Prop
  | [], _ => True
  | c :: cs, s => c.Tidy s ∧ ∀ s', step env c s = .ok () s' → TidyRun env cs s'

/-- Not a copy assignment. -/
def Cmd.NoCopyAssign : Cmd α → Prop
  | .assignCopy _ _ => False
  | _ => True

end Verif.StorageOom
