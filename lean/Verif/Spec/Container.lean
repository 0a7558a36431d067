import Verif.Model.Container
import Verif.Spec.Storage

/-! What the properties of array containers say. -/

namespace Verif.ContM

open StorageM

variable {α : Type}

/-- The right-hand sides of a command have as many elements as their shape says, and the temporary of `copy()` is not
the new array. -/
def ACmd.WellFormed : ACmd α → Prop
  | .ctorExpr _ dims vals | .assignExpr _ dims vals | .assignOp _ dims vals => vals.length = dims.prod
  | .copyOf x tmp _ => x ≠ tmp
  | _ => True

/-- Array `x` is consistent: it stores as many elements as the product of its extents, `size()` says so, and all of them can be
read. -/
def Consistent (asserts : Bool) (s : ASt α) (x : Nat) : Prop :=
  s.msize x = (s.shape x).prod ∧ ∃ vals, Holds asserts s.st x vals ∧ vals.length = (s.shape x).prod

/-- `x` is alive and has not been moved from. -/
def Whole (s : ASt α) (x : Nat) : Prop := Owner s.st x

/-- Circumstances in which a command keeps arrays consistent. -/
def ACmd.Tidy (asserts : Bool) (s : ASt α) : ACmd α → Prop
  | .ctorCopy _ y | .copyOf _ _ y => Whole s y
  | .assignCopy x y => x = y ∨ (Whole s x ∧ Whole s y ∧ (0 < (s.shape y).prod ∨ (s.shape x).prod = 0))
  | .assignExpr x dims _ => Whole s x ∧ (dims.prod = (s.shape x).prod ∨ (asserts = true ∧ dims.prod = 0))
  | .assignOp x dims _ => Whole s x ∧ (asserts = true → dims.prod = 0 → (s.shape x).prod = 0)
  | .assignScalar x _ => Whole s x ∧ (asserts = false → 0 < (s.shape x).prod)
  | .write x i _ => Whole s x ∧ (asserts = false → i < (s.shape x).prod)
  | .resize x dims => Whole s x ∧ (asserts = false → dims.prod = (s.shape x).prod)
  | _ => True

/-- Every command of the program is tidy in the state in which it runs. -/
def ATidyRun (asserts : Bool) : List (ACmd α) → ASt α → Prop
  | [], _ => True
  | c :: cs, s => c.WellFormed ∧ c.Tidy asserts s ∧
    ∀ s', (aexec asserts c s = .ok s' ∨ ∃ e, aexec asserts c s = .throw e s') → ATidyRun asserts cs s'

end Verif.ContM
