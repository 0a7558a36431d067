import Verif.Model.Matmul
import Verif.Spec.Shape

/-! What the arrays and the operands of `dot` denote. -/

namespace Verif.MulM

open ShapeM Conc Grid

variable {α : Type}

/-- The array `l` of `rows` by `cols`, row major, holds the matrix `f`. -/
def Holds (l : List α) (rows cols : Nat) (f : Nat → Nat → α) : Prop :=
  l.length = rows * cols ∧ ∀ (k i j : Nat), (coords [rows, cols])[k]? = some [i, j] → l[k]? = some (f i j)

/-- The array `l` holds the vector `f`. -/
def HoldsV (l : List α) (n : Nat) (f : Nat → α) : Prop := l.length = n ∧ ∀ (k : Nat), k < n → l[k]? = some (f k)

/-- The operand denotes the `rows` by `cols` matrix `f`. -/
inductive Denotes [Mul α] (mem : Mem α) : Operand α → (rows cols : Nat) → (Nat → Nat → α) → Prop
  | arr {id rows cols : Nat} {f : Nat → Nat → α} : Holds (mem id) rows cols f → Denotes mem (.arr id [rows, cols]) rows cols f
  | tr {x : Operand α} {rows cols : Nat} {f : Nat → Nat → α} (s : α) : Denotes mem x rows cols f →
      Denotes mem (.tr x s) cols rows fun i j => s * f j i
  | mulRight {x : Operand α} {rows cols : Nat} {f : Nat → Nat → α} (s : α) : Denotes mem x rows cols f →
      Denotes mem (.mulRight x s) rows cols fun i j => f i j * s
  | mulLeft {x : Operand α} {rows cols : Nat} {f : Nat → Nat → α} (s : α) : Denotes mem x rows cols f →
      Denotes mem (.mulLeft s x) rows cols fun i j => s * f i j

/-- The array under an operand. -/
def Operand.leaf : Operand α → Nat
  | .arr id _ => id
  | .tr x _ => x.leaf
  | .mulRight x _ => x.leaf
  | .mulLeft _ x => x.leaf

end Verif.MulM
