import Verif.Model.Set

/-! Specification of sets: membership as seen through `operator[]`, and histories of additions and deletions. -/

namespace Verif.SetM

variable {α : Type} [LinearOrder α]

/-- `x` is an element of `s` as seen by the user through `s[0], ..., s[size()-1]`. -/
def Elem (s : LSet α) (x : α) : Prop := ∃ i : Int, index true s i = .ok x

/-- An elementary event of a history. -/
inductive Ev (α : Type) where
  | clear
  | add (x : α)
  | del (x : α)

/-- The event decides whether `x` is present afterwards. -/
def Ev.Mentions : Ev α → α → Prop
  | .clear, _ => True
  | .add y, x => y = x
  | .del y, x => y = x

/-- What an operation means, element by element. -/
def Op.events : Op α → List (Ev α)
  | .assign l => .clear :: l.map .add
  | .insert x => [.add x]
  | .insertMany l => l.map .add
  | .discard x => [.del x]
  | .discardMany l => l.map .del

/-- The last event that mentioned `x` added it. -/
def LastAdded (h : List (Ev α)) (x : α) : Prop :=
  ∃ pre post, h = pre ++ Ev.add x :: post ∧ ∀ e ∈ post, ¬ e.Mentions x

end Verif.SetM
