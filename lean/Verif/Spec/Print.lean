import Verif.Model.Print
import Verif.Spec.Shape

/-! What printing an array should produce. -/

namespace Verif.Print

open Grid

/-- The elements of an output, in the order in which they are written. -/
def elems : List (Tok α) → List α
  | [] => []
  | .elem x :: ts => x :: elems ts
  | _ :: ts => elems ts

/-- The output without layout: brackets and elements. -/
def bare : List (Tok α) → List (Tok α)
  | [] => []
  | .opn :: ts => .opn :: bare ts
  | .cls :: ts => .cls :: bare ts
  | .elem x :: ts => .elem x :: bare ts
  | _ :: ts => bare ts

/-- Nested brackets, as the extents say, around the elements of `data` from position `off` on. -/
def nest (data : List α) : List Nat → Nat → List (Tok α)
  | [], off => (data[off]?.map Tok.elem).toList
  | d :: ds, off => [.opn] ++ (List.range d).flatMap (fun i => nest data ds (off + i * count ds)) ++ [.cls]

/-- The column of the cursor after writing `s` at column `c`. -/
def advance (c : Nat) (s : List Char) : Nat := s.foldl (fun c ch => if ch = '\n' then 0 else c + 1) c

/-- For each element of the output, the column of its decimal point, or of the character after it if it has none. -/
def points (bracket separator : Char) (fmt : α → List Char) : List (Tok α) → Nat → List Nat
  | [], _ => []
  | t :: ts, c => (match t with
    | .elem x => [c + (fmt x).idxOf '.']
    | _ => []) ++ points bracket separator fmt ts (advance c (t.text bracket separator fmt))

/-- Element `k` of the output has its decimal point in the same column as all other elements of the same column of the array. -/
def Aligned (w : Nat) (ps : List Nat) : Prop := ∀ i j : Nat, i % w = j % w → ∀ p q, ps[i]? = some p → ps[j]? = some q → p = q

end Verif.Print
