import Verif.Model.Expr
import Verif.Model.Matmul

/-!
# Assignments whose source mentions the destination

Models the assignments of `ArrayContainer` from a view, a transpose and a product (array/arrayContainer.hpp 522-555), and the
assignment of an expression to a view (array/generalArrayView.hpp 290-321), where the source may read the array that is assigned to.
Arrays are named by numbers and live in `Conc.Mem`; their extents are kept beside it, because these assignments replace the shape
before anything else can fail.

Simplifications: arrays on the host with dynamic storage they own and the class `Shape`; the destination of a transpose or product is
of the same class.
-/

namespace Verif.AliasM

open ShapeM Conc

variable {α : Type}

/-- All arrays: extents and storage. State of the model, for array/arrayContainer.hpp 522-555 and generalArrayView.hpp 290-321. -/
structure St (α : Type) where
  ext : Nat → List Nat
  mem : Mem α

/-- How an assignment ends: normally, with an exception (the arrays are then as they were left), or undefined. State of the model, for
array/arrayContainer.hpp 522-555 and generalArrayView.hpp 290-321. -/
inductive Done (α : Type) where
  | ok (s : St α)
  | throw (e : Exc) (s : St α)
  | ub

/-- `m_shape = ...` of array `d`. arrayContainer.hpp 526, 539, 550. -/
def setExt (s : St α) (d : Nat) (e : List Nat) : St α := ⟨fun id => if id = d then e else s.ext id, s.mem⟩

/-- Replace the storage of array `d`. State of the model, for array/arrayContainer.hpp 522-555 and generalArrayView.hpp 290-321. -/
def setData (m : Mem α) (d : Nat) (l : List α) : Mem α := fun id => if id = d then l else m id

/-- `m_storage.resize(n, 0)` (storage.hpp 593-611, 739-742): a new block, whose contents `junk` are not those of the old one, unless
the size stays the same. -/
def resize (asserts : Bool) (junk : List α) (d n : Nat) (m : Mem α) : Out (Mem α) :=
  if asserts && decide (n = 0) then .throw .assertion
  else if (m d).length = n then .ok m
  else .ok (setData m d junk)

/-- One pass of the loop of arrayContainer.hpp 553: `m_storage[i] = view.scalar(i)`. The view reads the array `id` as it is now. -/
def copyBody (d id : Nat) (v : ViewM.View) (i : Nat) (m : Mem α) : Out (Mem α) := do
  let x ← ViewM.scalar v (m id) i
  let l ← writeAt (m d) (i : Nat) x
  return setData m d l

/-- The end of an assignment, with the shape already set. State of the model, for array/arrayContainer.hpp 522-555 and
generalArrayView.hpp 290-321. -/
def finish (s : St α) : Out (Mem α) → Done α
  | .ok m => .ok ⟨s.ext, m⟩
  | .throw e => .throw e s
  | .ub => .ub

/-- arrayContainer.hpp 546-555 `operator=(view)`: array `d` is assigned a view of array `id`. -/
def assignView (asserts : Bool) (junk : List α) (d id : Nat) (v : ViewM.View) (s : St α) : Done α :=
  finish (setExt s d (ext v.shape))
    ((resize asserts junk d (size v.shape) s.mem).bind fun m => forUp 0 (size v.shape) (copyBody d id v) m)

/-- `d = a[i][j]...` for an array `a` named `id`: the view is formed before the assignment. State of the model, for
array/arrayContainer.hpp 522-555 and generalArrayView.hpp 290-321. -/
def assignChain (asserts : Bool) (junk : List α) (d id : Nat) (i : Int) (is : List Int) (s : St α) : Done α :=
  match ViewM.chain asserts (.shape (s.ext id)) i is with
  | .ok v => assignView asserts junk d id v s
  | .throw e => .throw e s
  | .ub => .ub

/-- `Function::scalar(k)` (function.hpp 305-317) while the elements of array `d` are `data`: what the loop of
generalArrayView.hpp 305-318 reads. -/
def exprSrc (m : Mem α) (d : Nat) (e : ExprM.Expr α) (k : Nat) (data : List α) : Out α := do
  let r ← run (ExprM.scalarP k e) (setData m d data)
  return r.1

/-- generalArrayView.hpp 290-321: a view `v` of array `d` is assigned an expression with shape `srcShape`; the result is the storage of
`d`. -/
def assignExpr (asserts : Bool) (d : Nat) (v : ViewM.View) (srcShape : AnyShape) (e : ExprM.Expr α) (m : Mem α) : Out (List α) :=
  ViewM.assign asserts v srcShape (exprSrc m d e) (m d)

/-- linalg/transpose.hpp 613-617 `Transpose::scalar(k)` for a `Transpose` of a view `w` while the elements behind it are `data`: it
evaluates the view (line 700, into uninitialised elements `junk`), transposes all of it into another new array (702, 692-698, 640-659, elements
`junk'` at first) and takes element `k`. The loop of the kernel is run sequentially here; `C33` shows that the parallel loop has the same
outcome. -/
def transposeScalar (mul : α → α → α) (one : α) (asserts : Bool) (blockSize : Nat) (junk junk' : List α) (w : ViewM.View) (k : Nat)
    (data : List α) : Out α :=
  match ext w.shape with
  | [rows, cols] => do
    let l ← ViewM.eval w data junk
    let r ← run (seqAll (TransM.rowOfBlocks mul 0 1 rows cols one blockSize) (indices 0 rows (max blockSize 1)))
      (fun id => if id = 0 then l else junk')
    readAt (r.2 1) k
  | _ => .throw (if asserts then .assertion else .runtimeError)

/-- generalArrayView.hpp 323-354: a view `v` of an array is assigned `transpose(w)` for a view `w` of the same array with elements `data`;
the result is the elements of the array. -/
def assignViewTranspose (mul : α → α → α) (one : α) (asserts : Bool) (blockSize : Nat) (junk junk' : List α) (v w : ViewM.View)
    (data : List α) : Out (List α) := do
  let t ← TransM.transposeFn asserts (ext w.shape) [0, 0] one
  ViewM.assign asserts v (.shape t.output) (transposeScalar mul one asserts blockSize junk junk' w) data

/-- What is left of a failed or finished `applyTo`, with the shape already set: a throwing `applyTo` has not written anything. State of
the model, for array/arrayContainer.hpp 522-555 and generalArrayView.hpp 290-321. -/
inductive Ends (s : St α) (m : Mem α) : Out (Mem α) → Done α → Prop
  | ok {m' : Mem α} : Ends s m (.ok m') (.ok ⟨s.ext, m'⟩)
  | throw {e : Exc} : Ends s m (.throw e) (.throw e ⟨s.ext, m⟩)
  | ub : Ends s m .ub .ub

/-- arrayContainer.hpp 522-531 `operator=(transpose)`: array `d` is assigned a `Transpose` object of array `id`, which it holds by
reference (linalg/transpose.hpp 575, 716-728). -/
inductive AssignTranspose (mul : α → α → α) (asserts small : Bool) (threshold blockSize : Nat) (junk : List α) (d id : Nat)
    (t : TransM.TObj α) (s : St α) : Done α → Prop
  | resizeThrows {e : Exc} : resize asserts junk d (TransM.prod t.output) s.mem = .throw e →
      AssignTranspose mul asserts small threshold blockSize junk d id t s (.throw e (setExt s d t.output))
  | apply {m : Mem α} {o : Out (Mem α)} {r : Done α} : resize asserts junk d (TransM.prod t.output) s.mem = .ok m →
      TransM.Apply mul asserts small threshold blockSize t id d t.output m o → Ends (setExt s d t.output) m o r →
      AssignTranspose mul asserts small threshold blockSize junk d id t s r

variable [Zero α] [One α] [Add α] [Mul α] [DecidableEq α]

/-- arrayContainer.hpp 533-544 `operator=(arrayMultiply)` of `dot(x, y)`. `dot` copies the two arrays into the object (arrayMultiply.hpp
610-612 `make_tuple`, 176-178 the members `m_a` and `m_b`), here under the names `fa` and `fb`. -/
inductive AssignDot (asserts : Bool) (t : MulM.Threads) (junk : List α) (c fa fb : Nat) (x y : MulM.Operand α) (s : St α) : Done α → Prop
  | shapeThrows {e : Exc} : MulM.calculateShape asserts (MulM.dotOp x y).1 = .throw e →
      AssignDot asserts t junk c fa fb x y s (.throw e s)
  | shapeUb : MulM.calculateShape asserts (MulM.dotOp x y).1 = .ub → AssignDot asserts t junk c fa fb x y s .ub
  | resizeThrows {e : Exc} {sh : List Nat} : MulM.calculateShape asserts (MulM.dotOp x y).1 = .ok sh →
      resize asserts junk c (TransM.prod sh) s.mem = .throw e →
      AssignDot asserts t junk c fa fb x y s (.throw e (setExt s c sh))
  | apply {sh : List Nat} {m : Mem α} {o : Out (Mem α)} {r : Done α} : MulM.calculateShape asserts (MulM.dotOp x y).1 = .ok sh →
      resize asserts junk c (TransM.prod sh)
        (setData (setData s.mem fa (s.mem (MulM.dotOp x y).2.1)) fb (s.mem (MulM.dotOp x y).2.2)) = .ok m →
      MulM.Apply asserts t (MulM.dotOp x y).1 sh sh fa fb c m o → Ends (setExt s c sh) m o r →
      AssignDot asserts t junk c fa fb x y s r

end Verif.AliasM
