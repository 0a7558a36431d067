import Verif.Model.Expr
import Verif.Model.Transpose

/-!
# Model of `linalg::geam` (array/linalg/level3/geam.hpp) on the host

`geam(a, alpha, b, beta, c)` for arrays and `Transpose` objects, and the `assign` that sends `aT * s + bT * t` to it. The pieces are
those of `Model/Expr.lean` (element-wise expressions) and `Model/Transpose.lean`; temporaries are arrays with ids `tmp`.
-/

namespace Verif.GeamM

open ShapeM Conc TransM ExprM

/-- An argument of `geam`: an array, or a `Transpose` object over an array. For array/linalg/level3/geam.hpp 6-376. -/
inductive Side (α : Type) where
  | plain (id : Nat) (shape : List Nat)
  | transposed (id : Nat) (t : TObj α)

/-- `shape()`: that of the array, or the output shape (transpose.hpp 599-601). -/
def Side.shape {α : Type} : Side α → List Nat
  | .plain _ s => s
  | .transposed _ t => t.output

/-- The settings of a build. For array/linalg/level3/geam.hpp 6-376. -/
structure GCfg where
  expr : Cfg
  small : Bool
  threshold : Nat
  blockSize : Nat

variable {α : Type}

/-- One statement after the other. For array/linalg/level3/geam.hpp 6-376. -/
inductive Then (P : Out (Mem α) → Prop) (Q : Mem α → Out (Mem α) → Prop) : Out (Mem α) → Prop
  | next {m : Mem α} {o : Out (Mem α)} : P (.ok m) → Q m o → Then P Q o
  | throws {e : Exc} : P (.throw e) → Then P Q (.throw e)
  | ub : P .ub → Then P Q .ub

/-- A new array `id` with uninitialised elements. For array/linalg/level3/geam.hpp 6-376. -/
def fresh (id : Nat) (junk : List α) (m : Mem α) : Mem α := fun j => if j = id then junk else m j

/-- The shapes of the arrays when `id` has been created with shape `s`. For array/linalg/level3/geam.hpp 6-376. -/
def withShape (shapes : Nat → AnyShape) (id : Nat) (s : List Nat) : Nat → AnyShape := fun j => if j = id then .shape s else shapes j

/-- `Transpose(array, {1, 0}, scale).eval()` into the new array `tmp` (geam.hpp 47, 65; transpose.hpp 584-596, 692-704). -/
inductive EvalT [Mul α] (cfg : GCfg) (input : List Nat) (scale : α) (src tmp : Nat) (junk : List α) (m : Mem α) : Out (Mem α) → Prop
  | throws {e : Exc} : mkT cfg.expr.asserts input [1, 0] scale = .throw e → EvalT cfg input scale src tmp junk m (.throw e)
  | ub : mkT cfg.expr.asserts input [1, 0] scale = .ub → EvalT cfg input scale src tmp junk m .ub
  | apply {t : TObj α} {o : Out (Mem α)} : mkT cfg.expr.asserts input [1, 0] scale = .ok t →
      TransM.Apply (· * ·) cfg.expr.asserts cfg.small cfg.threshold cfg.blockSize t src tmp t.output (fresh tmp junk m) o →
      EvalT cfg input scale src tmp junk m o

/-- `c = transpose(array)` (geam.hpp 85; transpose.hpp 715-726; arrayContainer.hpp 523-532). The storage already has the right size. -/
inductive AssignT [Mul α] [One α] (cfg : GCfg) (input : List Nat) (src c : Nat) (m : Mem α) : Out (Mem α) → Prop
  | throws {e : Exc} : transposeFn cfg.expr.asserts input [0, 0] (1 : α) = .throw e → AssignT cfg input src c m (.throw e)
  | ub : transposeFn cfg.expr.asserts input [0, 0] (1 : α) = .ub → AssignT cfg input src c m .ub
  | apply {t : TObj α} {o : Out (Mem α)} : transposeFn cfg.expr.asserts input [0, 0] (1 : α) = .ok t →
      TransM.Apply (· * ·) cfg.expr.asserts cfg.small cfg.threshold cfg.blockSize t src c t.output m o → AssignT cfg input src c m o

/-- `x * s` as an expression. For array/linalg/level3/geam.hpp 6-376. -/
def times [Mul α] (id : Nat) (s : α) : Expr α := .bin (· * ·) (.arr id) (.scalar s)

/-- geam.hpp 31, 45-48, 62-65, 82-87: the bodies of the four versions. `junk` is the content of new storage. -/
def body [Add α] [Mul α] [One α] (cfg : GCfg) (shapes : Nat → AnyShape) (tmp : Nat) (junk : List α) (alpha beta : α) (c : Nat)
    (m : Mem α) : Side α → Side α → Out (Mem α) → Prop
  | .plain a _, .plain b _ => Assign cfg.expr shapes junk c (.bin (· + ·) (times a alpha) (times b beta)) m
  | .transposed a ta, .plain b _ => Then (EvalT cfg ta.input alpha a tmp junk m) fun m' =>
      Assign cfg.expr (withShape shapes tmp ta.output) junk c (.bin (· + ·) (.arr tmp) (times b beta)) m'
  | .plain a _, .transposed b tb => Then (EvalT cfg tb.input beta b tmp junk m) fun m' =>
      Assign cfg.expr (withShape shapes tmp tb.output) junk c (.bin (· + ·) (times a alpha) (.arr tmp)) m'
  | .transposed a ta, .transposed b _ =>
      Then (Assign cfg.expr (withShape shapes tmp ta.input) junk tmp (.bin (· + ·) (times a alpha) (times b beta)) (fresh tmp junk m))
        fun m' => AssignT cfg ta.input tmp c m'

/-- geam.hpp 6-11 `GEAM_VALIDATION`. The address of a `Transpose` object is never that of the output array. -/
def valid (a b : Side α) (c : Nat) (shapeC : List Nat) : Prop :=
  a.shape = b.shape ∧ a.shape.length = 2 ∧ a.shape = shapeC ∧ (∀ id s, a = .plain id s → id ≠ c) ∧ ∀ id s, b = .plain id s → id ≠ c

/-- geam.hpp 24-88 `geam` on the host. -/
inductive Geam [Add α] [Mul α] [One α] (cfg : GCfg) (shapes : Nat → AnyShape) (tmp : Nat) (junk : List α) (a : Side α) (alpha : α)
    (b : Side α) (beta : α) (c : Nat) (m : Mem α) : Out (Mem α) → Prop
  | invalid : cfg.expr.asserts = true → ¬ valid a b c (ext (shapes c)) → Geam cfg shapes tmp junk a alpha b beta c m (.throw .assertion)
  | run {o : Out (Mem α)} : (cfg.expr.asserts = true → valid a b c (ext (shapes c))) → body cfg shapes tmp junk alpha beta c m a b o →
      Geam cfg shapes tmp junk a alpha b beta c m o

end Verif.GeamM
