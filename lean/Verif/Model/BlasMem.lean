import Verif.Basic

/-!
# Memory and loops for the model of cxxblas

The generic routines of librapid/cxxblas work on raw pointers with increments. All arrays live in one address space of cells
of one scalar type `K`; a pointer is an address. A cell is outside every array, allocated but never written, or holds a value.
Reading anything but a value and writing outside every array is undefined behaviour. Only accesses are checked: forming a
pointer outside its array (as `x -= incX*(n-1)` followed by additions may do) is not. Index arithmetic is on integers
without overflow. Sizes are natural numbers (a negative size runs no loop in the code).
-/

namespace Verif.Blas

/-- What an address holds. Memory and control flow of the model, for the loops of librapid/cxxblas. -/
inductive Cell (K : Type) where
  | out
  | raw
  | val (v : K)
deriving DecidableEq, Repr

/-- The address space. Memory and control flow of the model, for the loops of librapid/cxxblas. -/
abbrev Mem (K : Type) := Int → Cell K

/-- Routines: they change the memory, return a value, or have undefined behaviour. Memory and control flow of the model, for the loops of
librapid/cxxblas. -/
abbrev M (K : Type) := StateT (Mem K) Out

variable {K : Type}

/-- `p[i]` as a value, at the address `a` of `p + i`. Memory and control flow of the model, for the loops of librapid/cxxblas. -/
def load (a : Int) : M K K := fun m =>
  match m a with
  | .val v => .ok (v, m)
  | _ => .ub

/-- The memory with the cell at `a` set to `v`. Memory and control flow of the model, for the loops of librapid/cxxblas. -/
def set (m : Mem K) (a : Int) (v : K) : Mem K := fun b => if b = a then .val v else m b

/-- `p[i] = v`, at the address `a` of `p + i`. Memory and control flow of the model, for the loops of librapid/cxxblas. -/
def store (a : Int) (v : K) : M K Unit := fun m =>
  match m a with
  | .out => .ub
  | _ => .ok ((), set m a v)

/-- `for (i = 0; i < n; ++i) f(i)`. -/
def loop : Nat → (Nat → M K Unit) → M K Unit
  | 0, _ => pure ()
  | n + 1, f => do
    loop n f
    f n

/-- `for (i = n-1; i >= 0; --i) f(i)`. -/
def loopDown (n : Nat) (f : Nat → M K Unit) : M K Unit := loop n fun k => f (n - 1 - k)

/-- `for (i = a; i < b; ++i) f(i)`. Memory and control flow of the model, for the loops of librapid/cxxblas. -/
def loopFrom (a b : Nat) (f : Nat → M K Unit) : M K Unit := loop (b - a) fun k => f (a + k)

/-- A loop with a local variable: `s = s0; for (i = 0; i < n; ++i) s = f(i, s)`. -/
def fold {σ : Type} : Nat → σ → (Nat → σ → M K σ) → M K σ
  | 0, s, _ => pure s
  | n + 1, s, f => do
    let s' ← fold n s f
    f n s'

/-- typedefs.h 43. -/
inductive Order where
  | rowMajor
  | colMajor
deriving DecidableEq, Repr

/-- typedefs.h 45. -/
inductive UpLo where
  | upper
  | lower
deriving DecidableEq, Repr

/-- typedefs.h 47. -/
inductive Diag where
  | unit
  | nonUnit
deriving DecidableEq, Repr

/-- typedefs.h 49. -/
inductive Side where
  | left
  | right
deriving DecidableEq, Repr

/-- typedefs.h 51: two bits, conjugate and transpose. `Transpose(t ^ Trans)` flips the second. -/
structure Trans where
  conj : Bool
  trans : Bool
deriving DecidableEq, Repr

/-- typedefs.h 51 `NoTrans`. -/
def noTrans : Trans := ⟨false, false⟩
/-- typedefs.h 51 `Conj`. -/
def conjNoTrans : Trans := ⟨true, false⟩
/-- typedefs.h 51 `Trans`. -/
def doTrans : Trans := ⟨false, true⟩
/-- typedefs.h 51 `ConjTrans`. -/
def conjTrans : Trans := ⟨true, true⟩

/-- `Transpose(t ^ Trans)`. cxxblas/typedefs.h 54, as in cxxblas/level3/syrk.tcc 46. -/
def Trans.flip (t : Trans) : Trans := ⟨t.conj, !t.trans⟩

/-- `(upLo == Upper) ? Lower : Upper`. cxxblas/typedefs.h 48, as in cxxblas/level3/syrk.tcc 45. -/
def UpLo.flip : UpLo → UpLo
  | .upper => .lower
  | .lower => .upper

end Verif.Blas
