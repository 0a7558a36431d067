import Verif.Model.GpuKernels

/-!
# Element-wise kernels and the evaluation of expressions on a GPU

`/repo/librapid/include/librapid/opencl/kernels/{arithmetic,negate,abs,floorCeilRound,expLogPow,trigonometry,activations}.cl`, the corresponding
`cuda/kernels/*.cu`, opencl/openclKernelProcessor.hpp 24-47, cuda/cudaKernelProcesor.hpp 22-45 and array/assignOps.hpp 280-547.

Both backends use one in-order queue (stream), so launches follow one another.
-/

namespace Verif.Gpu

/-- A buffer and an index in it. For the kernels and launches of array/assignOps.hpp 280-547. -/
abbrev Cell := Nat × Nat

variable {V : Type}

/-- Arguments of a kernel: a buffer, or a scalar passed by value. For the kernels and launches of array/assignOps.hpp 280-547. -/
inductive Arg (V : Type) where
  | buf (b : Nat)
  | scalar (v : V)

/-- What one work item computes from the elements at its own index. A kernel may read an argument more than once (abs.cl,
activations.cl). For the kernels and launches of array/assignOps.hpp 280-547. -/
inductive Body (V : Type) where
  | done (v : V)
  | fetch (a : Arg V) (k : V → Body V)

/-- Run a body for the element `i` and store the result. For the kernels and launches of array/assignOps.hpp 280-547. -/
def Body.prog (dst i : Nat) : Body V → Prog Cell V
  | .done v => .write (dst, i) v .ret
  | .fetch (.buf b) k => .read (b, i) fun v => (k v).prog dst i
  | .fetch (.scalar v) k => (k v).prog dst i

/-- The two backends. On CUDA an element may be a packet of several scalars (assignOps.hpp 480-510); see `packets` below. -/
inductive Backend where
  | opencl
  | cuda

/-- arithmetic.cl 2-19 and the others: `int gid = get_global_id(0)` must be representable. arithmetic.cu 4-8 and the others:
`blockDim.x * blockIdx.x + threadIdx.x` is computed in `unsigned int`, although it is stored as `size_t`; threads beyond the last element do nothing. -/
def elementKernel (be : Backend) (n dst : Nat) (body : Body V) (idx : Nat) : Prog Cell V :=
  match be with
  | .opencl => within (2 ^ 31) idx (body.prog dst idx)
  | .cuda => if idx % 2 ^ 32 < n then body.prog dst (idx % 2 ^ 32) else .ret

/-- The number of elements a kernel can address. For the kernels and launches of array/assignOps.hpp 280-547. -/
def Backend.limit : Backend → Nat
  | .opencl => 2 ^ 31
  | .cuda => 2 ^ 32

/-- openclKernelProcessor.hpp 36: one work item per element. cudaKernelProcesor.hpp 29-37: one block of `n` threads, or blocks of 512. The quotient is
computed there in double, which is exact below 2^53. -/
def workItems (be : Backend) (n : Nat) : Nat :=
  match be with
  | .opencl => n
  | .cuda => if n < 512 then n else (n + 511) / 512 * 512

/-- arithmetic.cl 1-19: `dst[gid] = lhs[gid] OP rhs[gid]`, where either side may be a scalar. -/
def binBody (op : V → V → V) (l r : Arg V) : Body V := .fetch l fun x => .fetch r fun y => .done (op x y)

/-- negate.cl 1-5, floorCeilRound.cl 1-11, expLogPow.cl 1-5 and 13-17, trigonometry.cl 1-11, activations.cl 2-6 -/
def unBody (op : V → V) (a : Arg V) : Body V := .fetch a fun x => .done (op x)

/-- abs.cl 1-5: the element is read again for the result. -/
def absBody (nonneg : V → Bool) (neg : V → V) (a : Arg V) : Body V :=
  .fetch a fun x => if nonneg x then .fetch a .done else .fetch a fun y => .done (neg y)

/-- activations.cl 8-12: `data[gid] * (1 - data[gid])` -/
def twiceBody (op : V → V → V) (a : Arg V) : Body V := .fetch a fun x => .fetch a fun y => .done (op x y)

/-! ### Kernels on dual numbers -/

/-- A buffer, an index and a component (`false`: value, `true`: derivative). For the kernels and launches of array/assignOps.hpp 280-547. -/
abbrev DCell := Nat × Nat × Bool

/-- A dual number argument. For the kernels and launches of array/assignOps.hpp 280-547. -/
inductive DArg (V : Type) where
  | buf (b : Nat)
  | scalar (v d : V)

/-- Read one component. For the kernels and launches of array/assignOps.hpp 280-547. -/
def DArg.fetch (a : DArg V) (i : Nat) (c : Bool) (k : V → Prog DCell V) : Prog DCell V :=
  match a with
  | .buf b => .read (b, i, c) k
  | .scalar v d => k (if c then d else v)

/-- arithmetic.cl 47-146: first the value is computed and stored, then the derivative. For sums and differences `fd` does not use the values. -/
def dualKernel (fv : V → V → V) (fd : V → V → V → V → V) (dst : Nat) (l r : DArg V) (i : Nat) : Prog DCell V :=
  within (2 ^ 31) i <| l.fetch i false fun lv => r.fetch i false fun rv => .write (dst, i, false) (fv lv rv) <|
    l.fetch i true fun ld => r.fetch i false fun rv => l.fetch i false fun lv => r.fetch i true fun rd => .write (dst, i, true) (fd lv ld rv rd) .ret

/-! ### Expressions -/

/-- Value of an argument, given the elements of the buffers. For the kernels and launches of array/assignOps.hpp 280-547. -/
def Arg.val (m : Nat → V) : Arg V → V
  | .buf b => m b
  | .scalar v => v

/-- Value of a body, given the elements of the buffers. For the kernels and launches of array/assignOps.hpp 280-547. -/
def Body.eval (m : Nat → V) : Body V → V
  | .done v => v
  | .fetch a k => (k (a.val m)).eval m

/-- Whether a body may read a buffer. For the kernels and launches of array/assignOps.hpp 280-547. -/
def Body.Reads (b : Nat) : Body V → Prop
  | .done _ => False
  | .fetch a k => a = .buf b ∨ ∃ v, (k v).Reads b

/-- The number of reads of a body is bounded. For the kernels and launches of array/assignOps.hpp 280-547. -/
def Body.AtMost : Nat → Body V → Prop
  | _, .done _ => True
  | 0, .fetch _ _ => False
  | n + 1, .fetch _ k => ∀ v, (k v).AtMost n

/-- A kernel with one argument, and the function it computes. For the kernels and launches of array/assignOps.hpp 280-547. -/
structure UnKernel (V : Type) where
  body : Arg V → Body V
  op : V → V
  ok : ∀ m a, (body a).eval m = op (a.val m)
  reads : ∀ a b, (body a).Reads b → a = .buf b
  len : Nat
  atMost : ∀ a, (body a).AtMost len

/-- A kernel with two arguments. For the kernels and launches of array/assignOps.hpp 280-547. -/
structure BinKernel (V : Type) where
  body : Arg V → Arg V → Body V
  op : V → V → V
  ok : ∀ m a b, (body a b).eval m = op (a.val m) (b.val m)
  reads : ∀ l r b, (body l r).Reads b → l = .buf b ∨ r = .buf b
  len : Nat
  atMost : ∀ l r, (body l r).AtMost len

/-- Every binary kernel of arithmetic.cl and arithmetic.cu, for its operator. For the kernels and launches of array/assignOps.hpp
280-547. -/
def binKernel (op : V → V → V) : BinKernel V where
  body := binBody op
  op := op
  ok _ _ _ := rfl
  reads l r b h := by
    rcases h with h | ⟨_, h | ⟨_, h⟩⟩
    · exact .inl h
    · exact .inr h
    · exact h.elim
  len := 2
  atMost _ _ _ _ := trivial

/-- The kernels applying one function to each element. For the kernels and launches of array/assignOps.hpp 280-547. -/
def unKernel (op : V → V) : UnKernel V where
  body := unBody op
  op := op
  ok _ _ := rfl
  reads a b h := by
    rcases h with h | ⟨_, h⟩
    · exact h
    · exact h.elim
  len := 1
  atMost _ _ := trivial

/-- abs.cl. For the kernels and launches of array/assignOps.hpp 280-547. -/
def absKernel (nonneg : V → Bool) (neg : V → V) : UnKernel V where
  body := absBody nonneg neg
  op x := if nonneg x then x else neg x
  ok m a := by
    simp only [absBody, Body.eval]
    split <;> rfl
  reads a b h := by
    rcases h with h | ⟨v, h⟩
    · exact h
    · cases hv : nonneg v
      · simp only [hv] at h
        rcases h with h | ⟨_, h⟩
        · exact h
        · exact h.elim
      · simp only [hv, if_true] at h
        rcases h with h | ⟨_, h⟩
        · exact h
        · exact h.elim
  len := 2
  atMost a v := by
    show Body.AtMost 1 (if nonneg v then Body.fetch a Body.done else Body.fetch a fun y => Body.done (neg y))
    split <;> exact fun _ => trivial

/-- Expressions (detail::Function) over arrays of the device and scalars. For the kernels and launches of array/assignOps.hpp 280-547. -/
inductive GExpr (V : Type) where
  | arr (b : Nat)
  | scalar (v : V)
  | un (k : UnKernel V) (e : GExpr V)
  | bin (k : BinKernel V) (l r : GExpr V)

/-- A launch: any complete execution; `none` if it went wrong. How the work items are grouped makes no difference. For the kernels and
launches of array/assignOps.hpp 280-547. -/
inductive Launch (be : Backend) (n dst : Nat) (body : Body V) (M : Mem Cell V) : Option (Mem Cell V) → Prop
  | ok {grp : Fin (workItems be n) → Nat} {s c} (hs : Steps grp ⟨fun t => elementKernel be n dst body t, M⟩ s c) (hst : Stuck grp c) (hd : Done c) :
    Launch be n dst body M (some c.mem)
  | wrong {grp : Fin (workItems be n) → Nat} {s c} (hs : Steps grp ⟨fun t => elementKernel be n dst body t, M⟩ s c) (hst : Stuck grp c) (hd : ¬ Done c) :
    Launch be n dst body M none

/-- A new buffer of `n` elements whose contents are not initialised. For the kernels and launches of array/assignOps.hpp 280-547. -/
def Fresh (n t : Nat) (M M' : Mem Cell V) : Prop :=
  (∀ i, M (t, i) = none) ∧ (∀ b i, b ≠ t → M' (b, i) = M (b, i)) ∧ ∀ i, i < n → M' (t, i) ≠ none

mutual
/-- assignOps.hpp 291-316, 372-391: arrays and scalars are passed as they are, a function is evaluated into a temporary array. -/
inductive EvalArg (be : Backend) (n : Nat) : GExpr V → Mem Cell V → Option (Arg V × Mem Cell V) → Prop
  | arr {b M} : EvalArg be n (.arr b) M (some (.buf b, M))
  | scalar {v M} : EvalArg be n (.scalar v) M (some (.scalar v, M))
  | fn {e t M M₁ M₂} (hf : Fresh n t M M₁) (ha : Assign be n t e M₁ (some M₂)) : EvalArg be n e M (some (.buf t, M₂))
  | fnWrong {e t M M₁} (hf : Fresh n t M M₁) (ha : Assign be n t e M₁ none) : EvalArg be n e M none

/-- assignOps.hpp 318-351, 481-545: the arguments are evaluated in an order that is not specified, then the kernel runs. -/
inductive Assign (be : Backend) (n : Nat) : Nat → GExpr V → Mem Cell V → Option (Mem Cell V) → Prop
  | un {dst k e M a M₁ r} (he : EvalArg be n e M (some (a, M₁))) (hl : Launch be n dst (k.body a) M₁ r) : Assign be n dst (.un k e) M r
  | unWrong {dst k e M} (he : EvalArg be n e M none) : Assign be n dst (.un k e) M none
  | binLR {dst k l r M a b M₁ M₂ o} (hl : EvalArg be n l M (some (a, M₁))) (hr : EvalArg be n r M₁ (some (b, M₂))) (hk : Launch be n dst (k.body a b) M₂ o) :
    Assign be n dst (.bin k l r) M o
  | binRL {dst k l r M a b M₁ M₂ o} (hr : EvalArg be n r M (some (b, M₁))) (hl : EvalArg be n l M₁ (some (a, M₂))) (hk : Launch be n dst (k.body a b) M₂ o) :
    Assign be n dst (.bin k l r) M o
  | binWrongL {dst k l r M} (h : EvalArg be n l M none) : Assign be n dst (.bin k l r) M none
  | binWrongR {dst k l r M} (h : EvalArg be n r M none) : Assign be n dst (.bin k l r) M none
  | binWrongLR {dst k l r M a M₁} (hl : EvalArg be n l M (some (a, M₁))) (hr : EvalArg be n r M₁ none) : Assign be n dst (.bin k l r) M none
  | binWrongRL {dst k l r M b M₁} (hr : EvalArg be n r M (some (b, M₁))) (hl : EvalArg be n l M₁ none) : Assign be n dst (.bin k l r) M none
end

/-! ### Packets -/

/-- assignOps.hpp 506-507: number of packets of `w` elements. -/
def packets (n w : Nat) : Nat := (n + (w - 1)) / w

/-- cudaStorage.hpp 249-251: allocated elements. -/
def cudaAllocated (n : Nat) : Nat := if n = 0 then 0 else (n + 31) / 32 * 32

/-! ### Which kernels exist -/

/-- The functors of array/operations.hpp 270-594. -/
inductive Functor where
  | plus | minus | multiply | divide | lessThan | greaterThan | lessThanEqual | greaterThanEqual | elementWiseEqual | elementWiseNotEqual | neg | sin | cos | tan | asin | acos | atan | sinh | cosh | tanh | asinh | acosh | atanh | exp | exp2 | exp10 | log | log2 | log10 | sqrt | cbrt | abs | floor | ceil
  deriving DecidableEq

/-- `TypeInfo<Functor>::filename`. For the kernels and launches of array/assignOps.hpp 280-547. -/
def Functor.file : Functor → String
  | .plus | .minus | .multiply | .divide | .lessThan | .greaterThan | .lessThanEqual | .greaterThanEqual | .elementWiseEqual | .elementWiseNotEqual => "arithmetic"
  | .neg => "negate"
  | .sin | .cos | .tan | .asin | .acos | .atan | .sinh | .cosh | .tanh | .asinh | .acosh | .atanh => "trigonometry"
  | .exp | .exp2 | .exp10 | .log | .log2 | .log10 | .sqrt | .cbrt => "expLogPow"
  | .abs => "abs"
  | .floor | .ceil => "floorCeilRound"

/-- `TypeInfo<Functor>::kernelName` without the suffix `Arrays`. Binary functors also have the names with `ScalarRhs` and `ScalarLhs`
(operations.hpp 40-60), which are always defined together with the plain one. -/
def Functor.kernel : Functor → String
  | .plus => "add"
  | .minus => "sub"
  | .multiply => "mul"
  | .divide => "div"
  | .lessThan => "lessThan"
  | .greaterThan => "greaterThan"
  | .lessThanEqual => "lessThanEqual"
  | .greaterThanEqual => "greaterThanEqual"
  | .elementWiseEqual => "elementWiseEqual"
  | .elementWiseNotEqual => "elementWiseNotEqual"
  | .neg => "negate"
  | .sin => "sin"
  | .cos => "cos"
  | .tan => "tan"
  | .asin => "asin"
  | .acos => "acos"
  | .atan => "atan"
  | .sinh => "sinh"
  | .cosh => "cosh"
  | .tanh => "tanh"
  | .asinh => "asinh"
  | .acosh => "acosh"
  | .atanh => "atanh"
  | .exp => "exp"
  | .exp2 => "exp2"
  | .exp10 => "exp10"
  | .log => "log"
  | .log2 => "log2"
  | .log10 => "log10"
  | .sqrt => "sqrt"
  | .cbrt => "cbrt"
  | .abs => "abs"
  | .floor => "floor"
  | .ceil => "ceil"

/-- The names the macros of arithmetic.cl 32-42, negate.cl 7-16, trigonometry.cl 26-37, expLogPow.cl 31-36, abs.cl 20 and floorCeilRound.cl 25-26 are used with. All the files form one program. -/
def clKernels : List String :=
  ["add", "sub", "mul", "div", "lessThan", "lessThanEqual", "greaterThan", "greaterThanEqual", "elementWiseEqual", "elementWiseNotEqual", "negate",
    "sin", "cos", "tan", "asin", "acos", "atan", "sinh", "cosh", "tanh", "asinh", "acosh", "atanh", "exp", "log", "log2", "log10", "sqrt", "cbrt",
    "floor", "ceil", "abs"]

/-- The kernels in the files of cuda/kernels; each file is a program of its own. For the kernels and launches of array/assignOps.hpp
280-547. -/
def cuKernels : String → List String
  | "arithmetic" => ["add", "sub", "mul", "div", "lessThan", "lessThanEqual", "greaterThan", "greaterThanEqual", "elementWiseEqual", "elementWiseNotEqual"]
  | "negate" => ["negate"]
  | "trigonometry" => ["sin", "cos", "tan", "asin", "acos", "atan", "sinh", "cosh", "tanh"]
  | "expLogPow" => ["exp", "log", "log2", "log10", "sqrt", "cbrt", "abs", "floor", "ceil"]
  | "abs" => ["abs"]
  | "floorCeilRound" => ["floor", "ceil"]
  | _ => []

/-- Whether the kernel asked for by a functor exists. For the kernels and launches of array/assignOps.hpp 280-547. -/
def hasKernel (be : Backend) (f : Functor) : Bool :=
  match be with
  | .opencl => decide (f.kernel ∈ clKernels)
  | .cuda => decide (f.kernel ∈ cuKernels f.file)

/-- openclKernelProcessor.hpp 31-45: without `CL_HPP_ENABLE_EXCEPTIONS` (defined nowhere) neither the constructor of `cl::Kernel` nor `setArg` reports that
a kernel is missing; only the assertion looks at the error. `launch` is the effect of the kernel. -/
def runLinearKernel {σ : Type} (asserts : Bool) (f : Functor) (launch : σ → σ) (s : σ) : Option σ :=
  if hasKernel .opencl f then some (launch s) else if asserts then none else some s

end Verif.Gpu
