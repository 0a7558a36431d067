import Verif.Model.Blas2
import Verif.Model.Blas2Band

/-!
# Model of the generic level-3 routines of cxxblas (librapid/cxxblas/level3, level3extensions) and of the scaling of matrices they
start from (level1extensions/gescal.tcc, syscal.tcc, hescal.tcc)

As in `Model/Blas2.lean`. The recursion of `xxx_generic` for column-major order is written as a case distinction.
-/

namespace Verif.Blas

variable {K : Type}

/-- `(sideA == Left) ? Right : Left`. cxxblas/typedefs.h 46-54, as used in cxxblas/level3. -/
def Side.flip : Side → Side
  | .left => .right
  | .right => .left

/-- level1extensions/gescal.tcc 45-52, 61-68: after the exchange of `m` and `n`, with `scal_init` or `scal` as `sc`. -/
def gescalRow (sc : Nat → Int → Int → M K Unit) (m n : Nat) (A ldA : Int) : M K Unit :=
  if ldA = n then sc (m * n) A 1 else loop m fun i => sc n (A + i * ldA) 1

/-- level1extensions/gescal.tcc 41-53 `gescal_init`. -/
def gescalInit [Mul K] [Zero K] [DecidableEq K] (o : Order) (m n : Nat) (alpha : K) (A ldA : Int) : M K Unit :=
  match o with
  | .colMajor => gescalRow (fun n => scalInit n alpha) n m A ldA
  | .rowMajor => gescalRow (fun n => scalInit n alpha) m n A ldA

/-- level1extensions/gescal.tcc 56-69 `gescal`. -/
def gescal [Mul K] (o : Order) (m n : Nat) (alpha : K) (A ldA : Int) : M K Unit :=
  match o with
  | .colMajor => gescalRow (fun n => scal n alpha) n m A ldA
  | .rowMajor => gescalRow (fun n => scal n alpha) m n A ldA

/-- level1extensions/syscal.tcc 48-54, 66-74, hescal.tcc 48-54: the rows of the triangle, with `scal_init` or `scal` as `sc`. -/
def triScal (sc : Nat → Int → Int → M K Unit) (u : UpLo) (n : Nat) (A ldA : Int) : M K Unit :=
  match u with
  | .upper => loop n fun i => sc (n - i) (A + i * (ldA + 1)) 1
  | .lower => loop n fun i => sc (i + 1) (A + i * ldA) 1

/-- level1extensions/syscal.tcc 41-56 `syscal`. -/
def syscal [Mul K] [One K] [DecidableEq K] (o : Order) (u : UpLo) (n : Nat) (alpha : K) (A ldA : Int) : M K Unit :=
  if alpha = 1 then pure () else triScal (fun n => scal n alpha) (effUpLo o u) n A ldA

/-- level1extensions/syscal.tcc 59-76 `syscal_init`. -/
def syscalInit [Mul K] [One K] [Zero K] [DecidableEq K] (o : Order) (u : UpLo) (n : Nat) (alpha : K) (A ldA : Int) : M K Unit :=
  if alpha = 1 then pure () else triScal (fun n => scalInit n alpha) (effUpLo o u) n A ldA

/-- level1extensions/hescal.tcc 41-57 `hescal`. -/
def hescal [Mul K] [One K] [DecidableEq K] (re : K → K) (o : Order) (u : UpLo) (n : Nat) (alpha : K) (A ldA : Int) : M K Unit :=
  if alpha = 1 then pure ()
  else do
    triScal (fun n => scal n alpha) (effUpLo o u) n A ldA
    loop n fun i => do
      let a ← load (A + i * (ldA + 1))
      store (A + i * (ldA + 1)) (re a)

/-- level3/gemm.tcc 57-227: the arguments `transA` and `conjX` of the call of `gemv`, by the bits of `transA` and `transB`, as
they are written in the sixteen cases. The parallel version (267-455) has the same calls. -/
def gemmCase (tA tB : Trans) : Trans × Bool :=
  match tA, tB with
  | ⟨false, false⟩, ⟨false, false⟩ => (noTrans, false)
  | ⟨false, false⟩, ⟨true, false⟩ => (noTrans, true)
  | ⟨false, false⟩, ⟨false, true⟩ => (noTrans, false)
  | ⟨false, false⟩, ⟨true, true⟩ => (noTrans, true)
  | ⟨true, false⟩, ⟨false, false⟩ => (noTrans, false)
  | ⟨true, false⟩, ⟨true, false⟩ => (conjNoTrans, true)
  | ⟨true, false⟩, ⟨false, true⟩ => (conjNoTrans, false)
  | ⟨true, false⟩, ⟨true, true⟩ => (conjNoTrans, true)
  | ⟨false, true⟩, ⟨false, false⟩ => (doTrans, false)
  | ⟨false, true⟩, ⟨true, false⟩ => (doTrans, true)
  | ⟨false, true⟩, ⟨false, true⟩ => (doTrans, false)
  | ⟨false, true⟩, ⟨true, true⟩ => (doTrans, true)
  | ⟨true, true⟩, ⟨false, false⟩ => (conjTrans, false)
  | ⟨true, true⟩, ⟨true, false⟩ => (conjTrans, false)
  | ⟨true, true⟩, ⟨false, true⟩ => (conjTrans, false)
  | ⟨true, true⟩, ⟨true, true⟩ => (conjTrans, true)

/-- level3/gemm.tcc 57-227: column `l` of `C`; the column or the row `l` of `B`. -/
def gemmPass [Mul K] [Add K] [Zero K] [One K] [Star K] [DecidableEq K] (tA tB : Trans) (m k : Nat) (alpha : K)
    (A ldA B ldB C ldC : Int) (l : Nat) : M K Unit :=
  let t := (gemmCase tA tB).1
  let cX := (gemmCase tA tB).2
  match tA.trans, tB.trans with
  | false, false => gemv .rowMajor t cX m k alpha A ldA (B + l) ldB 1 (C + l) ldC
  | false, true => gemv .rowMajor t cX m k alpha A ldA (B + l * ldB) 1 1 (C + l) ldC
  | true, false => gemv .rowMajor t cX k m alpha A ldA (B + l) ldB 1 (C + l) ldC
  | true, true => gemv .rowMajor t cX k m alpha A ldA (B + l * ldB) 1 1 (C + l) ldC

/-- level3/gemm.tcc 55-228: row-major. -/
def gemmRow [Mul K] [Add K] [Zero K] [One K] [Star K] [DecidableEq K] (tA tB : Trans) (m n k : Nat) (alpha : K)
    (A ldA B ldB : Int) (beta : K) (C ldC : Int) : M K Unit := do
  gescalInit .rowMajor m n beta C ldC
  if alpha = 0 then pure () else loop n (gemmPass tA tB m k alpha A ldA B ldB C ldC)

/-- level3/gemm.tcc 42-228 `gemm_generic`, called by `gemm` 464-488 (the loops of the parallel version run in one thread). -/
def gemm [Mul K] [Add K] [Zero K] [One K] [Star K] [DecidableEq K] (o : Order) (tA tB : Trans) (m n k : Nat) (alpha : K)
    (A ldA B ldB : Int) (beta : K) (C ldC : Int) : M K Unit :=
  if m = 0 ∨ n = 0 then pure ()
  else
    match o with
    | .colMajor => gemmRow tB tA n m k alpha B ldB A ldA beta C ldC
    | .rowMajor => gemmRow tA tB m n k alpha A ldA B ldB beta C ldC

/-- level3/symm.tcc 51-75: row-major. -/
def symmRow [Mul K] [Add K] [Zero K] [One K] [DecidableEq K] (s : Side) (u : UpLo) (m n : Nat) (alpha : K)
    (A ldA B ldB : Int) (beta : K) (C ldC : Int) : M K Unit := do
  gescalInit .rowMajor m n beta C ldC
  match s with
  | .right => loop m fun i => symv .rowMajor u n alpha A ldA (B + i * ldB) 1 1 (C + i * ldC) 1
  | .left => loop n fun j => symv .rowMajor u m alpha A ldA (B + j) ldB 1 (C + j) ldC

/-- level3/symm.tcc 42-86 `symm`. -/
def symm [Mul K] [Add K] [Zero K] [One K] [DecidableEq K] (o : Order) (s : Side) (u : UpLo) (m n : Nat) (alpha : K)
    (A ldA B ldB : Int) (beta : K) (C ldC : Int) : M K Unit :=
  match o with
  | .colMajor => symmRow s.flip u.flip n m alpha A ldA B ldB beta C ldC
  | .rowMajor => symmRow s u m n alpha A ldA B ldB beta C ldC

/-- level3/hemm.tcc 51-73: row-major. -/
def hemmRow [Mul K] [Add K] [Zero K] [One K] [Star K] [DecidableEq K] (re : K → K) (s : Side) (u : UpLo) (m n : Nat) (alpha : K)
    (A ldA B ldB : Int) (beta : K) (C ldC : Int) : M K Unit := do
  gescalInit .rowMajor m n beta C ldC
  match s with
  | .right => loop m fun i => hemv re .rowMajor u true n alpha A ldA (B + i * ldB) 1 1 (C + i * ldC) 1
  | .left => loop n fun j => hemv re .rowMajor u false m alpha A ldA (B + j) ldB 1 (C + j) ldC

/-- level3/hemm.tcc 42-84 `hemm`. -/
def hemm [Mul K] [Add K] [Zero K] [One K] [Star K] [DecidableEq K] (re : K → K) (o : Order) (s : Side) (u : UpLo) (m n : Nat)
    (alpha : K) (A ldA B ldB : Int) (beta : K) (C ldC : Int) : M K Unit :=
  match o with
  | .colMajor => hemmRow re s.flip u.flip n m alpha A ldA B ldB beta C ldC
  | .rowMajor => hemmRow re s u m n alpha A ldA B ldB beta C ldC

/-- level3/syrk.tcc 50-68: row-major; the conjugation bit is ignored. -/
def syrkRow [Mul K] [Add K] [Zero K] [One K] [DecidableEq K] (u : UpLo) (t : Trans) (n k : Nat) (alpha : K) (A ldA : Int)
    (beta : K) (C ldC : Int) : M K Unit := do
  syscalInit .rowMajor u n beta C ldC
  match t.trans with
  | false => loop k fun l => syr .rowMajor u n alpha (A + l) ldA C ldC
  | true => loop k fun l => syr .rowMajor u n alpha (A + l * ldA) 1 C ldC

/-- level3/syrk.tcc 41-78 `syrk`. -/
def syrk [Mul K] [Add K] [Zero K] [One K] [DecidableEq K] (o : Order) (u : UpLo) (t : Trans) (n k : Nat) (alpha : K) (A ldA : Int)
    (beta : K) (C ldC : Int) : M K Unit :=
  match o with
  | .colMajor => syrkRow u.flip t.flip n k alpha A ldA beta C ldC
  | .rowMajor => syrkRow u t n k alpha A ldA beta C ldC

/-- level3/syr2k.tcc 51-91: row-major; the conjugation bit is ignored. -/
def syr2kRow [Mul K] [Add K] [Zero K] [One K] [DecidableEq K] (u : UpLo) (t : Trans) (n k : Nat) (alpha : K)
    (A ldA B ldB : Int) (beta : K) (C ldC : Int) : M K Unit := do
  syscalInit .rowMajor u n beta C ldC
  match t.trans with
  | false => loop k fun l => syr2 .rowMajor u n alpha (A + l) ldA (B + l) ldB C ldC
  | true => loop k fun l => syr2 .rowMajor u n alpha (A + l * ldA) 1 (B + l * ldB) 1 C ldC

/-- level3/syr2k.tcc 41-102 `syr2k`. -/
def syr2k [Mul K] [Add K] [Zero K] [One K] [DecidableEq K] (o : Order) (u : UpLo) (t : Trans) (n k : Nat) (alpha : K)
    (A ldA B ldB : Int) (beta : K) (C ldC : Int) : M K Unit :=
  match o with
  | .colMajor => syr2kRow u.flip t.flip n k alpha A ldA B ldB beta C ldC
  | .rowMajor => syr2kRow u t n k alpha A ldA B ldB beta C ldC

/-- A failed assertion. cxxblas/typedefs.h 46-54, as used in cxxblas/level3. -/
def assertFail : M K Unit := fun _ => .throw .assertion

/-- `Transpose(t ^ ConjTrans)`. cxxblas/typedefs.h 46-54, as used in cxxblas/level3. -/
def Trans.flipConj (t : Trans) : Trans := ⟨!t.conj, !t.trans⟩

/-- level3/herk.tcc 50-66: row-major. -/
def herkRow [Mul K] [Add K] [Zero K] [One K] [Star K] [DecidableEq K] (re : K → K) (u : UpLo) (t : Trans) (n k : Nat) (alpha : K)
    (A ldA : Int) (beta : K) (C ldC : Int) : M K Unit :=
  if n = 0 ∨ (alpha = 0 ∨ k = 0) ∧ beta = 1 then pure ()
  else do
    hescal re .rowMajor u n beta C ldC
    if alpha = 0 then pure ()
    else
      match t with
      | ⟨false, false⟩ => loop k fun l => her re .rowMajor u false n alpha (A + l) ldA C ldC
      | ⟨true, true⟩ => loop k fun l => her re .rowMajor u true n alpha (A + l * ldA) 1 C ldC
      | _ => assertFail

/-- level3/herk.tcc 41-76 `herk`. -/
def herk [Mul K] [Add K] [Zero K] [One K] [Star K] [DecidableEq K] (re : K → K) (o : Order) (u : UpLo) (t : Trans) (n k : Nat)
    (alpha : K) (A ldA : Int) (beta : K) (C ldC : Int) : M K Unit :=
  match o with
  | .colMajor => herkRow re u.flip t.flipConj n k alpha A ldA beta C ldC
  | .rowMajor => herkRow re u t n k alpha A ldA beta C ldC

/-- level3/her2k.tcc 52-78: row-major. -/
def her2kRow [Mul K] [Add K] [Zero K] [One K] [Star K] [DecidableEq K] (re : K → K) (u : UpLo) (t : Trans) (n k : Nat) (alpha : K)
    (A ldA B ldB : Int) (beta : K) (C ldC : Int) : M K Unit :=
  if n = 0 ∨ (alpha = 0 ∨ k = 0) ∧ beta = 1 then pure ()
  else do
    hescal re .rowMajor u n beta C ldC
    if alpha = 0 then pure ()
    else
      match t with
      | ⟨false, false⟩ => loop k fun l => her2 re .rowMajor u false n alpha (A + l) ldA (B + l) ldB C ldC
      | ⟨true, true⟩ => loop k fun l => her2 re .rowMajor u true n (star alpha) (A + l * ldA) 1 (B + l * ldB) 1 C ldC
      | _ => assertFail

/-- level3/her2k.tcc 41-90 `her2k`. -/
def her2k [Mul K] [Add K] [Zero K] [One K] [Star K] [DecidableEq K] (re : K → K) (o : Order) (u : UpLo) (t : Trans) (n k : Nat)
    (alpha : K) (A ldA B ldB : Int) (beta : K) (C ldC : Int) : M K Unit :=
  match o with
  | .colMajor => her2kRow re u.flip t.flipConj n k (star alpha) A ldA B ldB beta C ldC
  | .rowMajor => her2kRow re u t n k alpha A ldA B ldB beta C ldC

/-- level3/trmm.tcc 50-62: row-major. -/
def trmmRow [Mul K] [Add K] [Zero K] [Star K] [DecidableEq K] (s : Side) (u : UpLo) (t : Trans) (d : Diag) (m n : Nat) (alpha : K)
    (A ldA B ldB : Int) : M K Unit := do
  match s with
  | .right => loop m fun i => trmv .rowMajor u t.flip d n A ldA (B + i * ldB) 1
  | .left => loop n fun j => trmv .rowMajor u t d m A ldA (B + j) ldB
  gescalInit .rowMajor m n alpha B ldB

/-- level3/trmm.tcc 41-73 `trmm`. -/
def trmm [Mul K] [Add K] [Zero K] [Star K] [DecidableEq K] (o : Order) (s : Side) (u : UpLo) (t : Trans) (d : Diag) (m n : Nat)
    (alpha : K) (A ldA B ldB : Int) : M K Unit :=
  match o with
  | .colMajor => trmmRow s.flip u.flip t d n m alpha A ldA B ldB
  | .rowMajor => trmmRow s u t d m n alpha A ldA B ldB

/-- level3/trsm.tcc 50-62: row-major. -/
def trsmRow [Mul K] [Add K] [Sub K] [Div K] [Zero K] [Star K] (s : Side) (u : UpLo) (t : Trans) (d : Diag) (m n : Nat) (alpha : K)
    (A ldA B ldB : Int) : M K Unit := do
  match s with
  | .right => loop m fun i => trsv .rowMajor u t.flip d n A ldA (B + i * ldB) 1
  | .left => loop n fun j => trsv .rowMajor u t d m A ldA (B + j) ldB
  gescal .rowMajor m n alpha B ldB

/-- level3/trsm.tcc 41-73 `trsm`. -/
def trsm [Mul K] [Add K] [Sub K] [Div K] [Zero K] [Star K] (o : Order) (s : Side) (u : UpLo) (t : Trans) (d : Diag) (m n : Nat)
    (alpha : K) (A ldA B ldB : Int) : M K Unit :=
  match o with
  | .colMajor => trsmRow s.flip u.flip t d n m alpha A ldA B ldB
  | .rowMajor => trsmRow s u t d m n alpha A ldA B ldB

/-- level3extensions/sbmm.tcc 41-91 `sbmm`. -/
def sbmm [Mul K] [Add K] [Zero K] [Star K] [DecidableEq K] (o : Order) (s : Side) (u : UpLo) (m k l : Nat) (alpha : K)
    (A ldA B ldB : Int) (beta : K) (C ldC : Int) : M K Unit :=
  match o, s with
  | .rowMajor, .left => loop l fun i => sbmv .rowMajor u m k alpha A ldA (B + i) ldB beta (C + i) ldC
  | .rowMajor, .right => loop m fun i => sbmv .colMajor u.flip l k alpha A ldA (B + i * ldB) 1 beta (C + i * ldC) 1
  | .colMajor, .left => loop l fun i => sbmv .colMajor u m k alpha A ldA (B + i * ldB) 1 beta (C + i * ldC) 1
  | .colMajor, .right => loop m fun i => sbmv .rowMajor u.flip l k alpha A ldA (B + i) ldB beta (C + i) ldC

/-- level3extensions/hbmm.tcc 41-91 `hbmm`. -/
def hbmm [Mul K] [Add K] [Zero K] [Star K] [DecidableEq K] (re : K → K) (o : Order) (s : Side) (u : UpLo) (m k l : Nat) (alpha : K)
    (A ldA B ldB : Int) (beta : K) (C ldC : Int) : M K Unit :=
  match o, s with
  | .rowMajor, .left => loop l fun i => hbmv re .rowMajor u m k alpha A ldA (B + i) ldB beta (C + i) ldC
  | .rowMajor, .right => loop m fun i => hbmv re .colMajor u.flip l k alpha A ldA (B + i * ldB) 1 beta (C + i * ldC) 1
  | .colMajor, .left => loop l fun i => hbmv re .colMajor u m k alpha A ldA (B + i * ldB) 1 beta (C + i * ldC) 1
  | .colMajor, .right => loop m fun i => hbmv re .rowMajor u.flip l k alpha A ldA (B + i) ldB beta (C + i) ldC

/-- level3extensions/tbmm.tcc 41-71 `tbmm`. -/
def tbmm [Mul K] [Add K] [Zero K] [Star K] (o : Order) (s : Side) (u : UpLo) (t : Trans) (d : Diag) (m n k : Nat) (alpha : K)
    (A ldA B ldB : Int) : M K Unit :=
  match o, s with
  | .rowMajor, .left => loop n fun i => do
    tbmv .rowMajor u t d m k A ldA (B + i) ldB
    scal m alpha (B + i) ldB
  | .rowMajor, .right => loop m fun i => do
    tbmv .rowMajor u t.flip d n k A ldA (B + i * ldB) 1
    scal n alpha (B + i * ldB) ldB
  | .colMajor, .left => loop n fun i => do
    tbmv .colMajor u t d m k A ldA (B + i * ldB) 1
    scal m alpha (B + i * ldB) ldB
  | .colMajor, .right => loop m fun i => do
    tbmv .colMajor u t.flip d n k A ldA (B + i) ldB
    scal n alpha (B + i) ldB

/-- level3extensions/gbmm.tcc 41-341 `gbmm`: the sixteen loops; `conjX` is the conjugation bit of `transB`. -/
def gbmm [Mul K] [Add K] [Zero K] [Star K] [DecidableEq K] (o : Order) (s : Side) (tA tB : Trans) (m n kl ku l : Nat) (alpha : K)
    (A ldA B ldB : Int) (beta : K) (C ldC : Int) : M K Unit :=
  match o, s, tB.trans with
  | .rowMajor, .left, false => loop l fun i =>
    gbmv .rowMajor tA tB.conj m n kl ku alpha A ldA (B + i) ldB beta (C + i) ldC
  | .rowMajor, .left, true => loop l fun i =>
    gbmv .rowMajor tA tB.conj m n kl ku alpha A ldA (B + i * ldB) 1 beta (C + i) ldC
  | .rowMajor, .right, false => loop m fun i =>
    gbmv .rowMajor tA.flip tB.conj n l kl ku alpha A ldA (B + i * ldB) 1 beta (C + i * ldC) 1
  | .rowMajor, .right, true => loop n fun i =>
    gbmv .rowMajor tA.flip tB.conj m l kl ku alpha A ldA (B + i) ldB beta (C + i * ldC) 1
  | .colMajor, .left, false => loop l fun i =>
    gbmv .rowMajor tA.flip tB.conj n m ku kl alpha A ldA (B + i * ldB) 1 beta (C + i * ldC) 1
  | .colMajor, .left, true => loop l fun i =>
    gbmv .rowMajor tA.flip tB.conj n m ku kl alpha A ldA (B + i) ldB beta (C + i * ldC) 1
  | .colMajor, .right, false => loop m fun i =>
    gbmv .rowMajor tA tB.conj l n ku kl alpha A ldA (B + i) ldB beta (C + i) ldC
  | .colMajor, .right, true => loop n fun i =>
    gbmv .rowMajor tA tB.conj l m ku kl alpha A ldA (B + i * ldB) 1 beta (C + i) ldC

end Verif.Blas
