import Verif.Basic

/-!
# Text of a multi-precision float

`/repo/librapid/src/multiprecToString.cpp` 8-31. `mpf::get_str` itself is GMP's: it delivers a string of digits, preceded by `-`
for a negative value, and an exponent; a zero gives no digit and exponent 0. Strings are lists of characters.
`mp_exp_t` is unbounded.
-/

namespace Verif.Mpf

/-- `str(const mpf &, int64_t, int)`, from the results `res` and `exp` of `get_str` (lines 13-30). -/
def str (res : List Char) (exp : Int) : List Char :=
  let sign := res.head? == some '-'
  let res := if sign then res.drop 1 else res
  let res :=
    if 0 < exp then
      let e := exp.toNat
      let res := if res.length ≤ e then res ++ List.replicate (e - res.length + 1) '0' else res
      res.take e ++ ['.'] ++ res.drop e
    else
      let tmp := List.replicate (-exp + 1).toNat '0' ++ res
      tmp.take 1 ++ ['.'] ++ tmp.drop 1
  if sign then '-' :: res else res

end Verif.Mpf
