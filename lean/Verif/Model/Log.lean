import Mathlib.Data.Nat.Digits.Defs
import Mathlib.Analysis.SpecialFunctions.Log.Basic

/-!
# Diagnostics

Models `/repo/librapid/include/librapid/core/log.hpp`: what failed assertions, errors, warnings and status messages print and throw.
Texts are lists of characters. `fmt` is modelled as far as it is used: `{}`, `{{`, `}}` in messages, and the alignments `>` and `-^` with a
dynamic width. Colours are left out, the arguments of a message are given as the texts they print as, every character takes one column, lengths are
below 2^31 - 14 (so that no `int` overflows), and the logarithm is exact.
-/

namespace Verif.LogM

/-- A text. For core/log.hpp 1-151; the formatting is that of fmt. -/
abbrev Text := List Char

/-- `fmt::vformat(message, args)`; `none` is `fmt::format_error`. For core/log.hpp 1-151; the formatting is that of fmt. -/
def vformat : Text → List Text → Option Text
  | [], _ => some []
  | '{' :: '{' :: r, a => (vformat r a).map ('{' :: ·)
  | '}' :: '}' :: r, a => (vformat r a).map ('}' :: ·)
  | '{' :: '}' :: r, x :: a => (vformat r a).map (x ++ ·)
  | c :: r, a => if c = '{' ∨ c = '}' then none else (vformat r a).map (c :: ·)

/-- `{:>w}`. For core/log.hpp 1-151; the formatting is that of fmt. -/
def right (w : Int) (s : Text) : Text := List.replicate (w - s.length).toNat ' ' ++ s

/-- `{:-^w}`. For core/log.hpp 1-151; the formatting is that of fmt. -/
def centre (w : Int) (s : Text) : Text :=
  List.replicate ((w - s.length).toNat / 2) '-' ++ s ++ List.replicate ((w - s.length).toNat - (w - s.length).toNat / 2) '-'

/-- `{}` of an unsigned number. For core/log.hpp 1-151; the formatting is that of fmt. -/
def decimal (n : Nat) : Text := if n = 0 then ['0'] else (Nat.digits 10 n).reverse.map fun d => Char.ofNat (48 + d)

/-- log.hpp 12-15, 67-70. -/
def truncate (s : Text) : Text := if s.length > 70 then s.take 67 ++ ['.', '.', '.'] else s

/-- `(int) std::ceil(std::log(line))`. For core/log.hpp 1-151; the formatting is that of fmt. -/
noncomputable def logLine (line : Nat) : Int := ⌈Real.log line⌉

/-- core/preMain.hpp 17-26 `internalMax`. -/
def internalMax (v : Int) : List Int → Int
  | [] => v
  | w :: ws => let o := internalMax w ws; if v < o then o else v

/-- A line `[text]`. For core/log.hpp 1-151; the formatting is that of fmt. -/
def boxed (s : Text) : Text := '[' :: (s ++ [']'])

/-- Where a message comes from. For core/log.hpp 1-151; the formatting is that of fmt. -/
structure Place where
  line : Nat
  signature : Text
  file : Text

/-- What a call does: the lines it prints, and how it ends. For core/log.hpp 1-151; the formatting is that of fmt. -/
inductive Ends where
  | returns
  | throws (what : Text)
  | formatError
deriving DecidableEq

/-- log.hpp 17-21. -/
noncomputable def assertWidth (p : Place) (cond : Text) : Int :=
  internalMax (logLine p.line) [p.file.length, cond.length, (truncate p.signature).length, "ASSERTION FAILED".toList.length]

/-- log.hpp 43-57. -/
noncomputable def assertLines (p : Place) (cond msg : Text) : List Text :=
  let n := assertWidth p cond
  [boxed (centre (n + 14) "ASSERTION FAILED".toList), boxed ("File ".toList ++ right (n + 9) p.file),
   boxed ("Function ".toList ++ right (n + 5) (truncate p.signature)), boxed ("Line ".toList ++ right (n + 9) (decimal p.line)),
   boxed ("Condition ".toList ++ right (n + 4) cond), msg]

/-- `librapidAssert`, log.hpp 4-62; the type of the exception is the one asked for. -/
noncomputable def assert (print condition : Bool) (message : Text) (p : Place) (cond : Text) (args : List Text) : List Text × Ends :=
  if condition then ([], .returns)
  else match vformat message args with
    | none => ([], .formatError)
    | some msg => (if print then assertLines p cond msg else [], .throws msg)

/-- log.hpp 72-75. -/
noncomputable def statusWidth (p : Place) (kind : Text) : Int :=
  internalMax (logLine p.line + 6) [p.file.length + 6, (truncate p.signature).length + 6, kind.length]

/-- log.hpp 79-91. -/
noncomputable def statusLines (p : Place) (kind msg : Text) : List Text :=
  let n := statusWidth p kind
  [boxed (centre (n + 5) "STATUS".toList), boxed ("File ".toList ++ right n p.file),
   boxed ("Function ".toList ++ right (n - 4) (truncate p.signature)), boxed ("Line ".toList ++ right n (decimal p.line)), msg]

/-- `librapidStatusGeneric`, log.hpp 64-92. -/
noncomputable def generic (message : Text) (p : Place) (kind : Text) (args : List Text) : List Text × Ends :=
  match vformat message args with
  | none => ([], .formatError)
  | some msg => (statusLines p kind msg, .returns)

/-- `librapidStatus`, log.hpp 94-104. -/
noncomputable def status (message : Text) (p : Place) (args : List Text) : List Text × Ends := generic message p "STATUS".toList args

/-- `librapidWarn`, log.hpp 106-116. -/
noncomputable def warn (message : Text) (p : Place) (args : List Text) : List Text × Ends := generic message p "WARNING".toList args

/-- `librapidError`, log.hpp 118-129. -/
noncomputable def error (message : Text) (p : Place) (args : List Text) : List Text × Ends :=
  match generic message p "ERROR".toList args with
  | (out, .returns) => (out, .throws message)
  | r => r

end Verif.LogM
