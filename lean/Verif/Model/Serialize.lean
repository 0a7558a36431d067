import Verif.Basic

/-!
# Serialisation of plain objects

`/repo/librapid/include/librapid/utils/serialize.hpp`. Bytes are `UInt8`; an object of type `T` is its `sizeof(T)` bytes.
A `size_t` is its eight bytes in memory, so that byte order does not matter: two are equal when their bytes are.
-/

namespace Verif.Ser

/-- A sequence of bytes. Bytes, streams and files of the C++ library, for utils/serialize.hpp 8-101. -/
abbrev Bytes := List UInt8

/-- A trivially copyable type: its size, and the bytes of `std::hash(typeName<T>())` (serialize.hpp 20-24). -/
structure Ty where
  size : Nat
  tag : Bytes
  tag_len : tag.length = 8

/-- `memcpy(dst.data() + off, src, src.size())`: undefined when it does not fit. Bytes, streams and files of the C++ library, for
utils/serialize.hpp 8-101. -/
def copyInto (dst : Bytes) (off : Nat) (src : Bytes) : Out Bytes :=
  if off + src.length ≤ dst.length then .ok (dst.take off ++ src ++ dst.drop (off + src.length)) else .ub

/-- `memcpy(&x, src.data() + off, n)`: undefined when `src` has not so many bytes. Bytes, streams and files of the C++ library, for
utils/serialize.hpp 8-101. -/
def copyFrom (src : Bytes) (off n : Nat) : Out Bytes :=
  if off + n ≤ src.length then .ok ((src.drop off).take n) else .ub

/-- `SerializerImpl<T>::serialize`, serialize.hpp 26-33. -/
def serialize (T : Ty) (obj : Bytes) : Out Bytes := do
  let data := List.replicate (T.size + 8) 0
  let data ← copyInto data T.size T.tag
  copyInto data 0 obj

/-- `SerializerImpl<T>::deserialize`, serialize.hpp 35-45. -/
def deserialize (asserts : Bool) (T : Ty) (data : Bytes) : Out Bytes := do
  let hashed ← copyFrom data T.size 8
  Out.assert asserts (T.tag == hashed)
  copyFrom data 0 T.size

/-! ### Files

A file is the sequence of bytes on the disk. Opened without `std::ios::binary` on Windows, `\n` is written as `\r\n` and
read back as `\n`; elsewhere bytes are bytes. -/

/-- `pat` occurs in `s`. Bytes, streams and files of the C++ library, for utils/serialize.hpp 8-101. -/
def occurs (pat : List Char) : List Char → Bool
  | [] => pat.isPrefixOf []
  | c :: s => pat.isPrefixOf (c :: s) || occurs pat s

/-- `fileBinMode`, serialize.hpp 8-14: binary when `.bin` occurs anywhere in the path. -/
def binMode (path : List Char) : Bool := occurs ".bin".toList path

/-- What a text stream does to the bytes written, for utils/serialize.hpp 69-96. -/
def toText : Bytes → Bytes
  | [] => []
  | b :: s => if b = 10 then 13 :: 10 :: toText s else b :: toText s

/-- What a text stream does to the bytes read, for utils/serialize.hpp 69-96. -/
def fromText : Bytes → Bytes
  | [] => []
  | [b] => [b]
  | a :: b :: s => if a = 13 ∧ b = 10 then 10 :: fromText s else a :: fromText (b :: s)

/-- Where the program runs: the newline translation, the size of the stream's buffer (`basic_filebuf`), and the number of
bytes the device accepts before it is full. Bytes, streams and files of the C++ library, for utils/serialize.hpp 8-101. -/
structure Env where
  windows : Bool
  buffer : Nat
  room : Nat

/-- `Serializer::write(path)`, serialize.hpp 69-80, after the file was opened (and emptied): the returned flag is taken
before `close()`, so it does not see an error in writing out bytes that were still in the buffer.
The file keeps the bytes that found room. -/
def write (env : Env) (path : List Char) (data : Bytes) : Bool × Bytes :=
  let out := if env.windows && !binMode path then toText data else data
  (decide (out.length < env.buffer ∨ out.length ≤ env.room), out.take env.room)

/-- `std::vector::resize`. Bytes, streams and files of the C++ library, for utils/serialize.hpp 8-101. -/
def resize (v : Bytes) (n : Nat) : Bytes := v.take n ++ List.replicate (n - v.length) 0

/-- A file as `read` finds it; the mode of opening, `in | out`, needs both permissions (`fileBinMode` includes `out`). Bytes, streams and
files of the C++ library, for utils/serialize.hpp 8-101. -/
structure File where
  bytes : Bytes
  writable : Bool

/-- `Serializer::read(path)`, serialize.hpp 82-96: flag and the new contents of `m_data`.
A file that cannot be opened makes `tellg` return -1. `tellg` counts the bytes on the disk; fewer may arrive. -/
def read (env : Env) (path : List Char) (file : Option File) (old : Bytes) : Bool × Bytes :=
  match file with
  | none => (false, old)
  | some f =>
    if f.writable then
      let seen := if env.windows && !binMode path then fromText f.bytes else f.bytes
      let n := f.bytes.length
      let buf := resize old n
      (decide (n ≤ seen.length), seen.take n ++ buf.drop (seen.take n).length)
    else (false, old)

end Verif.Ser
