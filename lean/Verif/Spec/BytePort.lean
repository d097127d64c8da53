import Verif.Model.BytePort

/-
What R7RS 6.13 says about binary ports. Of the model, only the names of the operations and their results are
used.
-/

namespace Meevax.Byte
open Meevax.Number

/-- R7RS 6.13.2: the result of an operation on a port with the given bytes left, and the bytes left then.
-/
inductive Reads : List Nat → Op → Result → List Nat → Prop
  | readU8 (b bs) : Reads (b :: bs) .readU8 (.integer b) bs
  | readU8End : Reads [] .readU8 .eof []
  | peekU8 (b bs) : Reads (b :: bs) .peekU8 (.integer b) (b :: bs)
  | peekU8End : Reads [] .peekU8 .eof []
  /-- "The next k bytes, or as many as are available before the end of file". -/
  | readBytes (k got rest) : got.length = k → Reads (got ++ rest) (.readBytes k) (.bytes got) rest
  | readBytesShort (k got) : got ≠ [] → got.length < k → Reads got (.readBytes k) (.bytes got) []
  /-- "If an end of file is reached before any byte is read". -/
  | readBytesEnd (k) : 0 < k → Reads [] (.readBytes k) .eof []
  /-- "If the port is at end of file then u8-ready? returns #t". -/
  | ready (bs) : Reads bs .ready (.boolean true) bs

/-- A sequence of operations. -/
inductive ReadsAll : List Nat → List Op → List Result → List Nat → Prop
  | nil (bs) : ReadsAll bs [] [] bs
  | cons {bs op r bs' ops rs bs''} : Reads bs op r bs' → ReadsAll bs' ops rs bs'' →
      ReadsAll bs (op :: ops) (r :: rs) bs''

/-- The bytes that a call takes off the port. -/
def taken : Op → Result → List Nat
  | .readU8, .integer i => [i.toNat]
  | .readBytes _, .bytes bs => bs
  | _, _ => []

/-- The exact integer `b` in either representation. -/
def IsByte (b : Nat) (x : Num) : Prop := b < 256 ∧ (x = .small b ∨ x = .large b)

/-- The bytes that a call is to write. -/
inductive Writes : Put → List Nat → Prop
  | u8 {b x} : IsByte b x → Writes (.u8 x) [b]
  | bytes (bs) : Writes (.bytes bs) bs

end Meevax.Byte
