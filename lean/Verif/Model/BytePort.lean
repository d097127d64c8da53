import Verif.Model.Sequence

/-
Binary ports: include/meevax/kernel/input_homogeneous_vector_port.hpp, output_homogeneous_vector_port.hpp,
src/kernel/binary_input_file_port.cpp, src/kernel/binary_output_file_port.cpp, the procedures of boot.cpp
L325-L346 and L425-L426, and `read-bytevector!` of library/r7rs.ss. A byte is a number below 256.

Not modelled: failing devices, files changed while they are open, the buffering of the streams.
-/

namespace Meevax.Byte
open Meevax.Number Meevax.Seq

/-- What the procedures return: an exact integer, a fresh bytevector, an eof object, a boolean
(src/kernel/boot.cpp L343-L346). -/
inductive Result where
  | integer (i : Int)
  | bytes (bs : List Nat)
  | eof
  | boolean (b : Bool)
  deriving DecidableEq

/-- `read-u8`, `peek-u8`, `read-bytevector`, `u8-ready?` (library/r7rs.ss L277-L296, boot.cpp L343-L346). -/
inductive Op where
  | readU8
  | peekU8
  | readBytes (k : Nat)
  | ready

/-! ### Bytevector ports -/

/-- `input_u8vector_port::get` (input_homogeneous_vector_port.hpp L41-L53); the argument is `deque`. -/
def get : List Nat → Result × List Nat
  | [] => (.eof, [])
  | b :: deque => (.integer b, deque)

/-- `input_u8vector_port::get(size)` (input_homogeneous_vector_port.hpp L55-L68). -/
def getBytes (size : Nat) (deque : List Nat) : Result × List Nat :=
  if deque.length < size then (.eof, deque) else (.bytes (deque.take size), deque.drop size)

/-- `input_u8vector_port::peek` (input_homogeneous_vector_port.hpp L80-L90). -/
def peek : List Nat → Result × List Nat
  | [] => (.eof, [])
  | b :: deque => (.integer b, b :: deque)

/-- `input_u8vector_port::get_ready` (input_homogeneous_vector_port.hpp L70-L73). -/
def getReady (deque : List Nat) : Result × List Nat := (.boolean !deque.isEmpty, deque)

/-- The virtual functions of `binary_input_port` (include/meevax/kernel/binary_input_port.hpp L28-L34). -/
def step : Op → List Nat → Result × List Nat
  | .readU8 => get
  | .peekU8 => peek
  | .readBytes k => getBytes k
  | .ready => getReady

/-- A sequence of calls (auxiliary to src/kernel/boot.cpp L343-L346). -/
def run : List Op → List Nat → List Result × List Nat
  | [], deque => ([], deque)
  | op :: ops, deque =>
    let (r, deque) := step op deque
    let (rs, deque) := run ops deque
    (r :: rs, deque)

/-- `open-input-bytevector` (boot.cpp L325): a copy. -/
def openInput (bytes : List Nat) : List Nat := bytes

/-- `exact_integer_cast<std::uint8_t>` (number.hpp L341-L359, large_integer.hpp, ratio.hpp): the conversion
of a `double` that does not fit is undefined. -/
def u8Cast : Num → Outcome Nat
  | .small i => .value (i % 2 ^ 8).toNat
  | .large z => .value (z.natAbs % 2 ^ 8)
  | .ratio q => do
    let k ← sizeCast (.ratio q)
    if k < 2 ^ 8 then .value k else .undefined

/-- `write-u8`, `write-bytevector` of a whole bytevector (library/r7rs.ss L329-L341). -/
inductive Put where
  | u8 (x : Num)
  | bytes (bs : List Nat)

/-- `put-u8`, `put-u8vector` on an `output_u8vector_port` (boot.cpp L425-L426,
output_homogeneous_vector_port.hpp L43-L51); the argument is `vector`. -/
def put (vector : List Nat) : Put → Outcome (List Nat)
  | .u8 x => do .value (vector ++ [← u8Cast x])
  | .bytes bs => .value (vector ++ bs)

/-- A sequence of calls (auxiliary to src/kernel/boot.cpp L425-L426). -/
def putAll (vector : List Nat) : List Put → Outcome (List Nat)
  | [] => .value vector
  | p :: ps => do putAll (← put vector p) ps

/-- `open-output-bytevector` (boot.cpp L326). -/
def openOutput : List Nat := []

/-- `get-output-bytevector` (boot.cpp L327): a copy; the port keeps its contents. -/
def getOutput (vector : List Nat) : List Nat := vector

/-- What `read-bytevector!` returns (library/r7rs.ss L298). -/
inductive Into where
  | eof
  /-- `bytevector-copy!` returns an unspecified value (boot.cpp L411). -/
  | unspecified
  deriving DecidableEq

/-- `read-bytevector!` with all of its arguments (library/r7rs.ss L298-L314), on the bytevector `a`. -/
def readInto (σ : Store Nat) (a : Nat) (start stop : Nat) (deque : List Nat) :
    Outcome (Into × Store Nat × List Nat) :=
  match getBytes (stop - start) deque with
  | (.bytes bs, deque) => do
    let (v, σ) := allocate σ bs
    .value (.unspecified, ← u8vectorCopyInto σ a (.large start) v [], deque)
  | (_, deque) => .value (.eof, σ, deque)

/-! ### Binary files -/

/-- An `std::ifstream` in a binary input file port: the bytes that have not been read, `eofbit`, `failbit`
(include/meevax/kernel/binary_input_file_port.hpp). -/
structure InFile where
  rest : List Nat
  eof : Bool := false
  fail : Bool := false

/-- `std::istream::read` of `size` bytes: the bytes stored (`gcount`), and the stream. A stream that is not
`good` gives no byte and gets `failbit` (the sentry) (src/kernel/binary_input_file_port.cpp L35, L47). -/
def InFile.read (f : InFile) (size : Nat) : List Nat × InFile :=
  if f.eof || f.fail then ([], { f with fail := true })
  else if f.rest.length < size then (f.rest, { rest := [], eof := true, fail := true })
  else (f.rest.take size, { f with rest := f.rest.drop size })

/-- `std::istream::peek`: -1 and `eofbit` at the end; -1 and `failbit` if the stream is not `good`
(src/kernel/binary_input_file_port.cpp L67). -/
def InFile.peekByte (f : InFile) : Int × InFile :=
  if f.eof || f.fail then (-1, { f with fail := true })
  else match f.rest with
    | [] => (-1, { f with eof := true })
    | b :: _ => (b, f)

/-- `binary_input_file_port::get` (binary_input_file_port.cpp L33-L43). -/
def InFile.get (f : InFile) : Result × InFile :=
  match f.read 1 with
  | (bs, f) => match f.fail, bs with
    | false, b :: _ => (.integer b, f)
    | _, _ => (.eof, f)

/-- `binary_input_file_port::get(size)` (binary_input_file_port.cpp L45-L56). -/
def InFile.getBytes (size : Nat) (f : InFile) : Result × InFile :=
  match f.read size with
  | (bs, f) => (.bytes bs, f)

/-- `binary_input_file_port::get_ready` (binary_input_file_port.cpp L58-L61). -/
def InFile.ready (f : InFile) : Bool := !f.fail

/-- `binary_input_file_port::peek` (binary_input_file_port.cpp L63-L73). -/
def InFile.peek (f : InFile) : Result × InFile :=
  if f.ready then
    match f.peekByte with
    | (i, f) => (.integer i, f)
  else (.eof, f)

/-- The virtual functions of `binary_input_port` (include/meevax/kernel/binary_input_port.hpp L28-L34). -/
def InFile.step : Op → InFile → Result × InFile
  | .readU8, f => f.get
  | .peekU8, f => f.peek
  | .readBytes k, f => f.getBytes k
  | .ready, f => (.boolean f.ready, f)

/-- A sequence of calls (auxiliary to src/kernel/boot.cpp L343-L346). -/
def InFile.run : List Op → InFile → List Result × InFile
  | [], f => ([], f)
  | op :: ops, f =>
    let (r, f) := f.step op
    let (rs, f) := run ops f
    (r :: rs, f)

/-- `open-binary-input-file` of a file with the given bytes (boot.cpp L319, binary_input_file_port.hpp
L33-L36). -/
def openFile (bytes : List Nat) : InFile := { rest := bytes }

/-- The loop of `binary_output_file_port::put` (binary_output_file_port.cpp L41-L47). -/
def writeLoop (file : List Nat) : List Nat → List Nat
  | [] => file
  | b :: bs => writeLoop (file ++ [b]) bs

/-- `put-u8`, `put-u8vector` on a binary output file port (boot.cpp L425-L426, binary_output_file_port.cpp
L36-L47); the argument is the contents of the file, once it is closed or flushed. -/
def filePut (file : List Nat) : Put → Outcome (List Nat)
  | .u8 x => do .value (file ++ [← u8Cast x])
  | .bytes bs => .value (writeLoop file bs)

/-- A sequence of calls (auxiliary to src/kernel/boot.cpp L325-L346). -/
def filePutAll (file : List Nat) : List Put → Outcome (List Nat)
  | [] => .value file
  | p :: ps => do filePutAll (← filePut file p) ps

/-- `open-binary-output-file` (boot.cpp L320, binary_output_file_port.hpp L33-L36): `std::ofstream` truncates
the file. -/
def openOutputFile (_old : List Nat) : List Nat := []

end Meevax.Byte
