import Verif.Model.Utf8
import Verif.Model.Control

/-
Model of textual file ports and string ports: include/meevax/kernel/output_file_port.hpp,
include/meevax/kernel/input_file_port.hpp, src/kernel/output_file_port.cpp, src/kernel/input_file_port.cpp,
src/kernel/output_string_port.cpp, src/kernel/input_string_port.cpp, src/kernel/textual_output_port.cpp, the
procedures of src/kernel/boot.cpp L132-L133 and L313-L340, L423-L424; and of the procedures that open and
close ports around a call: `call-with-input-file`, `call-with-output-file`, `with-input-from-file`,
`with-output-to-file` (library/r4rs.ss L304-L334) and `call-with-port` (library/r7rs.ss L228-L231), on the
machine of Model/Control.

The file system has names and numbered files, so that a deleted file stays there for the ports that have it
open. An `std::ofstream` has a buffer; how much of the buffer is written when, is up to the platform. So is how
much an `std::ifstream` reads ahead into its buffer: what is in the buffer does not change when the file does.

Simplified: devices do not fail; a port that the collector destroys is closed, which here is a `close` like
another; `textual_context::paths` (include/meevax/kernel/input_file_port.hpp L36) is left out.
-/

namespace Meevax.FilePort
open Meevax.Text (Byte utf8String stringOf)

/-- The file system: names of files, contents of files, the number of files made so far
(src/kernel/boot.cpp L132-L133, L317-L318). -/
structure Disk where
  names : String → Option Nat
  data : Nat → List Byte
  count : Nat

/-- What the operating system and the standard library decide (include/meevax/kernel/output_file_port.hpp
L30-L34): which files can be opened for writing, how many bytes of a buffer are written to the file after something
was put into the buffer, how many bytes of what is left of a file are in the buffer after something was read. -/
structure Platform where
  writable : String → Bool
  spill : List Byte → Nat
  fetch : List Byte → Nat

/-- Writing bytes at an offset of a file; a hole is filled with zeros (`std::ofstream` in
include/meevax/kernel/output_file_port.hpp L30). -/
def overwrite (old : List Byte) (offset : Nat) (bytes : List Byte) : List Byte :=
  old.take offset ++ List.replicate (offset - old.length) 0 ++ bytes ++ old.drop (offset + bytes.length)

/-- A port. An open output file port has the file, how many bytes were written to it, and the buffer; an open
input file port the file, how many bytes were read from it, the buffer, `eofbit` and `failbit`
(include/meevax/kernel/output_file_port.hpp L26-L35, include/meevax/kernel/input_file_port.hpp L26-L37,
include/meevax/kernel/input_string_port.hpp L25-L31, include/meevax/kernel/output_string_port.hpp L25-L31). -/
inductive Port where
  | output (file offset : Nat) (buffer : List Byte)
  | closedOutput
  | input (file offset : Nat) (buffer : List Byte) (eof fail : Bool)
  | closedInput (eof fail : Bool)
  | inputString (stream : Text.Port)
  | outputString (bytes : List Byte)

/-- The file system and all ports ever made; a port is its number
(src/kernel/boot.cpp L313-L324). -/
structure World where
  disk : Disk
  ports : List Port

/-- Calls of procedures (src/kernel/boot.cpp L132-L133, L313-L340, L423-L424). `put` is `write-char`,
`write-string`, `newline`. -/
inductive Op where
  | openOutput (path : String)
  | openInput (path : String)
  | openInputString (text : List Nat)
  | openOutputString
  | getOutputString (port : Nat)
  | put (port : Nat) (text : List Nat)
  | flush (port : Nat)
  | close (port : Nat)
  | isOpen (port : Nat)
  | readChar (port : Nat)
  | peekChar (port : Nat)
  | fileExists (path : String)
  | deleteFile (path : String)
  deriving DecidableEq

/-- What is thrown: `std::filesystem::filesystem_error`, of which the machine makes an object of type `error`
(src/kernel/dynamic_environment.cpp L485-L489); `file_error` (src/kernel/boot.cpp L133); `read_error`; the
`error` of a cast (include/meevax/kernel/object.hpp L114-L136). -/
inductive Error where
  | system
  | file
  | read
  | type
  deriving DecidableEq

/-- What the procedures return (src/kernel/boot.cpp L132-L133, L313-L340). -/
inductive Result where
  | port (n : Nat)
  | char (c : Nat)
  | eof
  | boolean (b : Bool)
  | string (text : List Nat)
  | unspecified
  | error (e : Error)
  deriving DecidableEq

/-- `file-error?` of the object a handler gets (src/kernel/boot.cpp L129). -/
def Error.isFileError : Error → Bool
  | .file => true
  | _ => false

/-- The result of `take_character` as that of `get-char` (src/kernel/textual_input_port.cpp L125-L135). -/
def ofTake : Text.Take → Result
  | .char c => .char c
  | .eof => .eof
  | .bad => .error .read

/-- A write to a file (auxiliary to include/meevax/kernel/output_file_port.hpp L30). -/
def Disk.write (d : Disk) (file offset : Nat) (bytes : List Byte) : Disk :=
  { d with data := fun i => if i = file then overwrite (d.data file) offset bytes else d.data i }

/-- A port gets another state (auxiliary to src/kernel/boot.cpp L313-L340). -/
def World.setPort (w : World) (n : Nat) (p : Port) : World := { w with ports := w.ports.set n p }

/-- A new port (src/kernel/boot.cpp L317-L323). -/
def World.addPort (w : World) (p : Port) : Result × World :=
  (.port w.ports.length, { w with ports := w.ports ++ [p] })

/-- `open-output-file` (src/kernel/boot.cpp L318, include/meevax/kernel/output_file_port.hpp L32-L35): the file
is truncated, or made. If it cannot be opened, nothing is thrown. -/
def openOutput (pl : Platform) (path : String) (w : World) : Result × World :=
  if pl.writable path then
    match w.disk.names path with
    | some i =>
      World.addPort { w with disk := { w.disk with data := fun j => if j = i then [] else w.disk.data j } }
        (.output i 0 [])
    | none =>
      let i := w.disk.count
      World.addPort { w with disk :=
        { names := fun q => if q = path then some i else w.disk.names q
          data := fun j => if j = i then [] else w.disk.data j
          count := i + 1 } } (.output i 0 [])
  else w.addPort .closedOutput

/-- `open-input-file` (src/kernel/boot.cpp L317, include/meevax/kernel/input_file_port.hpp L32-L37): `canonical`
throws if there is no such file. -/
def openInput (path : String) (w : World) : Result × World :=
  match w.disk.names path with
  | some i => w.addPort (.input i 0 [] false false)
  | none => (.error .system, w)

/-- `textual_output_port::put` (src/kernel/textual_output_port.cpp L27-L35) on each kind of port. What is put
into a closed stream is lost. -/
def put (pl : Platform) (n : Nat) (text : List Nat) (w : World) : Result × World :=
  match w.ports[n]? with
  | some (.output file offset buffer) =>
    let buffer := buffer ++ utf8String text
    let now := buffer.take (pl.spill buffer)
    (.unspecified, World.setPort { w with disk := w.disk.write file offset now } n
      (.output file (offset + now.length) (buffer.drop (pl.spill buffer))))
  | some .closedOutput => (.unspecified, w)
  | some (.outputString bytes) => (.unspecified, w.setPort n (.outputString (bytes ++ utf8String text)))
  | _ => (.error .type, w)

/-- `textual_output_port::flush` (src/kernel/textual_output_port.cpp L22-L25). -/
def flush (n : Nat) (w : World) : Result × World :=
  match w.ports[n]? with
  | some (.output file offset buffer) =>
    (.unspecified, World.setPort { w with disk := w.disk.write file offset buffer } n
      (.output file (offset + buffer.length) []))
  | some .closedOutput => (.unspecified, w)
  | some (.outputString _) => (.unspecified, w)
  | _ => (.error .type, w)

/-- `close` (src/kernel/boot.cpp L321, src/kernel/output_file_port.cpp L21-L24, src/kernel/input_file_port.cpp
L22-L25, src/kernel/output_string_port.cpp L22-L23, src/kernel/input_string_port.cpp L22-L23):
`std::ofstream::close` writes the buffer; `std::ifstream::close` drops what was not read; string ports do not
change. -/
def close (n : Nat) (w : World) : Result × World :=
  match w.ports[n]? with
  | some (.output file offset buffer) =>
    (.unspecified, World.setPort { w with disk := w.disk.write file offset buffer } n .closedOutput)
  | some (.input _ _ _ eof fail) => (.unspecified, w.setPort n (.closedInput eof fail))
  | some _ => (.unspecified, w)
  | none => (.error .type, w)

/-- `open?` (src/kernel/boot.cpp L313, src/kernel/output_file_port.cpp L26-L29, src/kernel/input_file_port.cpp
L32-L35, src/kernel/output_string_port.cpp L25-L28, src/kernel/input_string_port.cpp L25-L28). -/
def isOpen (n : Nat) (w : World) : Result :=
  match w.ports[n]? with
  | some (.output _ _ _) => .boolean true
  | some .closedOutput => .boolean false
  | some (.input _ _ _ _ _) => .boolean true
  | some (.closedInput _ _) => .boolean false
  | some (.inputString _) => .boolean true
  | some (.outputString _) => .boolean true
  | none => .error .type

/-- What an `std::ifstream` has in front of it: its buffer, and what is in the file after what was read
(include/meevax/kernel/input_file_port.hpp L30). -/
def World.view (w : World) (file offset : Nat) (buffer : List Byte) (eof fail : Bool) : Text.Port :=
  { rest := buffer ++ (w.disk.data file).drop offset, eof := eof, fail := fail }

/-- The port, after what was in front of it has become `after`: what is left of the buffer stays in the buffer,
and the platform reads ahead (include/meevax/kernel/input_file_port.hpp L30). -/
def advance (pl : Platform) (file offset : Nat) (buffer : List Byte) (before after : Text.Port) : Port :=
  let gone := before.rest.length - after.rest.length
  let size := min after.rest.length (max (buffer.length - gone) (pl.fetch after.rest))
  .input file (offset + (gone + size - buffer.length)) (after.rest.take size) after.eof after.fail

/-- `get-char` and `peek-char` on each kind of port, with the function on streams as an argument
(src/kernel/boot.cpp L337, L340). -/
def consume (pl : Platform) (f : Text.Port → Text.Take × Text.Port) (n : Nat) (w : World) : Result × World :=
  match w.ports[n]? with
  | some (.input file offset buffer eof fail) =>
    let before := w.view file offset buffer eof fail
    (ofTake (f before).1, w.setPort n (advance pl file offset buffer before (f before).2))
  | some (.closedInput eof fail) =>
    let before : Text.Port := { rest := [], eof := eof, fail := fail }
    (ofTake (f before).1, w.setPort n (.closedInput (f before).2.eof (f before).2.fail))
  | some (.inputString stream) => (ofTake (f stream).1, w.setPort n (.inputString (f stream).2))
  | _ => (.error .type, w)

/-- `get-output-string` (src/kernel/boot.cpp L324). -/
def getOutputString (n : Nat) (w : World) : Result :=
  match w.ports[n]? with
  | some (.outputString bytes) =>
    match stringOf bytes with
    | some text => .string text
    | none => .error .read
  | _ => .error .type

/-- `delete-file` (src/kernel/boot.cpp L133): the name is removed. -/
def deleteFile (path : String) (w : World) : Result × World :=
  match w.disk.names path with
  | some _ =>
    (.unspecified, { w with disk :=
      { w.disk with names := fun q => if q = path then none else w.disk.names q } })
  | none => (.error .file, w)

/-- A call of a procedure (src/kernel/boot.cpp L132-L133, L313-L340, L423-L424). -/
def exec (pl : Platform) (w : World) : Op → Result × World
  | .openOutput path => openOutput pl path w
  | .openInput path => openInput path w
  | .openInputString text => w.addPort (.inputString { rest := utf8String text })
  | .openOutputString => w.addPort (.outputString [])
  | .getOutputString n => (getOutputString n w, w)
  | .put n text => put pl n text w
  | .flush n => flush n w
  | .close n => close n w
  | .isOpen n => (isOpen n w, w)
  | .readChar n => consume pl Text.Port.readChar n w
  | .peekChar n => consume pl Text.Port.peekChar n w
  | .fileExists path => (.boolean (w.disk.names path).isSome, w)
  | .deleteFile path => deleteFile path w

/-- A sequence of calls (auxiliary to src/kernel/boot.cpp L313-L340). -/
def execAll (pl : Platform) (w : World) : List Op → World
  | [] => w
  | op :: ops => execAll pl (exec pl w op).2 ops

/-! ### The procedures that open and close -/

/-- What the user's code does next: an action of Model/Control; a call of a procedure on ports; output to a
given port or the current one (library/r7rs.ss L316-L343); input likewise (L251-L254); or a call of one of the
procedures of library/r4rs.ss L304-L334 and library/r7rs.ss L228-L231, with the code of the procedure or thunk
it is given. -/
inductive FileAction (C W P : Type) where
  | plain (a : Control.Action C W P)
  | io (op : Op) (next : C)
  | write (target : Option Nat) (text : List Nat) (next : C)
  | read (target : Option Nat) (next : C)
  /-- `(with-output-to-file path thunk)` -/
  | withOutput (path : String) (thunk next : C)
  /-- `(with-input-from-file path thunk)` -/
  | withInput (path : String) (thunk next : C)
  /-- `(call-with-output-file path f)` -/
  | callWithOutput (path : String) (f next : C)
  /-- `(call-with-input-file path f)` -/
  | callWithInput (path : String) (f next : C)
  /-- `(call-with-port port f)` -/
  | callWithPort (port : Nat) (f next : C)

/-- The user's program (the user of library/r4rs.ss L304-L334). Values stand for one value or several
(`call-with-port` passes them on with `let-values` and `apply`). -/
structure FileProgram (C W S P : Type) where
  step : C → W → S → (P → W) → S × FileAction C W P
  convert : P → W → W
  ofCont : Nat → W
  unspecified : W
  /-- The value that stands for the result of a procedure on ports. -/
  ofResult : Result → W
  /-- The port that a value is. -/
  toPort : W → Option Nat
  /-- `current-output-port` -/
  out : P
  /-- `current-input-port` -/
  inp : P

/-- The code: the user's, and what is left to do in the procedures of the library (library/r4rs.ss L304-L334,
library/r7rs.ss L228-L231). -/
inductive FileCode (C : Type) where
  | user (c : C)
  /-- the body of `parameterize` (r4rs.ss L326-L328, L332-L334) -/
  | inside (output : Bool) (thunk : C)
  /-- `(close-output-port (current-output-port)) result` (r4rs.ss L333-L334), or the same for input
  (r4rs.ss L327-L328), given the result -/
  | closeCurrent (output : Bool)
  /-- `(close-output-port port) result` (r4rs.ss L307-L308, L314-L315; r7rs.ss L230-L231), given the result -/
  | closePort (port : Nat) (next : C)

/-- The state of the user, the world, and the calls made so far, the oldest first. The calls are not part of
the program: they record what happens (auxiliary to src/kernel/boot.cpp L313-L340). -/
structure FileState (S : Type) where
  user : S
  world : World
  calls : List Op

variable {C W S P : Type}

/-- A call of a procedure on ports (src/kernel/boot.cpp L313-L340). -/
def FileState.exec (pl : Platform) (u : FileState S) (op : Op) : Result × FileState S :=
  ((FilePort.exec pl u.world op).1,
    { u with world := (FilePort.exec pl u.world op).2, calls := u.calls ++ [op] })

/-- What is done with the result of a procedure: an exception, or the code that follows
(src/kernel/dynamic_environment.cpp L473-L489). -/
def FileProgram.proceed (pr : FileProgram C W S P) (r : Result)
    (f : W → Control.Action (FileCode C) W P) : Control.Action (FileCode C) W P :=
  match r with
  | .error e => .fault (pr.ofResult (.error e))
  | r => f (pr.ofResult r)

/-- A call of a procedure on ports, and what follows (src/kernel/dynamic_environment.cpp L473-L489). -/
def FileProgram.call (pr : FileProgram C W S P) (pl : Platform) (u : FileState S) (op : Op)
    (f : W → Control.Action (FileCode C) W P) : FileState S × Control.Action (FileCode C) W P :=
  ((u.exec pl op).2, pr.proceed (u.exec pl op).1 f)

/-- The actions of the user's code that have nothing to do with ports
(auxiliary to library/r4rs.ss L304-L334). -/
def translateAction : Control.Action C W P → Control.Action (FileCode C) W P
  | .ret w => .ret w
  | .goto c w => .goto (.user c) w
  | .call c w next => .call (.user c) w (.user next)
  | .wind before thunk after next => .wind (.user before) (.user thunk) (.user after) (.user next)
  | .parameterize bindings thunk next => .parameterize bindings (.user thunk) (.user next)
  | .assign p w next => .assign p w (.user next)
  | .handle handler thunk next => .handle (.user handler) (.user thunk) (.user next)
  | .raise w => .raise w
  | .raiseContinuable w next => .raiseContinuable w (.user next)
  | .callcc body next => .callcc (.user body) (.user next)
  | .jump k w => .jump k w
  | .fault w => .fault w
  | .exit => .exit

/-- `(if (pair? xs) (car xs) (current-output-port))` (library/r7rs.ss L317-L319) and the same for input
(L252-L254); something that is not a port is a number of no port. -/
def FileProgram.target (pr : FileProgram C W S P) (u : FileState S) (p : P) (look : P → W) :
    Option Nat → Nat
  | some n => n
  | none => (pr.toPort (look p)).getD u.world.ports.length

/-- What each piece of code does (library/r4rs.ss L304-L334, library/r7rs.ss L228-L231, L251-L343). -/
def FileProgram.perform (pr : FileProgram C W S P) (pl : Platform) :
    FileCode C → W → FileState S → (P → W) → FileState S × Control.Action (FileCode C) W P
  | .user c, v, u, look =>
    let (s, a) := pr.step c v u.user look
    let u := { u with user := s }
    match a with
    | .plain a => (u, translateAction a)
    | .io op next => pr.call pl u op fun w => .goto (.user next) w
    | .write target text next =>
      pr.call pl u (.put (pr.target u pr.out look target) text) fun w => .goto (.user next) w
    | .read target next =>
      pr.call pl u (.readChar (pr.target u pr.inp look target)) fun w => .goto (.user next) w
    -- r4rs.ss L331
    | .withOutput path thunk next =>
      pr.call pl u (.openOutput path) fun w => .parameterize [(pr.out, w)] (.inside true thunk) (.user next)
    -- r4rs.ss L325
    | .withInput path thunk next =>
      pr.call pl u (.openInput path) fun w => .parameterize [(pr.inp, w)] (.inside false thunk) (.user next)
    -- r4rs.ss L313, L316
    | .callWithOutput path f next =>
      pr.call pl u (.openOutput path) fun w =>
        .call (.user f) w (.closePort ((pr.toPort w).getD u.world.ports.length) next)
    -- r4rs.ss L306, L309
    | .callWithInput path f next =>
      pr.call pl u (.openInput path) fun w =>
        .call (.user f) w (.closePort ((pr.toPort w).getD u.world.ports.length) next)
    -- r7rs.ss L229
    | .callWithPort port f next => (u, .call (.user f) (pr.ofResult (.port port)) (.closePort port next))
  -- r4rs.ss L326, L332
  | .inside output thunk, _, u, _ => (u, .call (.user thunk) pr.unspecified (.closeCurrent output))
  -- r4rs.ss L327-L328, L333-L334
  | .closeCurrent output, v, u, look =>
    pr.call pl u (.close (pr.target u (if output then pr.out else pr.inp) look none)) fun _ => .ret v
  -- r4rs.ss L307-L308, L314-L315, r7rs.ss L230-L231
  | .closePort port next, v, u, _ => pr.call pl u (.close port) fun _ => .goto (.user next) v

/-- The program on the machine of Model/Control. The two parameters have no converter
(library/r4rs.ss L318-L322). -/
def FileProgram.translate [DecidableEq P] (pr : FileProgram C W S P) (pl : Platform) :
    Control.Program (FileCode C) W (FileState S) P where
  step := pr.perform pl
  convert p w := if p = pr.out ∨ p = pr.inp then w else pr.convert p w
  ofCont := pr.ofCont
  unspecified := pr.unspecified

end Meevax.FilePort
