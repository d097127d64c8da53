import Verif.Model.Writer

/-
Model of `display` (library/r7rs.ss L560-L565, library/r4rs.ss L371-L378) and `write-simple`
(src/kernel/textual_output_port.cpp L42-L74): the bytes that are put on the port. To which port is the
subject of Model/FilePort.
-/

namespace Meevax.Text

/-- `display` (library/r7rs.ss L560-L565; library/r4rs.ss L371-L378 says the same): a character goes to
`write-char`, which is `put-char` (r7rs.ss L317-L320, src/kernel/textual_output_port.cpp L27-L30), a string to
`write-string`, which is `put-string` (r7rs.ss L322-L328, textual_output_port.cpp L32-L35), everything else to
`write`. `none`: the object is not covered by the model of `write`. -/
def display (high : Nat → Bool) : Datum → Option (List Byte)
  | .char c => some (utf8 c)
  | .string cs => some (utf8String cs)
  | d => write high d

/-- What a procedure has put on the port, and whether it has come to its end; if not, its behaviour after
this output is undefined (textual_output_port.cpp L42-L74). -/
structure Output where
  text : List Byte
  done : Bool
  deriving Repr, DecidableEq

/-- Output, and then more of it if the behaviour is still defined (textual_output_port.cpp L42-L74). -/
def Output.andThen (o : Output) (next : Option Output) : Option Output :=
  if o.done then do
    let p ← next
    some { text := o.text ++ p.text, done := p.done }
  else some o

/-- The loop over the rest of a list (textual_output_port.cpp L50-L68) when `rest` is a number. After the last
element of a dotted list the loop is not left: its increment is `cdr(rest)`, which does not check that
`rest` is a pair (include/meevax/kernel/pair.hpp L84, include/meevax/kernel/object.hpp L114-L120). For a fixnum
this is undefined. Every object of the heap has the two fields of a pair, which in large integers and ratios
are empty (pair.hpp L29-L31): the loop ends and closes the list once more. In complex numbers they are the two
parts (include/meevax/kernel/complex.hpp L26): the loop goes on with the imaginary part. -/
def simpleNumber : Num → Option Output
  | .int n => do
    let s ← writeNum (.int n)
    some <| if -2 ^ 31 ≤ n ∧ n < 2 ^ 31 then { text := ascii " . " ++ s ++ [41], done := false }
      else { text := ascii " . " ++ s ++ [41, 41], done := true }
  | .ratio n d => do
    let s ← writeNum (.ratio n d)
    some { text := ascii " . " ++ s ++ [41, 41], done := true }
  | .rectangular x y => do
    let s ← writeNum (.rectangular x y)
    Output.andThen { text := ascii " . " ++ s ++ [41], done := true } (simpleNumber y)
  | _ => none

mutual

/-- `textual_output_port::write_simple` (textual_output_port.cpp L42-L74). -/
def writeSimple (high : Nat → Bool) : Datum → Option Output
  | .cons a d => do
    let o ← writeSimple high a
    Output.andThen { text := [40] ++ o.text, done := o.done } (simpleTail high d)
  | d => do
    let s ← write high d
    some { text := s, done := true }

/-- The loop over the rest of a list (textual_output_port.cpp L50-L68), see `simpleNumber`: `cdr(rest)` is
undefined for booleans and characters, which are not objects of the heap, and empty for strings, symbols
and vectors. -/
def simpleTail (high : Nat → Bool) : Datum → Option Output
  | .null => some { text := [41], done := true }
  | .cons a d => do
    let o ← writeSimple high a
    Output.andThen { text := [32] ++ o.text, done := o.done } (simpleTail high d)
  | .num n => simpleNumber n
  | .bool b => do
    let s ← write high (.bool b)
    some { text := ascii " . " ++ s ++ [41], done := false }
  | .char c => do
    let s ← write high (.char c)
    some { text := ascii " . " ++ s ++ [41], done := false }
  | d => do
    let s ← write high d
    some { text := ascii " . " ++ s ++ [41, 41], done := true }

end

end Meevax.Text
