import Verif.Model.Writer

/-
Programs as texts: the loop of `environment::load` (src/kernel/environment.cpp L187-L201) with the iterator
over the data of a port (src/kernel/textual_input_port.cpp L30-L76), the loop of the REPL (src/main.cpp
L56-L66), and the exit status (src/main.cpp L70-L93). What evaluating a datum does is a parameter.
-/

namespace Meevax.Program

open Meevax.Text (Datum Outcome Port read)

/-- What is thrown, as far as `catch` clauses tell it apart (src/main.cpp L62, L78, L82 and L87,
src/kernel/dynamic_environment.cpp L461, L473 and L485): an `error`, which includes `read_error`
(include/meevax/kernel/error.hpp L62); an `int`, by `emergency-exit`; another `std::exception`; or anything
else, which nobody catches. -/
inductive Thrown (ε : Type) where
  | error (e : ε)
  | exit (status : Int)
  | exception (e : ε)
  | foreign

/-- The rest of the system: `environment::evaluate` (src/kernel/environment.cpp L29-L69) on a state, which
includes all output; `none` if it does not end. `readError` is the `read_error` that the reader throws
(src/kernel/textual_input_port.cpp L617; simplified: they are all the same). `what` is the text of an error
(src/kernel/error.cpp L50-L75); `none`: making it throws, and the process exits. -/
structure Host (σ V ε : Type) where
  evaluate : Datum → σ → Option (Except (Thrown ε) V × σ)
  readError : ε
  what : ε → Option (List UInt8)

variable {σ V ε : Type}

/-- `read()` (src/kernel/textual_input_port.cpp L199-L618) with what it throws. The exceptions for `)` and
`.` (L572, L604) are no `std::exception`. `none`: it does not end, or it is outside the model of the
reader. -/
def readDatum (H : Host σ V ε) (p : Port) : Option (Except (Thrown ε) Datum × Port) :=
  match read 0 p with
  | some (.datum d, p) => some (.ok d, p)
  | some (.close, p) => some (.error .foreign, p)
  | some (.dot, p) => some (.error .foreign, p)
  | some (.error, p) => some (.error (.error H.readError), p)
  | some (.beyond, _) => none
  | none => none

/-- `environment::load` of a file that could be opened (src/kernel/environment.cpp L189-L195): `begin()` and
`++` read a datum (src/kernel/textual_input_port.cpp L35-L58, L110-L123), and the loop ends when it is the
end-of-file object (L30-L33, L67-L71). -/
def load (H : Host σ V ε) (p : Port) (s : σ) : Option (Except (Thrown ε) Unit × σ) :=
  match readDatum H p with
  | none => none
  | some (.error t, _) => some (.error t, s)
  | some (.ok d, p) =>
    match d with
    | .eof => some (.ok (), s)
    | d =>
      match H.evaluate d s with
      | none => none
      | some (.error t, s) => some (.error t, s)
      | some (.ok _, s) => load H p s
partial_fixpoint

/-- Whether an object is a pointer to the heap, as the conversion to `bool` asks
(include/meevax/memory/nan_boxing_pointer.hpp L124-L127; exact integers of 32 bits are not on the heap). -/
def onHeap : Datum → Bool
  | .null | .bool _ | .char _ => false
  | .num (.int n) => decide (n < -2147483648 ∨ 2147483647 < n)
  | _ => true

/-- `error::what` (src/kernel/error.cpp L50-L75) for an error whose parts are data: `none` if the message is no
string, as `as<string>()` throws then (include/meevax/kernel/object.hpp L114-L136). -/
def what (high : Nat → Bool) (message irritants : Datum) : Option (List UInt8) :=
  match message with
  | .string cs =>
    if onHeap irritants then do
      let text ← Text.write high irritants
      some (cs.flatMap Text.utf8 ++ [58, 32] ++ text)
    else some (cs.flatMap Text.utf8)
  | _ => none

/-- What the REPL prints for one round: a value, or the text of an error (src/main.cpp L60, L64,
src/kernel/error.cpp L45-L48). -/
inductive Event (V : Type) where
  | printed (v : V)
  | reported (text : List UInt8)

/-- The REPL between two rounds (src/main.cpp L56-L66). -/
structure Session (σ V ε : Type) where
  port : Port
  state : σ
  log : List (Event V) := []

/-- The REPL goes on, or has ended (src/main.cpp L56-L66). -/
inductive Progress (σ V ε : Type) where
  | running (session : Session σ V ε)
  | ended (result : Except (Thrown ε) Unit) (session : Session σ V ε)

/-- `error::report` in the REPL (src/main.cpp L62-L65, src/kernel/error.cpp L45-L75): if there is no text, the
process exits with the status 1. -/
def report (H : Host σ V ε) (e : ε) (s : Session σ V ε) : Progress σ V ε :=
  match H.what e with
  | some text => .running { s with log := s.log ++ [.reported text] }
  | none => .ended (.error (.exit 1)) s

/-- One round of the REPL (src/main.cpp L56-L66): nothing more if the stream is at the end
(src/kernel/textual_input_port.cpp L105-L108); errors of the reader and of the evaluation are reported. -/
def round (H : Host σ V ε) (s : Session σ V ε) : Option (Progress σ V ε) :=
  if s.port.eof then some (.ended (.ok ()) s)
  else
    match readDatum H s.port with
    | none => none
    | some (.error (.error e), p) => some (report H e { s with port := p })
    | some (.error t, p) => some (.ended (.error t) { s with port := p })
    | some (.ok d, p) =>
      match H.evaluate d s.state with
      | none => none
      | some (.error (.error e), s') => some (report H e { s with port := p, state := s' })
      | some (.error t, s') => some (.ended (.error t) { s with port := p, state := s' })
      | some (.ok v, s') => some (.running { port := p, state := s', log := s.log ++ [.printed v] })

/-- So many rounds, or fewer if it ends (src/main.cpp L56-L66). -/
def rounds (H : Host σ V ε) : Nat → Session σ V ε → Option (Progress σ V ε)
  | 0, s => some (.running s)
  | n + 1, s =>
    match round H s with
    | some (.running s) => rounds H n s
    | r => r

/-- The exit status of the process (src/main.cpp L70-L93); `none` is `std::terminate`, for an exception that
no clause catches. -/
def status : Except (Thrown ε) Unit → Option Int
  | .ok () => some 0
  | .error (.exit n) => some n
  | .error (.error _) => some 1
  | .error (.exception _) => some 1
  | .error .foreign => none

end Meevax.Program
