/-!
Model of SRFI 78, lightweight testing (library/srfi-78.ss; `check-ec` is commented out there).

An expression of the user is a computation on the state of the library, the text on the current output port
and a world of its own; it returns a value or raises. What a raise does further is up to the program: here a
computation that raises keeps the state it has reached, so that a program that handles the error can go on.

Simplified: what `write` and `display` print for an object is a token of the text (C22, C68); the output port
does not change between two outputs of one check.
-/

namespace Meevax.Check

/-- What is put on the output port: the text of `display` of a string, the text of `display` of a number,
the text of `write` of an object, and a line break (library/srfi-78.ss L65-L87). -/
inductive Token (V : Type) where
  | text (s : String)
  | count (k : Nat)
  | written (x : V)
  | newline

/-- An entry of the list of failed checks (library/srfi-78.ss L58-L61): expression, actual and expected
result. -/
structure Failure (V : Type) where
  expression : V
  actual : V
  expected : V

/-- The variables of the library (library/srfi-78.ss L34, L47, L49), the text printed so far and the world of
the program. -/
structure State (V W : Type) where
  mode : Nat
  correct : Nat
  failed : List (Failure V)
  output : List (Token V)
  world : W

/-- A computation: a value, or `none` for a raise, and the state it leaves (library/srfi-78.ss L113). -/
abbrev Comp (V W : Type) (α : Type) := State V W → Option α × State V W

variable {V W α β : Type}

/-- Return a value (auxiliary to library/srfi-78.ss). -/
def Comp.ret (x : α) : Comp V W α := fun s => (some x, s)

/-- Sequencing; after a raise nothing follows (auxiliary to library/srfi-78.ss). -/
def Comp.bind (c : Comp V W α) (k : α → Comp V W β) : Comp V W β := fun s =>
  match c s with
  | (some x, s) => k x s
  | (none, s) => (none, s)

/-- Computations can be sequenced with `do` (auxiliary to library/srfi-78.ss). -/
instance : Monad (Comp V W) where
  pure := Comp.ret
  bind := Comp.bind

/-- `(error ...)` (library/srfi-78.ss L43, L141). -/
def raise : Comp V W α := fun s => (none, s)

/-- The state now (auxiliary to library/srfi-78.ss). -/
def now : Comp V W (State V W) := fun s => (some s, s)

/-- Change the state (auxiliary to library/srfi-78.ss). -/
def change (f : State V W → State V W) : Comp V W Unit := fun s => (some (), f s)

/-- `display` of a string (library/srfi-78.ss L68). -/
def display (x : String) : Comp V W Unit := change fun s => { s with output := s.output ++ [.text x] }
/-- `display` of a number (library/srfi-78.ss L78). -/
def displayCount (k : Nat) : Comp V W Unit := change fun s => { s with output := s.output ++ [.count k] }
/-- `check:write` (library/srfi-78.ss L32). -/
def checkWrite (x : V) : Comp V W Unit := change fun s => { s with output := s.output ++ [.written x] }
/-- `newline` (library/srfi-78.ss L66). -/
def newline : Comp V W Unit := change fun s => { s with output := s.output ++ [.newline] }

/-- `check-set-mode!` (library/srfi-78.ss L36-L43). -/
def setMode (mode : String) : Comp V W Unit := do
  let k ← (if mode = "off" then pure 0
    else if mode = "summary" then pure 1
    else if mode = "report-failed" then pure 10
    else if mode = "report" then pure 100
    else raise)
  change fun s => { s with mode := k }

/-- `check-reset!` (library/srfi-78.ss L51-L53). -/
def reset : Comp V W Unit := change fun s => { s with correct := 0, failed := [] }

/-- The state after the body of the library (library/srfi-78.ss L34-L63). -/
def initial (output : List (Token V)) (world : W) : State V W :=
  { mode := 100, correct := 0, failed := [], output := output, world := world }

/-- `check:add-correct!` (library/srfi-78.ss L55-L56). -/
def addCorrect : Comp V W Unit := change fun s => { s with correct := s.correct + 1 }

/-- `check:add-failed!` (library/srfi-78.ss L58-L61). -/
def addFailed (expression actual expected : V) : Comp V W Unit :=
  change fun s => { s with failed := ⟨expression, actual, expected⟩ :: s.failed }

/-- `check:report-expression` (library/srfi-78.ss L65-L68). -/
def reportExpression (expression : V) : Comp V W Unit := do
  newline
  checkWrite expression
  display " => "

/-- `check:report-actual-result` (library/srfi-78.ss L70-L72). -/
def reportActual (actual : V) : Comp V W Unit := do
  checkWrite actual
  display " ; "

/-- `check:report-correct` (library/srfi-78.ss L74-L80). -/
def reportCorrect (cases : Nat) : Comp V W Unit := do
  display "correct"
  if cases ≠ 1 then
    display " ("
    displayCount cases
    display " cases checked)"
  newline

/-- `check:report-failed` (library/srfi-78.ss L82-L87). -/
def reportFailed (expected : V) : Comp V W Unit := do
  display "*** failed ***"
  newline
  display " ; expected result: "
  checkWrite expected
  newline

/-- `check-report` (library/srfi-78.ss L89-L107). -/
def report : Comp V W Unit := do
  let s ← now
  if s.mode ≥ 1 then
    newline
    display "; *** checks *** : "
    displayCount s.correct
    display " correct, "
    displayCount s.failed.length
    display " failed."
    match s.failed.reverse with
    | [] => newline
    | w :: _ =>
      if s.mode ≤ 1 then newline
      else
        display " First failed example:"
        newline
        reportExpression w.expression
        reportActual w.actual
        reportFailed w.expected
  else pure ()

/-- `check-passed?` (library/srfi-78.ss L109-L111). -/
def passed (expectedTotal : Nat) : Comp V W Bool := do
  let s ← now
  pure (s.failed.length == 0 && s.correct == expectedTotal)

/-- `check:proc` (library/srfi-78.ss L113-L142). -/
def proc (expression : V) (thunk : Comp V W V) (equal : V → V → Comp V W Bool) (expected : V) :
    Comp V W Unit := do
  let s ← now
  if s.mode = 0 then pure ()
  else if s.mode = 1 then
    let actual ← thunk
    if (← equal actual expected) then addCorrect
    else addFailed expression actual expected
  else if s.mode = 10 then
    let actual ← thunk
    if (← equal actual expected) then addCorrect
    else
      reportExpression expression
      reportActual actual
      reportFailed expected
      addFailed expression actual expected
  else if s.mode = 100 then
    reportExpression expression
    let actual ← thunk
    reportActual actual
    if (← equal actual expected) then
      reportCorrect 1
      addCorrect
    else
      reportFailed expected
      addFailed expression actual expected
  else raise

/-- `check` (library/srfi-78.ss L144-L150): `expr` as a datum and as a procedure, the procedure that
compares, and the expression for the expected result, which is an operand of the call of `check:proc`. -/
def check (expression : V) (expr : Comp V W V) (equal : V → V → Comp V W Bool) (expected : Comp V W V) :
    Comp V W Unit := do
  let s ← now
  if s.mode ≥ 1 then
    let e ← expected
    proc expression expr equal e
  else pure ()

/-- What the printed text and the world of the program are (auxiliary to library/srfi-78.ss). -/
abbrev Env (V W : Type) := List (Token V) × W

/-- An expression of the user that does not use the library: it prints and acts on the world, and returns or
raises (library/srfi-78.ss L146-L150). -/
abbrev User (V W α : Type) := Env V W → Option α × Env V W

/-- An expression of the user leaves the variables of the library alone (library/srfi-78.ss L146-L150). -/
def embed (u : User V W α) : Comp V W α := fun s =>
  match u (s.output, s.world) with
  | (r, (output, world)) => (r, { s with output := output, world := world })

/-- What a program does with the library: `check`, `check-set-mode!`, `check-reset!`, `check-report`, and
something else that does not use it (library/srfi-78.ss L27-L30). -/
inductive Op (V W : Type) where
  | check (expression : V) (expr : User V W V) (equal : V → V → User V W Bool) (expected : User V W V)
  | setMode (mode : String)
  | reset
  | report
  | other (action : User V W Unit)

/-- One operation (library/srfi-78.ss L27-L30). -/
def Op.perform : Op V W → Comp V W Unit
  | .check x e q r => Check.check x (embed e) (fun a b => embed (q a b)) (embed r)
  | .setMode m => Check.setMode m
  | .reset => Check.reset
  | .report => Check.report
  | .other a => embed a

/-- A program that goes on after errors: the state after its operations (library/srfi-78.ss L27-L30). -/
def run : List (Op V W) → State V W → State V W
  | [], s => s
  | op :: ops, s => run ops (op.perform s).2

end Meevax.Check
