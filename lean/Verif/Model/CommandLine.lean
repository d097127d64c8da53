import Mathlib.Data.List.Basic

/-
Model of the command line: src/kernel/configuration.cpp L24-L311 (`options`, `configure`) and
src/main.cpp L23-L90.

Arguments are lists of characters (in the code: bytes; the patterns only mention ASCII characters, a
byte above 127 is like a character above 127).  What reading a datum, evaluating and loading do is a
parameter (`Host`): they may change the state, throw, and print.  The directories, the features and
the flag `interactive()` are state of their own, because the options act on them.
-/

namespace Meevax.Cli

/-- An argument (src/kernel/configuration.cpp L254-L259). -/
abbrev Arg := List Char

/-- What can be thrown: an `error` (`unknown`, `missing`, `color`: those configuration.cpp throws;
`error`: others), an `int` (emergency-exit), another `std::exception`. -/
inductive Thrown (D E : Type) where
  | unknown (name : Arg)
  | missing (arg : Arg)
  | color (x : D)
  | error (e : E)
  | status (n : Int)
  | exception (e : E)

/-- `directories()` (configuration.cpp L296-L300), `features()`, `interactive()` (L302-L306), the
`color` flags of the output streams, what was printed, and everything else. -/
structure State (D P W : Type) where
  directories : List P
  features : List D
  interactive : Bool
  color : Option Bool
  other : W

/-- A computation: it changes the state, also when it throws (auxiliary to src/kernel/configuration.cpp L24-L311). -/
abbrev M (D E P W : Type) := ExceptT (Thrown D E) (StateM (State D P W))

variable {D E P W : Type}

/-- The rest of the system. `read` is `input_string_port(s).read()`, the first datum of a text;
`path` is `weakly_canonical(lexical_cast(x))`; `boolean` is `x.is<bool>()` and `x.as<bool>()`;
`evaluate` and `load` act on the interaction environment, `loadFresh` is `environment().load`, on a new
environment; the others print (src/kernel/configuration.cpp L60-L252). -/
structure Host (D E P W : Type) where
  read : Arg → M D E P W D
  path : D → M D E P W P
  boolean : D → Option Bool
  evaluate : D → M D E P W Unit
  load : D → M D E P W Unit
  loadFresh : Arg → M D E P W Unit
  help : M D E P W Unit
  printDirectories : List P → M D E P W Unit
  version : M D E P W Unit
  write : D → M D E P W Unit

/-- The options, by what they do (src/kernel/configuration.cpp L33-L234). -/
inductive Op where
  | append | feature | prepend | color | evaluate | help | interactive | load | directories | version
  | write
  deriving DecidableEq

/-- `option::c` and `option::s` for every option, in order (configuration.cpp L85-L214). -/
def options : List (Option Char × Arg × Op) :=
  [(some 'A', "append-library-directory".toList, .append),
   (some 'D', "add-feature-identifier".toList, .feature),
   (some 'I', "prepend-library-directory".toList, .prepend),
   (none, "color".toList, .color),
   (some 'e', "evaluate".toList, .evaluate),
   (some 'h', "help".toList, .help),
   (some 'i', "interactive".toList, .interactive),
   (some 'l', "load".toList, .load),
   (none, "library-directories".toList, .directories),
   (some 'v', "version".toList, .version),
   (some 'w', "write".toList, .write)]

/-- `regex_match(name, option.pattern)` where the pattern is `s` or `(c|s)` (configuration.cpp L47):
none of the characters of the names is special in a regular expression. -/
def named (name : Arg) (o : Option Char × Arg × Op) : Bool :=
  (match o.1 with
    | none => false
    | some c => decide (name = [c])) || decide (name = o.2.1)

/-- A computation that also moves `iter`: the argument it points to, and the arguments after it
(src/kernel/configuration.cpp L254-L300). -/
abbrev Run (D E P W : Type) := StateT (Arg × List Arg) (M D E P W)

/-- `evaluator` (configuration.cpp L239-L252). -/
def evaluator (name : Arg) : Run D E P W Op :=
  match options.find? (named name) with
  | some o => pure o.2.2
  | none => throw (.unknown name)

/-- The functions of the table (configuration.cpp L85-L214), given the function that reads the
operand. -/
def operate (H : Host D E P W) (read : Run D E P W D) : Op → Run D E P W Unit
  | .append => do
    let x ← read
    let p ← H.path x
    modifyThe (State D P W) fun σ => { σ with directories := σ.directories ++ [p] }
  | .feature => do
    let x ← read
    modifyThe (State D P W) fun σ => { σ with features := x :: σ.features }
  | .prepend => do
    let x ← read
    let p ← H.path x
    modifyThe (State D P W) fun σ => { σ with directories := p :: σ.directories }
  | .color => do
    let x ← read
    match H.boolean x with
    | some b => modifyThe (State D P W) fun σ => { σ with color := some b }
    | none => throw (.color x)
  | .evaluate => do
    let x ← read
    H.evaluate x
  | .help => H.help
  | .interactive => modifyThe (State D P W) fun σ => { σ with interactive := true }
  | .load => do
    let x ← read
    H.load x
  | .directories => do
    let σ ← getThe (State D P W)
    H.printDirectories σ.directories
  | .version => H.version
  | .write => do
    let x ← read
    H.write x

/-- `\w` in the "C" locale (src/kernel/configuration.cpp L237, L257). -/
def isWord (c : Char) : Bool :=
  ('a' ≤ c && c ≤ 'z') || ('A' ≤ c && c ≤ 'Z') || ('0' ≤ c && c ≤ '9') || c == '_'

/-- The groups of a match of the pattern of configuration.cpp L256; a group that takes no part is
empty (`smatch::length` is zero). -/
structure Groups where
  name : Arg
  operand : Arg
  short : Arg

/-- `regex_match` with `--(\w[-\w]+)(?:=(.*))?|-([\w]+)`.  `[-\w]` does not match `=`, so the name ends
at the first `=`; `.` does not match the line terminators (src/kernel/configuration.cpp L257-L259). -/
def regexMatch (arg : Arg) : Option Groups :=
  match arg with
  | '-' :: '-' :: rest =>
    let name := rest.takeWhile (fun c => isWord c || c == '-')
    let after := rest.dropWhile (fun c => isWord c || c == '-')
    match name with
    | c :: _ :: _ =>
      if isWord c then
        match after with
        | [] => some ⟨name, [], []⟩
        | '=' :: text => if text.all (fun c => c != '\n' && c != '\r') then some ⟨name, text, []⟩ else none
        | _ :: _ => none
      else none
    | _ => none
  | '-' :: c :: cs => if (c :: cs).all isWord then some ⟨[], [], c :: cs⟩ else none
  | _ => none

/-- The function `read` (configuration.cpp L260-L271): the operand is the next argument. -/
def readNext (H : Host D E P W) : Run D E P W D := do
  let (current, rest) ← get
  match rest with
  | next :: rest' => do
    set (next, rest')
    H.read next
  | [] => throw (.missing current)

/-- The loop over the letters of `-abc` (configuration.cpp L275-L278). -/
def letters (H : Host D E P W) : List Char → Run D E P W Unit
  | [] => pure ()
  | c :: cs => do
    let op ← evaluator [c]
    operate H (readNext H) op
    letters H cs

/-- The body of the loop (configuration.cpp L254-L293). -/
def step (H : Host D E P W) : Run D E P W Unit := do
  let (arg, _) ← get
  match regexMatch arg with
  | some g =>
    if g.short.length ≠ 0 then letters H g.short
    else if g.operand.length ≠ 0 then do
      let op ← evaluator g.name
      operate H (H.read g.operand) op
    else if g.name.length ≠ 0 then do
      let op ← evaluator g.name
      operate H (readNext H) op
    else pure ()
  | none => H.loadFresh arg

/-- The loop (configuration.cpp L254-L293).  The first number bounds the iterations; as every iteration
advances `iter`, the number of arguments is enough. -/
def loop (H : Host D E P W) : Nat → List Arg → M D E P W Unit
  | _, [] => pure ()
  | 0, _ :: _ => pure ()
  | fuel + 1, arg :: rest => do
    let (_, _, rest') ← StateT.run (step H) (arg, rest)
    loop H fuel rest'

/-- `configure` (configuration.cpp L233-L294). `none`: `std::next` of the end of an empty vector is
undefined. -/
def configure (H : Host D E P W) : List Arg → Option (M D E P W Unit)
  | [] => none
  | _ :: args => some (loop H args.length args)

/-- The REPL (main.cpp L56-L66).  The list says what the successive calls of
`standard_input_port().read()` give until the port is at its end; `report` is `error::report` to the
standard error port. -/
def repl (evaluate : D → M D E P W Unit) (report : Thrown D E → M D E P W Unit) :
    List (Except (Thrown D E) D) → M D E P W Unit
  | [] => pure ()
  | input :: inputs => do
    tryCatch (do
      let x ← ExceptT.mk (pure input)
      evaluate x) fun e =>
        match e with
        | .status n => throw (.status n)
        | .exception e => throw (.exception e)
        | e => report e
    repl evaluate report inputs

/-- `main` after `boot` and `load_scheme_libraries` (main.cpp L28-L90): the exit status. `imports` are
the imports of the REPL (L34-L54).  `report` does not throw. -/
def main (H : Host D E P W) (imports : M D E P W Unit) (evaluate : D → M D E P W Unit)
    (report : Thrown D E → State D P W → State D P W) (inputs : List (Except (Thrown D E) D)) (args : List Arg) :
    Option (State D P W → Int × State D P W) :=
  (configure H args).map fun conf σ =>
    let all : M D E P W Unit := do
      conf
      if (← getThe (State D P W)).interactive then do
        imports
        repl evaluate (fun e => modifyThe (State D P W) (report e)) inputs
    match (ExceptT.run all).run σ with
    | (.ok (), τ) => (0, τ)
    | (.error (.status n), τ) => (n, τ)
    | (.error e, τ) => (1, report e τ)

end Meevax.Cli
