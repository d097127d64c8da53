import Verif.Model.Writer

/-
Model of libraries: `import` and `define-library` (src/kernel/environment.cpp L29-L193), `library`
(src/kernel/library.cpp), `cond-expand` (src/kernel/conditional_expand.cpp) and the global part of
`syntactic_environment::identify` (src/kernel/syntactic_environment.cpp L130-L201).

The evaluation of an expression is left to the user's program: it may make and define global variables
of its environment and assign to any variable it can reach, and it may raise an exception. The contents
of files are parameters. An exception ends the evaluation of a form; the program goes on with the next
form, as in the REPL.

Simplified: an expression does not itself call `eval`, `load` or `environment`; symbols are their names
(see C45); macros that expand into `import` and the like are not considered, since the code looks only at
the symbol.
-/

namespace Meevax.Library
open Meevax.Text

/-- The name of a symbol (src/kernel/symbol.cpp L53-L70). -/
abbrev Name := List Byte

/-- `xs | as_proper_list` (include/meevax/kernel/proper_list.hpp): the cars up to the first cdr that is
not a pair. -/
def items : Datum → List Datum
  | .cons a d => a :: items d
  | _ => []

/-- A result, an exception, or undefined behaviour: `car` of the empty list (pair.hpp L82), or a written
form that is not modelled. -/
inductive Answer (α : Type) where
  | value (a : α)
  | error
  | undefined

/-- `lexical_cast(x)` (include/meevax/iostream/lexical_cast.hpp L28-L34) for a datum: what `write` of
Model/Writer gives. It is a parameter, with the proof that it is that function, so that the machine can be
run on examples with a function that evaluates faster. -/
structure Cast where
  high : Nat → Bool
  cast : Datum → Option (List Byte)
  cast_eq : ∀ d, cast d = write high d

/-- `libraries()` (library.cpp L109-L113): written names, and which library they stand for. -/
abbrev Registry := List (List Byte × Nat)

mutual

/-- `conditional_expand_test` (conditional_expand.cpp L27-L56). Simplified: feature identifiers are
symbols. -/
def test (lc : Cast) (features : List Name) (registry : Registry) : Datum → Answer Bool
  | .cons (.symbol name) rest =>
    if name = ascii "library" then
      match rest with
      | .cons d _ =>
        match lc.cast d with
        | some key => .value (registry.lookup key).isSome
        | none => .undefined
      | _ => .undefined
    else if name = ascii "and" then testAll lc features registry rest
    else if name = ascii "or" then testAny lc features registry rest
    else if name = ascii "not" then
      match rest with
      | .cons d _ =>
        match test lc features registry d with
        | .value b => .value (!b)
        | r => r
      | _ => .undefined
    else .error
  | .symbol name => .value (name == ascii "else" || features.contains name)
  | _ => .value false

/-- `std::ranges::all_of(…, conditional_expand_test)` (conditional_expand.cpp L37). -/
def testAll (lc : Cast) (features : List Name) (registry : Registry) : Datum → Answer Bool
  | .cons d rest =>
    match test lc features registry d with
    | .value true => testAll lc features registry rest
    | r => r
  | _ => .value true

/-- `std::ranges::any_of(…, conditional_expand_test)` (conditional_expand.cpp L41). -/
def testAny (lc : Cast) (features : List Name) (registry : Registry) : Datum → Answer Bool
  | .cons d rest =>
    match test lc features registry d with
    | .value false => testAny lc features registry rest
    | r => r
  | _ => .value false

end

/-- `conditional_expand` (conditional_expand.cpp L58-L73). -/
def conditionalExpand (lc : Cast) (features : List Name) (registry : Registry) :
    Datum → Answer Datum
  | .cons clause rest =>
    match clause with
    | .cons requirement body =>
      match test lc features registry requirement with
      | .value true => .value body
      | .value false => conditionalExpand lc features registry rest
      | .error => .error
      | .undefined => .undefined
    | _ => .error
  | _ => .error

/-- An `absolute` (include/meevax/kernel/identity.hpp L24-L27): a global variable. -/
structure Cell (V : Type) where
  name : Name
  value : V

/-- `library` (include/meevax/kernel/library.hpp L24-L30): the number of its environment, its
declarations that were not evaluated yet, and its export specs. -/
structure Library where
  env : Nat
  declarations : List Datum
  exports : List Datum

/-- What the evaluation of an expression does to the global variables
(src/kernel/environment.cpp L64: the call of `execute`; src/kernel/syntactic_environment.cpp L172-L201). -/
inductive Change (V : Type) where
  /-- mentions a variable of its environment -/
  | mention (n : Name)
  /-- defines a variable of its environment -/
  | define (n : Name) (v : V)
  /-- assigns to a variable, by whatever way it got hold of it -/
  | assign (cell : Nat) (v : V)

/-- The user's program (src/kernel/environment.cpp L29-L65). -/
structure Program (V S : Type) where
  /-- evaluates an expression, given what the names mean and the variables' values; answers what was
  done, and whether an exception was raised -/
  eval : Datum → (Name → Option Nat) → List (Cell V) → S → S × List (Change V) × Bool
  /-- the value of a variable that is not defined (`undefined`) -/
  undefinedValue : V
  /-- the data in the files of an `include` form; `none`: an exception -/
  files : Datum → Option (List Datum)
  /-- the data in the file of a library; `none`: an exception -/
  locate : Datum → Option (List Datum)
  lexicalCast : Cast

/-- What is left to do (src/kernel/environment.cpp L29-L193). -/
inductive Frame where
  /-- `filter(only, import_set(cadr(form)))` (environment.cpp L88) -/
  | only (ids : List Datum)
  /-- `filter(except, import_set(cadr(form)))` (environment.cpp L102) -/
  | except (ids : List Datum)
  /-- `map(prefix, import_set(cadr(form)))` (environment.cpp L118) -/
  | prefix (p : Datum)
  /-- `map(rename, import_set(cadr(form)))` (environment.cpp L142) -/
  | rename (renamings : List Datum)
  /-- the loop of `environment::import` (environment.cpp L176-L190) -/
  | into (env : Nat)
  /-- the rest of `library::import_set` (library.cpp L84-L101) -/
  | exports (lib : Nat)
  /-- library declarations to evaluate; `direct`: those of the library itself -/
  | declare (lib : Nat) (direct : Bool) (ds : List Datum)
  /-- forms to evaluate in an environment -/
  | forms (env : Nat) (ds : List Datum)
  /-- import sets to import into an environment (environment.cpp L41-L44) -/
  | imports (env : Nat) (sets : List Datum)
  /-- a library's file has been loaded (environment.cpp L159-L166) -/
  | loaded (form : Datum)

/-- What happens next (src/kernel/environment.cpp L29-L193). -/
inductive Mode where
  /-- `import_set(form)` -/
  | importSet (form : Datum)
  /-- an import set, returned to the topmost frame -/
  | ret (cells : List Nat)
  /-- go on with the topmost frame -/
  | next
  | failed
  | undefined

/-- The state. The log, newest first, records the declarations of libraries that were started
(include/meevax/kernel/library.hpp; src/kernel/environment.cpp L29-L193). -/
structure Config (V S : Type) where
  mode : Mode
  stack : List Frame
  /-- the forms of the program that were not read yet -/
  top : List Datum
  cells : List (Cell V)
  /-- the global variables (`second`) of every environment, newest first; 0 is the interaction
  environment -/
  envs : List (List Nat)
  libs : List Library
  registry : Registry
  features : List Name
  user : S
  log : List (Nat × Datum)

variable {V S : Type}

/-- The variables of an environment (`second` of include/meevax/kernel/syntactic_environment.hpp L26). -/
def variables (s : Config V S) (env : Nat) : List Nat := s.envs[env]?.getD []

/-- `assq(variable, second)` (syntactic_environment.cpp L168). -/
def find (cells : List (Cell V)) (n : Name) : List Nat → Option Nat
  | [] => none
  | c :: cs =>
    match cells[c]? with
    | some cell => if cell.name = n then some c else find cells n cs
    | none => find cells n cs

/-- `identify(variable, unit) const` (syntactic_environment.cpp L130-L170) for a symbol. -/
def lookup (s : Config V S) (env : Nat) (n : Name) : Option Nat := find s.cells n (variables s env)

/-- `make<absolute>(name, value)` (src/kernel/syntactic_environment.cpp L130-L201). -/
def make (n : Name) (v : V) (s : Config V S) : Nat × Config V S :=
  (s.cells.length, { s with cells := s.cells ++ [⟨n, v⟩] })

/-- `second = cons(x, second)` (src/kernel/syntactic_environment.cpp L130-L201). -/
def push (env c : Nat) (s : Config V S) : Config V S :=
  { s with envs := s.envs.set env (c :: variables s env) }

/-- `identify(variable, unit)` (syntactic_environment.cpp L172-L201) for a symbol. -/
def identify (pr : Program V S) (env : Nat) (n : Name) (s : Config V S) : Nat × Config V S :=
  match lookup s env n with
  | some c => (c, s)
  | none =>
    let (c, s) := make n pr.undefinedValue s
    (c, push env c s)

/-- `cdr(identity) = value`
(src/kernel/syntactic_environment.cpp L130-L145; src/kernel/dynamic_environment.cpp L373-L385). -/
def assign (c : Nat) (v : V) (s : Config V S) : Config V S :=
  match s.cells[c]? with
  | some cell => { s with cells := s.cells.set c { cell with value := v } }
  | none => s

/-- One effect of an expression (src/kernel/environment.cpp L64). -/
def change (pr : Program V S) (env : Nat) (s : Config V S) : Change V → Config V S
  | .mention n => (identify pr env n s).2
  | .define n v =>
    -- syntactic_environment.cpp L36-L42
    let (c, s) := identify pr env n s
    assign c v s
  | .assign c v => assign c v s

/-- `execute(compile(expression))` (environment.cpp L68). -/
def run (pr : Program V S) (env : Nat) (d : Datum) (s : Config V S) : Config V S :=
  let (user, changes, raised) := pr.eval d (lookup s env) s.cells s.user
  let s := changes.foldl (change pr env) { s with user := user }
  { s with mode := if raised then .failed else .next }

/-- `make<library>(declarations)` and `libraries().emplace(key, …)` (environment.cpp L35), which does
nothing if the key is there. -/
def defineLibrary (key : List Byte) (ds : List Datum) (s : Config V S) : Config V S :=
  let s := { s with libs := s.libs ++ [(⟨s.envs.length, ds, []⟩ : Library)], envs := s.envs ++ [[]] }
  match s.registry.lookup key with
  | some _ => s
  | none => { s with registry := (key, s.libs.length - 1) :: s.registry }

/-- `environment::evaluate` (environment.cpp L29-L69). -/
def evaluate (pr : Program V S) (env : Nat) (d : Datum) (s : Config V S) : Config V S :=
  match d with
  | .cons (.symbol name) rest =>
    if name = ascii "define-library" then
      match rest with
      | .cons libraryName ds =>
        match pr.lexicalCast.cast libraryName with
        | some key => { defineLibrary key (items ds) s with mode := .next }
        | none => { s with mode := .undefined }
      | _ => { s with mode := .undefined }
    else if name = ascii "import" then { s with mode := .next, stack := .imports env (items rest) :: s.stack }
    else if name = ascii "include" ∨ name = ascii "include-ci" then
      match pr.files d with
      | some ds => { s with mode := .next, stack := .forms env ds :: s.stack }
      | none => { s with mode := .failed }
    else run pr env d s
  | d => run pr env d s

/-- `library::evaluate` (library.cpp L30-L70). -/
def declare (pr : Program V S) (lib : Nat) (d : Datum) (s : Config V S) : Config V S :=
  match s.libs[lib]? with
  | none => { s with mode := .undefined }
  | some l =>
    match d with
    | .cons (.symbol name) rest =>
      if name = ascii "export" then
        { s with mode := .next, libs := s.libs.set lib { l with exports := items rest ++ l.exports } }
      else if name = ascii "begin" then { s with mode := .next, stack := .forms l.env (items rest) :: s.stack }
      else if name = ascii "include-library-declarations" then
        match pr.files d with
        | some ds => { s with mode := .next, stack := .declare lib false ds :: s.stack }
        | none => { s with mode := .failed }
      else if name = ascii "cond-expand" then
        match conditionalExpand pr.lexicalCast s.features s.registry rest with
        | .value body => { s with mode := .next, stack := .declare lib false (items body) :: s.stack }
        | .error => { s with mode := .failed }
        | .undefined => { s with mode := .undefined }
      else evaluate pr l.env d s
    | d => evaluate pr l.env d s

/-- The start of `library::import_set` (library.cpp L74-L82): the declarations are taken out first. -/
def startLibrary (lib : Nat) (s : Config V S) : Config V S :=
  match s.libs[lib]? with
  | some l =>
    { s with
      mode := .next
      libs := s.libs.set lib { l with declarations := [] }
      stack := .declare lib true l.declarations :: .exports lib :: s.stack }
  | none => { s with mode := .undefined }

/-- The function mapped over the export specs (library.cpp L84-L100). -/
def export1 (pr : Program V S) (env : Nat) (spec : Datum) (s : Config V S) : Option (Nat × Config V S) :=
  match spec with
  | .cons _ (.cons (.symbol inner) (.cons (.symbol outer) _)) =>
    -- L92-L93
    let (c, s) := identify pr env inner s
    match s.cells[c]? with
    | some cell => some (make outer cell.value s)
    | none => none
  | .symbol n => some (identify pr env n s)
  | _ => none

/-- `map(…, export_specs)` (library.cpp L84-L101), from the left. -/
def exportAll (pr : Program V S) (env : Nat) : List Datum → Config V S → Option (List Nat × Config V S)
  | [], s => some ([], s)
  | spec :: specs, s =>
    match export1 pr env spec s with
    | some (c, s) =>
      match exportAll pr env specs s with
      | some (cs, s) => some (c :: cs, s)
      | none => none
    | none => none

/-- `import_set` (environment.cpp L71-L172), up to the recursive call. -/
def importSet (pr : Program V S) (form : Datum) (s : Config V S) : Config V S :=
  match form with
  | .cons (.symbol name) rest =>
    if name = ascii "only" then
      -- L75-L89
      match rest with
      | .cons inner ids => { s with mode := .importSet inner, stack := .only (items ids) :: s.stack }
      | _ => { s with mode := .undefined }
    else if name = ascii "except" then
      -- L90-L104
      match rest with
      | .cons inner ids => { s with mode := .importSet inner, stack := .except (items ids) :: s.stack }
      | _ => { s with mode := .undefined }
    else if name = ascii "prefix" then
      -- L105-L120
      match rest with
      | .cons inner (.cons p _) => { s with mode := .importSet inner, stack := .prefix p :: s.stack }
      | _ => { s with mode := .undefined }
    else if name = ascii "rename" then
      -- L121-L143
      match rest with
      | .cons inner renamings =>
        { s with mode := .importSet inner, stack := .rename (items renamings) :: s.stack }
      | _ => { s with mode := .undefined }
    else
      match pr.lexicalCast.cast form with
      | none => { s with mode := .undefined }
      | some key =>
        match s.registry.lookup key with
        | some lib => startLibrary lib s  -- L144-L147
        | none =>
          -- L148-L157
          match pr.locate form with
          | none => { s with mode := .failed }
          | some ds =>
            { s with
              mode := .next
              stack := .forms s.envs.length ds :: .loaded form :: s.stack
              envs := s.envs ++ [[]] }
  | .cons _ _ => { s with mode := .failed }  -- `as<symbol>()` throws (object.hpp L129)
  | _ => { s with mode := .undefined }

/-- The name of a variable (src/kernel/environment.cpp L84). -/
def nameOf (s : Config V S) (c : Nat) : Option Name := (s.cells[c]?).map Cell.name

/-- `memq(car(identity), identifiers) != f` (environment.cpp L84). -/
def isAmong (s : Config V S) (ids : List Datum) (c : Nat) : Bool :=
  match nameOf s c with
  | some n => ids.any fun d => match d with | .symbol m => m == n | _ => false
  | none => false

/-- `assq(car(identity), renamings)` (environment.cpp L132) and its `cadr`. A renaming that is not a list
of two symbols is `none`. -/
def renamed (n : Name) : List Datum → Option (Option Name)
  | [] => some none
  | .cons (.symbol m) (.cons (.symbol new) _) :: rest => if m = n then some (some new) else renamed n rest
  | _ => none

/-- `map(prefix, …)` (environment.cpp L111-L118). -/
def prefixAll (pr : Program V S) (p : Datum) : List Nat → Config V S → Option (List Nat × Config V S)
  | [], s => some ([], s)
  | c :: cs, s =>
    match s.cells[c]? with
    | none => none
    | some cell =>
      match pr.lexicalCast.cast p, pr.lexicalCast.cast (.symbol cell.name) with
      | some a, some b =>
        let (c', s) := make (a ++ b) cell.value s
        match prefixAll pr p cs s with
        | some (cs', s) => some (c' :: cs', s)
        | none => none
      | _, _ => none

/-- `map(rename, …)` (environment.cpp L127-L142). -/
def renameAll (renamings : List Datum) : List Nat → Config V S → Option (List Nat × Config V S)
  | [], s => some ([], s)
  | c :: cs, s =>
    match s.cells[c]? with
    | none => none
    | some cell =>
      match renamed cell.name renamings with
      | none => none
      | some new =>
        let (c', s) := match new with
          | some new => make new cell.value s
          | none => (c, s)
        match renameAll renamings cs s with
        | some (cs', s) => some (c' :: cs', s)
        | none => none

/-- The loop of `environment::import` (environment.cpp L176-L190); false if it throws. -/
def importAll (env : Nat) : List Nat → Config V S → Bool × Config V S
  | [], s => (true, s)
  | x :: xs, s =>
    match nameOf s x with
    | none => importAll env xs s
    | some n =>
      match lookup s env n with
      | none => importAll env xs (push env x s)
      | some y =>
        if env = 0 then importAll env xs (push env x s)
        else if x = y then importAll env xs s
        else (false, s)

/-- Gives an import set to the topmost frame (src/kernel/environment.cpp L67-L184). -/
def returnTo (pr : Program V S) (cs : List Nat) (s : Config V S) : Config V S :=
  match s.stack with
  | .only ids :: k => { s with mode := .ret (cs.filter (isAmong s ids)), stack := k }
  | .except ids :: k => { s with mode := .ret (cs.filter fun c => !isAmong s ids c), stack := k }
  | .prefix p :: k =>
    match prefixAll pr p cs s with
    | some (cs, s) => { s with mode := .ret cs, stack := k }
    | none => { s with mode := .undefined }
  | .rename renamings :: k =>
    match renameAll renamings cs s with
    | some (cs, s) => { s with mode := .ret cs, stack := k }
    | none => { s with mode := .undefined }
  | .into env :: k =>
    let (ok, s) := importAll env cs s
    { s with mode := if ok then .next else .failed, stack := k }
  | _ => { s with mode := .undefined }

/-- Goes on with the topmost frame (src/kernel/environment.cpp L29-L193). -/
def next (pr : Program V S) (s : Config V S) : Option (Config V S) :=
  match s.stack with
  | [] =>
    match s.top with
    | [] => none
    | d :: ds => some { s with stack := [.forms 0 [d]], top := ds }
  | .forms _ [] :: k => some { s with stack := k }
  | .forms env (d :: ds) :: k => some (evaluate pr env d { s with stack := .forms env ds :: k })
  | .declare _ _ [] :: k => some { s with stack := k }
  | .declare lib direct (d :: ds) :: k =>
    some (declare pr lib d
      { s with
        stack := .declare lib direct ds :: k
        log := if direct then (lib, d) :: s.log else s.log })
  | .imports _ [] :: k => some { s with stack := k }
  | .imports env (set :: sets) :: k =>
    some { s with mode := .importSet set, stack := .into env :: .imports env sets :: k }
  | .exports lib :: k =>
    match s.libs[lib]? with
    | none => some { s with mode := .undefined }
    | some l =>
      match exportAll pr l.env l.exports s with
      | some (cs, s) => some { s with mode := .ret cs, stack := k }
      | none => some { s with mode := .undefined }
  | .loaded form :: k =>
    -- environment.cpp L159-L166
    match pr.lexicalCast.cast form with
    | none => some { s with mode := .undefined }
    | some key =>
      match s.registry.lookup key with
      | some lib => some (startLibrary lib { s with stack := k })
      | none => some { s with mode := .failed }
  | _ => some { s with mode := .undefined }

/-- One step; `none` when the program has ended (src/kernel/environment.cpp L29-L193). -/
def step (pr : Program V S) (s : Config V S) : Option (Config V S) :=
  match s.mode with
  | .importSet form => some (importSet pr form s)
  | .ret cs => some (returnTo pr cs s)
  | .next => next pr s
  | .failed => some { s with mode := .next, stack := [] }
  | .undefined => none

/-- The start of a program: only the interaction environment is there (src/main.cpp L23-L90). -/
def start (features : List Name) (program : List Datum) (user : S) : Config V S :=
  { mode := .next, stack := [], top := program, cells := [], envs := [[]], libs := [], registry := [],
    features := features, user := user, log := [] }

end Meevax.Library
