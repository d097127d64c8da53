import Lean

/-
Model of how the libraries of the system are put together: `boot` (src/kernel/boot.cpp),
`load_scheme_libraries` (configure/system.cpp L111-L150), `library::evaluate` and `library::import_set`
(src/kernel/library.cpp), `import_set` and `environment::import` (src/kernel/environment.cpp). The tables
are in Model/SystemData.

Model/Library models the same functions step by step, for arbitrary programs. Here the bodies of the
libraries are known, and every part of a library is evaluated at once. Simplified:

- a body does nothing but refer to and define global variables of its library, and raises no exception;
- a variable is named after the environment it was first put into and its name there, instead of an
  address. That is a name for it: an environment has one variable of each name, and a library is evaluated
  once (C49);
- the value of a variable is named after the definition that gave the variable its first value;
- names are numbers (their bytes in base 256), and a library is known by its written name.
-/

namespace Meevax.System

/-- A symbol (src/kernel/symbol.cpp L53-L70): the bytes of its name as the digits of a number. -/
abbrev Name := Nat

/-- The name of a symbol as a number (src/kernel/symbol.cpp L53-L70). -/
def encode (s : String) : Name := s.toUTF8.toList.foldl (fun n b => 256 * n + b.toNat) 0

/-- `name! "car"` is the number of the name. -/
syntax:max "name!" str : term

/-- `names! "car cdr"` is the list of the numbers of the names. -/
syntax:max "names!" str : term

macro_rules
  | `(name! $s) => return Lean.Syntax.mkNumLit (toString (encode s.getString))
  | `(names! $s) => do
    let words := (s.getString.split Char.isWhitespace).toList.map (·.toString) |>.filter (· ≠ "")
    let numbers := words.map fun w => Lean.Syntax.mkNumLit (toString (encode w))
    `(([$(numbers.toArray),*] : List Nat))

/-- `lexical_cast(prefix) + lexical_cast(name)` (src/kernel/environment.cpp L112-L113). -/
def concat (a b : Name) : Name := bif Nat.beq b 0 then a else a * 256 ^ (Nat.log2 b / 8 + 1) + b

/-- Is the name in the list? `memq` (src/kernel/environment.cpp L84). -/
def among (n : Name) : List Name → Bool
  | [] => false
  | m :: ms => Nat.beq m n || among n ms

/-- `assq` (src/kernel/environment.cpp L132). -/
def find {α : Type} (n : Name) : List (Name × α) → Option α
  | [] => none
  | e :: rest => bif Nat.beq e.1 n then some e.2 else find n rest

/-- A global variable (`absolute`, include/meevax/kernel/identity.hpp L24-L27): the library whose
environment it was made for, and its name there. -/
structure Variable where
  library : Name
  name : Name
deriving DecidableEq

/-- Are they the same variable? (src/kernel/environment.cpp L183) -/
def Variable.same (x y : Variable) : Bool := Nat.beq x.name y.name && Nat.beq x.library y.library

/-- What a name is bound to in an environment (`second` of
include/meevax/kernel/syntactic_environment.hpp L26), and which definition the value is from; `none` if the
variable has never been defined. -/
structure Binding where
  cell : Variable
  origin : Option Variable
deriving DecidableEq

/-- The global variables of an environment (include/meevax/kernel/syntactic_environment.hpp L26). -/
abbrev Environment := List (Name × Binding)

/-- A member of an import set (src/kernel/environment.cpp L71-L168). No variable: a new one is made for
this import (`make<absolute>`, environment.cpp L112, L135; library.cpp L92). -/
structure Exposed where
  name : Name
  cell : Option Variable
  origin : Option Variable
deriving DecidableEq

/-- Import sets (src/kernel/environment.cpp L71-L168). -/
inductive ImportSet where
  | library (key : Name)
  | only (set : ImportSet) (ids : List Name)
  | except (set : ImportSet) (ids : List Name)
  | prefix (set : ImportSet) (p : Name)
  | rename (set : ImportSet) (rs : List (Name × Name))

/-- Export specs (src/kernel/library.cpp L84-L100). -/
inductive ExportSpec where
  | plain (n : Name)
  | rename (inner outer : Name)

/-- The declarations of a library (src/kernel/library.cpp L30-L70). -/
inductive Declaration where
  | imports (sets : List ImportSet)
  | exports (specs : List ExportSpec)
  /-- `begin`: the names its forms define, and the others they refer to -/
  | body (defines refers : List Name)

/-- A library (include/meevax/kernel/library.hpp L24-L30). -/
structure Library where
  key : Name
  declarations : List Declaration

/-- A library that `boot` makes (src/kernel/boot.cpp L443-L928): names, and the procedures that are
looked up for them, if any. -/
structure Builtins where
  key : Name
  definitions : List (Name × Option Name)

/-- `library(F f)` (include/meevax/kernel/library.hpp L32-L36): the names are defined, and exported. -/
def Builtins.library (b : Builtins) : Library :=
  { key := b.key
    declarations := [.body (b.definitions.map Prod.fst) [], .exports (b.definitions.map fun d => .plain d.1)] }

/-- `procedure::procedure` (src/kernel/procedure.cpp L70-L112) for the shared library `meevax`: false if it
throws "no such procedure". -/
def Builtins.made (resolvable : List Name) (b : Builtins) : Bool :=
  b.definitions.all fun d =>
    match d.2 with
    | some p => among p resolvable
    | none => true

/-- `import_set` (src/kernel/environment.cpp L71-L168), given the import sets of the libraries. -/
def importSet (get : Name → Option (List Exposed)) : ImportSet → Option (List Exposed)
  | .library key => get key
  | .only set ids => (importSet get set).map fun xs => xs.filter fun x => among x.name ids
  | .except set ids => (importSet get set).map fun xs => xs.filter fun x => !among x.name ids
  | .prefix set p => (importSet get set).map fun xs => xs.map fun x => ⟨concat p x.name, none, x.origin⟩
  | .rename set rs => (importSet get set).map fun xs => xs.map fun x =>
    match find x.name rs with
    | some new => ⟨new, none, x.origin⟩
    | none => x

/-- The loop of `environment::import` (src/kernel/environment.cpp L172-L189); `none` if it throws. The key
is that of the library the environment belongs to. -/
def importAll (key : Name) (env : Environment) : List Exposed → Option Environment
  | [] => some env
  | x :: xs =>
    match find x.name env with
    | none => importAll key ((x.name, ⟨x.cell.getD ⟨key, x.name⟩, x.origin⟩) :: env) xs
    | some y =>
      match x.cell with
      | some v => bif v.same y.cell then importAll key env xs else none
      | none => none

/-- `import` with several import sets (src/kernel/environment.cpp L39-L47). -/
def importSets (get : Name → Option (List Exposed)) (key : Name) :
    List ImportSet → Environment → Option Environment
  | [], env => some env
  | set :: sets, env =>
    match importSet get set with
    | some xs =>
      match importAll key env xs with
      | some env => importSets get key sets env
      | none => none
    | none => none

/-- The loop of `environment::import` in the interaction environment (src/kernel/environment.cpp L176-L179):
every member is put in front. A variable that is made for the import is named after no library. -/
def importInteractive (env : Environment) : List Exposed → Environment
  | [] => env
  | x :: xs => importInteractive ((x.name, ⟨x.cell.getD ⟨0, x.name⟩, x.origin⟩) :: env) xs

/-- `import` with several import sets in the interaction environment (src/kernel/environment.cpp
L39-L47). -/
def importSetsInteractive (get : Name → Option (List Exposed)) :
    List ImportSet → Environment → Option Environment
  | [], env => some env
  | set :: sets, env =>
    match importSet get set with
    | some xs => importSetsInteractive get sets (importInteractive env xs)
    | none => none

/-- `identify(variable, unit)` (src/kernel/syntactic_environment.cpp L172-L201): a name that is not bound
gets a variable without a value. -/
def refer (key : Name) (env : Environment) (n : Name) : Environment :=
  match find n env with
  | some _ => env
  | none => (n, ⟨⟨key, n⟩, none⟩) :: env

/-- The store of a definition in the variable of the name (`cdr(name) = value`,
src/kernel/syntactic_environment.cpp L36-L42). A definition of a name that was imported stores in the
variable that the libraries share, so its origin stays the same. Simplified: a copy that a renaming import
had made before keeps the old value, and has the same origin here. -/
def originate (key n : Name) : Environment → Environment
  | [] => []
  | (m, b) :: env =>
    bif Nat.beq m n then (m, { b with origin := some (b.origin.getD ⟨key, n⟩) }) :: env
    else (m, b) :: originate key n env

/-- `define` (src/kernel/syntactic_environment.cpp L36-L42). -/
def define (key : Name) (env : Environment) (n : Name) : Environment :=
  match find n env with
  | some _ => originate key n env
  | none => (n, ⟨⟨key, n⟩, some ⟨key, n⟩⟩) :: env

/-- `library::evaluate` for every declaration (src/kernel/library.cpp L30-L82): the environment and the
export specs; `none` if an exception is raised. -/
def evaluate (get : Name → Option (List Exposed)) (key : Name) :
    List Declaration → Environment → List ExportSpec → Option (Environment × List ExportSpec)
  | [], env, specs => some (env, specs)
  | .imports sets :: ds, env, specs =>
    match importSets get key sets env with
    | some env => evaluate get key ds env specs
    | none => none
  | .exports more :: ds, env, specs => evaluate get key ds env (more ++ specs)
  | .body defines refers :: ds, env, specs =>
    evaluate get key ds (refers.foldl (refer key) (defines.foldl (define key) env)) specs

/-- The import set of a library that has been evaluated (src/kernel/library.cpp L84-L101). -/
def exposed (key : Name) (env : Environment) : ExportSpec → Exposed
  | .plain n => ⟨n, some (((find n env).map Binding.cell).getD ⟨key, n⟩), (find n env).bind Binding.origin⟩
  | .rename inner outer => ⟨outer, none, (find inner env).bind Binding.origin⟩

/-- `library::import_set` (src/kernel/library.cpp L72-L102). -/
def Library.importSet (get : Name → Option (List Exposed)) (l : Library) : Option (List Exposed) :=
  (evaluate get l.key l.declarations [] []).map fun r => r.2.map (exposed l.key r.1)

/-- `libraries().find(…)` (src/kernel/environment.cpp L144). -/
def Library.find (key : Name) : List Library → Option Library
  | [] => none
  | l :: ls => bif Nat.beq l.key key then some l else Library.find key ls

/-- The import set of a library (src/kernel/environment.cpp L144-L147): the libraries it imports are
evaluated in turn, as deep as the first argument says. A library that is not there is an exception
(environment.cpp L164), since the path of a file that would define it is not that of a library of the
system. -/
def interface (table : List Library) : Nat → Name → Option (List Exposed)
  | 0, _ => none
  | depth + 1, key =>
    match Library.find key table with
    | some l => l.importSet (interface table depth)
    | none => none

end Meevax.System
