import Mathlib.Data.List.Basic

/-
Model of how files are found, opened and included: src/kernel/textual_context.cpp,
include/meevax/kernel/textual_context.hpp, include/meevax/kernel/include.hpp, input_file_port.hpp,
output_file_port.hpp, src/kernel/environment.cpp L48-L63 and L188-L200, src/kernel/expander.cpp L166-L180,
configure/system.cpp L27-L31.

The file system is a parameter and does not change meanwhile. Reading a file gives its data at once (in the code they are
read one by one; a datum with `#,` is evaluated while it is read, which is left out).
-/

namespace Meevax.Include

/-- What is thrown: by `locate`, by `std::filesystem` or another part of the standard library, a read error, a `file_error`,
another `error`
(src/kernel/textual_context.cpp L76; include/meevax/kernel/input_file_port.hpp; src/kernel/dynamic_environment.cpp L460-L493). -/
inductive Thrown where
  | notLocated | system | read | file | other
  deriving DecidableEq

/-- The file system, and `std::filesystem::path`. `isFile` is `is_existing_non_directory` (textual_context.cpp L97-L100);
`canonical` throws when there is no such file; `readable`: the stream is open; `writable`: likewise for `std::ofstream`;
`content`: the data of the file, given whether `fold_case` is set. -/
structure FileSystem (P D : Type) where
  isFile : P → Bool
  canonical : P → Option P
  readable : P → Bool
  writable : P → Bool
  content : Bool → P → Except Thrown (List D)
  join : P → P → P
  parent : P → P
  hasExtension : P → Bool
  replaceExtension : P → String → P
  cwd : P
  empty : P

variable {P D : Type}

/-- `extensions()` (configure/system.cpp L27-L31). -/
def extensions : List String := ["ss", "sld", "scm"]

/-- The loop over the extensions in the macro `LOCATE` (textual_context.cpp L53-L61): `p` changes in each iteration. -/
def tryExtensions (fs : FileSystem P D) : P → List String → Option P
  | _, [] => none
  | p, e :: es =>
    let p' := fs.replaceExtension p e
    if fs.isFile p' then some p' else tryExtensions fs p' es

/-- The macro `LOCATE` (textual_context.cpp L47-L63): `none` if it does not return. -/
def tryDirectory (fs : FileSystem P D) (given directory : P) : Option P :=
  let p := fs.join directory given
  if fs.isFile p then some p
  else if fs.hasExtension given then none
  else tryExtensions fs p extensions

/-- The loop over the directories (textual_context.cpp L69-L72). -/
def tryDirectories (fs : FileSystem P D) (given : P) : List P → Option P
  | [] => none
  | d :: ds =>
    match tryDirectory fs given d with
    | some p => some p
    | none => tryDirectories fs given ds

/-- `textual_context::proxy::source_directory` (textual_context.cpp L31-L39). -/
def sourceDirectory (fs : FileSystem P D) : Option P → P
  | some file => fs.parent file
  | none => fs.parent fs.empty

/-- `textual_context::proxy::locate` (textual_context.cpp L41-L78), with the acceptor `is_existing_non_directory`. -/
def locate (fs : FileSystem P D) (directories : List P) (source : Option P) (given : P) : Except Thrown P :=
  if fs.isFile given then
    match fs.canonical given with
    | some p => .ok p
    | none => .error .system
  else
    match tryDirectory fs given (sourceDirectory fs source) with
    | some p => .ok p
    | none =>
      match tryDirectory fs given fs.cwd with
      | some p => .ok p
      | none =>
        match tryDirectories fs given directories with
        | some p => .ok p
        | none => .error .notLocated

/-- `textual_context::paths` and `textual_context::proxies` (textual_context.hpp L45-L47). `proxies` gives for the address of
a pair the iterator into `paths`; `some none` is `paths.end()`. -/
structure Context (P : Type) where
  paths : List P
  proxies : Nat → Option (Option P)

/-- The constructor of `input_file_port` (input_file_port.hpp L34-L39): the name of the port, whether it is open, and the
context. The name entered into `paths` is the operand, which hides the member. -/
def openInput (fs : FileSystem P D) (c : Context P) (given : P) : Except Thrown (P × Bool × Context P) :=
  match fs.canonical given with
  | none => .error .system
  | some name => .ok (name, fs.readable given, { c with paths := given :: c.paths })

/-- The constructor of `output_file_port` (output_file_port.hpp L31-L34): whether the port is open. -/
def openOutput (fs : FileSystem P D) (given : P) : Except Thrown Bool := .ok (fs.writable given)

/-- `textual_context::cons` (textual_context.cpp L80-L87) for a pair at the address `a`, from a port with the given name. -/
def Context.cons [DecidableEq P] (c : Context P) (a : Nat) (name : P) : Context P :=
  { c with proxies := fun b => if b = a then some (if name ∈ c.paths then some name else none) else c.proxies b }

/-- `meevax::cons` at the address `a`, and the release of a pair: the context does not change
(src/kernel/textual_context.cpp L82). -/
def Context.plainCons (c : Context P) (_ : Nat) : Context P := c

/-- `textual_context::of(x)` and its source file (textual_context.cpp L89-L95, L31-L34). -/
def Context.of (c : Context P) (a : Nat) : Option P := (c.proxies a).getD none

/-- `include` (include.hpp L30-L56) for a list of names: for each pair of the list its address and, if its car is a string,
the path. The data before are given in reverse order. A port that is not open has no data. -/
def includeNames (fs : FileSystem P D) (directories : List P) (c : Context P) (ci : Bool) :
    List (Nat × Option P) → List D → Except Thrown (List D)
  | [], xs => .ok xs.reverse
  | (a, name) :: names, xs =>
    match name with
    | none => .error .other
    | some given =>
      match locate fs directories (c.of a) given with
      | .error e => .error e
      | .ok p =>
        match openInput fs c p with
        | .error e => .error e
        | .ok (_, isOpen, _) =>
          match if isOpen then fs.content ci p else .ok [] with
          | .error e => .error e
          | .ok ys => includeNames fs directories c ci names (ys.reverse ++ xs)

/-- `(include name ...)` and `(include-ci name ...)` as a command of a program or library (environment.cpp L48-L63): the data
that are evaluated. -/
def includeTop (fs : FileSystem P D) (directories : List P) (c : Context P) (ci : Bool) (names : List (Nat × Option P)) :
    Except Thrown (List D) :=
  includeNames fs directories c ci names []

/-- An operand of `include`: a string, or a list of the same kind as above (include/meevax/kernel/include.hpp). -/
inductive Operand (P : Type) where
  | string (p : P)
  | list (names : List (Nat × Option P))

/-- `(include name ...)` elsewhere, for example in a body (expander.cpp L166-L180): the forms after `begin`. `cadr(form)` is
the first operand. -/
def includeBody (fs : FileSystem P D) (directories : List P) (c : Context P) (ci : Bool) : List (Operand P) →
    Except Thrown (List D)
  | [] => .error .other
  | .string _ :: _ => includeNames fs directories c ci [] []
  | .list names :: _ => includeNames fs directories c ci names []

/-- `environment::load` (environment.cpp L188-L200): the data that are evaluated. -/
def load (fs : FileSystem P D) (c : Context P) (given : P) : Except Thrown (List D) :=
  match openInput fs c given with
  | .error e => .error e
  | .ok (_, isOpen, _) => if isOpen then fs.content false given else .error .file

/-- What a handler gets: `file-error?` and `read-error?` look at the type of the object made of what was thrown
(dynamic_environment.cpp L474-L495, error.cpp L87-L107). -/
structure Raised where
  fileError : Bool
  readError : Bool

/-- `error::make` and the conversion of other exceptions
(src/kernel/dynamic_environment.cpp L473-L493; src/kernel/error.cpp L30-L33). -/
def raised : Thrown → Raised
  | .file => ⟨true, false⟩
  | .read => ⟨false, true⟩
  | _ => ⟨false, false⟩

end Meevax.Include
