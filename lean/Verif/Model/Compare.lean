import Verif.Model.Expander

/-!
`identifier=?` and the `compare` procedure of explicit renaming macros: library/meevax.ss L23-L27 and
L39-L40, `operator ==` of src/kernel/syntactic_closure.cpp L146-L162, the `identify` that binds
(src/kernel/syntactic_environment.cpp L172-L201), and `eqv?` of identities
(include/meevax/kernel/identity.hpp L24-L54, include/meevax/kernel/collector.hpp L100-L117).

Simplifications.
* A global variable or keyword is a numbered cell with its name and its value; a value is the number
  of an object, and `none` is the undefined value.
* A local keyword is never `eqv` to a global one: its transformer is not the value of any cell.
* A name that is an alias and that `identify` binds is not put into the list of the environment: the
  search for an alias never reads that list (src/kernel/syntactic_environment.cpp L161-L169).
* The assertion that such a name does not occur (src/kernel/syntactic_environment.cpp L197) is left
  out.
-/

namespace Meevax.Expand

open Secd (Name)

/-- `absolute` (identity.hpp L24-L27): a name and a value. -/
structure Cell where
  name : Form
  value : Option Nat
  deriving DecidableEq, Repr

/-- The environments and the global variables (src/kernel/syntactic_environment.cpp L166-L199). -/
structure Table where
  envs : Nat → Env
  cells : Nat → Cell
  next : Nat

/-- A new cell for the name `v` in the environment `e`
(src/kernel/syntactic_environment.cpp L199). -/
def Table.bind (T : Table) (e : Nat) (v : Form) : Table where
  envs := match v with
    | .sym x => fun f =>
      if f = e then ⟨(T.envs e).first, fun y => if y = x then some T.next else (T.envs e).second y⟩
      else T.envs f
    | _ => T.envs
  cells := fun g => if g = T.next then ⟨v, none⟩ else T.cells g
  next := T.next + 1

/-- `identify` of an environment that may be changed
(src/kernel/syntactic_environment.cpp L172-L201), with the bound variables of the environment itself
(src/kernel/syntactic_closure.cpp L160-L161). -/
def identifyNew (T : Table) (e : Nat) (v : Form) : Identity × Table :=
  match identify T.envs (T.envs e).second v (frames (T.envs e).first) with
  | some i => (i, T)
  | none => (.absolute T.next, T.bind e v)

/-- `eqv` of two identities (comparator.hpp L29-L32, collector.hpp L100-L117): `operator ==` of
`relative` and `variadic` is false and each is a new object (identity.hpp L41-L54); `absolute` is
compared as a pair. -/
def eqvIdentity (T : Table) : Identity → Identity → Bool
  | .absolute g, .absolute h => g == h || T.cells g == T.cells h
  | .macro t, .macro u => t == u
  | _, _ => false

/-- `operator ==` of two syntactic closures (src/kernel/syntactic_closure.cpp L146-L162), given by
environment and form. -/
def sameBinding (a b : Nat × Form) (T : Table) : Bool × Table :=
  if a.2.isIdentifier && b.2.isIdentifier then
    let (i, T) := identifyNew T a.1 a.2
    let (j, T) := identifyNew T b.1 b.2
    (eqvIdentity T i j, T)
  else (false, T)

/-- Environment and form of a closure, or of the closure made for another object
(library/meevax.ss L25-L27). -/
def enclose (e : Nat) : Form → Nat × Form
  | .closure _ f _ v => (f, v)
  | v => (e, v)

/-- `eqv?` of two objects that are closures already (comparator.hpp L29-L32): the same object.  A
closure that `identifier=?` makes is a new object. -/
def sameClosure : Form → Form → Bool
  | .closure i e free v, y => .closure i e free v = y
  | _, _ => false

/-- `identifier=?` (library/meevax.ss L23-L27). -/
def identifierEq (e₁ : Nat) (x : Form) (e₂ : Nat) (y : Form) (T : Table) : Bool × Table :=
  if sameClosure x y then (true, T) else sameBinding (enclose e₁ x) (enclose e₂ y) T

/-- `compare` of `er-macro-transformer` (library/meevax.ss L39-L40). -/
def compare (useEnv : Nat) (x y : Form) (T : Table) : Bool × Table :=
  identifierEq useEnv x useEnv y T

end Meevax.Expand
