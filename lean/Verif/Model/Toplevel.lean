import Verif.Model.Expander

/-!
The global variables and keywords of one environment while a program is read form by form:
`define` (src/kernel/syntactic_environment.cpp L36-L42, generator.cpp), references to names that have no
binding (src/kernel/syntactic_environment.cpp L172-L201), and `define-syntax` at the outermost level
(src/kernel/generator.cpp L241-L253).

Simplifications.
* Only what the forms do to names is kept: evaluating them changes no binding but the value of the
  variable or keyword.
* The transformer spec has been evaluated; the names it refers to have been referred to before.
* No import happens in between.
-/

namespace Meevax.Expand

open Secd (Name Code)

/-- What a form at the outermost level does to a name: it defines it, refers to it, or defines it as a
keyword with the given transformer procedure (src/kernel/generator.cpp L209-L253). -/
inductive TopItem where
  | define (x : Name)
  | refer (x : Name)
  | syntax (k : Name) (procedure : Nat)

/-- An environment (src/kernel/syntactic_environment.cpp L166-L199): its names with their cells, the
keywords among the values of the cells, and the objects of the expander. -/
structure Top where
  second : Name → Option Nat
  cells : Nat
  value : Nat → Option Keyword
  st : St

/-- `identify(variable, unit)` (src/kernel/syntactic_environment.cpp L172-L201): the cell of a name, a
new one if it has none. -/
def Top.bind (T : Top) (x : Name) : Nat × Top :=
  match T.second x with
  | some g => (g, T)
  | none =>
    (T.cells, { T with
      second := fun y => if y = x then some T.cells else T.second y
      cells := T.cells + 1
      value := fun g => if g = T.cells then none else T.value g })

/-- `define` at the outermost level (src/kernel/syntactic_environment.cpp L36-L42): the name is a
variable from now on. -/
def Top.define (T : Top) (x : Name) : Top :=
  let (g, T) := T.bind x
  { T with value := fun h => if h = g then none else T.value h }

/-- `generator::define_syntax` (src/kernel/generator.cpp L241-L253): the environment of the
transformer holds the names that are bound at this moment. -/
def Top.defineSyntax (T : Top) (k : Name) (procedure : Nat) : Top :=
  let (g, T) := T.bind k
  let (e, st) := newEnv [] T.second T.st
  let t := st.nextMacro
  { T with
    value := fun h => if h = g then some (.transformer t) else T.value h
    st := { st with
      macros := fun i => if i = t then (procedure, e) else st.macros i
      nextMacro := t + 1 } }

/-- One form (src/kernel/generator.cpp L209-L253). -/
def Top.step (T : Top) : TopItem → Top
  | .define x => T.define x
  | .refer x => (T.bind x).2
  | .syntax k p => T.defineSyntax k p

/-- The forms of a program, one after the other (src/kernel/environment.cpp L30-L67). -/
def Top.run (T : Top) (items : List TopItem) : Top := items.foldl Top.step T

/-- The start of `compile` (src/kernel/syntactic_environment.cpp L31-L34, L44-L50): one level of
α-conversion, for the environment itself. -/
def Top.ready (T : Top) : St :=
  { (newEnv [] T.second T.st).2 with alpha := [⟨T.st.nextEnv, [], []⟩] }

/-- The code for a part of a form within the local variables `bv`: it is expanded and then compiled
(src/kernel/syntactic_environment.cpp L31-L34, L52-L127). -/
def Top.code (T : Top) (W : World) (n : Nat) (form : Form) (bv : Scopes) : Option Code := do
  let (form, st) ← expand W n T.second form bv T.ready
  generate W st.envs T.second form (frames bv) [] false

end Meevax.Expand
