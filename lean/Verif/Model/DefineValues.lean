import Verif.Model.Machine
import Verif.Model.LibraryMacros

/-!
Model of `define-values` (library/r7rs.ss L127-L159): its rules, as written, expanded by the model of
`syntax-rules` (Model/SyntaxRules.lean); and what the definitions that remain do to the variables and the pairs.

Simplifications:
* The expression of the user is opaque: a function of the store, that returns or does not.
* The variables are one function from identifiers to values, whether they are bound at the top level or in a
  body; a definition assigns.  A definition of a renamed identifier (`dummy`, in `(define-values () expression)`)
  is in no one's way here; what the expander does with one in a body is the subject of C53
  (`C53_inserted_definition_fails`).
* Continuations that the expression captures are not modelled.
-/

namespace Meevax.DefineValues

open Meevax.Rules Meevax.Secd

/-- Forms, as the expander sees them (library/srfi-149.ss L100-L246). -/
abbrev Form := Meevax.Rules.Form

/-- Symbols and pattern variables of the rules (library/r7rs.ss L127-L159). -/
abbrev s (n : Nat) : Form := .id n

/-- The ellipsis `...` (library/r7rs.ss L136). -/
abbrev dots : Form := .id 0

/-- `(define id-0 (call-with-values (lambda () expression) list))` (library/r7rs.ss L137-L138).
2 define, 4 call-with-values, 5 lambda, 6 list; 20 id-0, 23 expression. -/
def defineFirst : Form :=
  .ofList [s 2, s 20, .ofList [s 4, .ofList [s 5, .nil, s 23], s 6]]

/-- `(define id-1 (let ((x (cadr id-0))) (set-cdr! id-0 (cddr id-0)) x))` (library/r7rs.ss L139-L142).
7 let, 8 cadr, 9 set-cdr!, 10 cddr, 17 x; 21 id-1. -/
def defineNext : Form :=
  .ofList [s 2, s 21, .ofList [s 7, .ofList [.ofList [s 17, .ofList [s 8, s 20]]],
    .ofList [s 9, s 20, .ofList [s 10, s 20]], s 17]]

/-- `(define id-n (let ((x (cadr id-0))) (set! id-0 (car id-0)) x))` (library/r7rs.ss L143-L146).
11 set!, 12 car; 22 id-n. -/
def defineLast : Form :=
  .ofList [s 2, s 22, .ofList [s 7, .ofList [.ofList [s 17, .ofList [s 8, s 20]]],
    .ofList [s 11, s 20, .ofList [s 12, s 20]], s 17]]

/-- `(define id-n (let ((x (cdr id-0))) (set! id-0 (car id-0)) x))` (library/r7rs.ss L154-L157).
13 cdr. -/
def defineRest : Form :=
  .ofList [s 2, s 22, .ofList [s 7, .ofList [.ofList [s 17, .ofList [s 13, s 20]]],
    .ofList [s 11, s 20, .ofList [s 12, s 20]], s 17]]

/-- The rules of `define-values` (library/r7rs.ss L128-L159).
3 begin, 14 define-values, 15 dummy, 16 xs; 24 identifier. -/
def rules : List (Form × Form) :=
  [ (.ofList [s 14, .nil, s 23],
     .ofList [s 2, s 15, .ofList [s 4, .ofList [s 5, .nil, s 23], .ofList [s 5, s 16, .bool false]]]),
    (.ofList [s 14, .ofList [s 24], s 23],
     .ofList [s 2, s 24, s 23]),
    (.ofList [s 14, .cons (s 20) (.cons (s 21) (.cons dots (.cons (s 22) .nil))), s 23],
     .cons (s 3) (.cons defineFirst (.cons defineNext (.cons dots (.cons defineLast .nil))))),
    (.ofList [s 14, .cons (s 20) (.cons (s 21) (.cons dots (s 22))), s 23],
     .cons (s 3) (.cons defineFirst (.cons defineNext (.cons dots (.cons defineRest .nil))))),
    (.ofList [s 14, s 24, s 23],
     .ofList [s 2, s 24, .ofList [s 4, .ofList [s 5, .nil, s 23], s 6]])]

/-- What an inserted identifier can mean, besides being a variable (library/r7rs.ss L128-L159). -/
inductive Kw where
  | define
  | begin_
  | callWithValues
  | lambda
  | list
  | let_
  | cadr
  | setCdr
  | cddr
  | set
  | car
  | cdr
  deriving DecidableEq

/-- The meaning of the symbols of the rules in the library (library/r7rs.ss L128-L159). -/
def keyword (x : Nat) : Option Kw :=
  if x = 2 then some .define
  else if x = 3 then some .begin_
  else if x = 4 then some .callWithValues
  else if x = 5 then some .lambda
  else if x = 6 then some .list
  else if x = 7 then some .let_
  else if x = 8 then some .cadr
  else if x = 9 then some .setCdr
  else if x = 10 then some .cddr
  else if x = 11 then some .set
  else if x = 12 then some .car
  else if x = 13 then some .cdr
  else none

/-- Where the macro is used: which identifiers are made by renaming, and what those mean
(library/meevax.ss L31-L40). -/
structure Ctx where
  made : Nat → Prop
  kw : Nat → Option Kw
  user : ∀ x, ¬made x → kw x = none

/-- The renaming of one use of the macro (library/meevax.ss L31-L38): one new identifier for each symbol. -/
structure Fresh (Γ : Ctx) (U : Use) (form : Form) : Prop where
  made : ∀ x, Γ.made (U.rename x)
  injective : ∀ x y, U.rename x = U.rename y → x = y
  fresh : ∀ x, U.rename x ∉ LibraryMacros.idsOf form
  symbol : ∀ x, Γ.kw (U.rename x) = keyword x

/-- The pairs and what the variables hold (src/kernel/dynamic_environment.cpp L47-L459). -/
structure State where
  cells : Cells
  vars : Nat → Value

/-- The assignment of a variable (src/kernel/dynamic_environment.cpp L398-L433). -/
def State.set (σ : State) (x : Nat) (v : Value) : State := ⟨σ.cells, update σ.vars x v⟩

/-- The variables that `let` and `lambda` bind (library/r7rs.ss L132, L140, L144, L155). -/
abbrev Locals := Nat → Option Value

/-- One more binding (library/r7rs.ss L140). -/
def Locals.bind (ρ : Locals) (x : Nat) (v : Value) : Locals := fun y => if y = x then some v else ρ y

/-- No bindings (library/r7rs.ss L128-L159). -/
def Locals.none : Locals := fun _ => Option.none

/-- The object `<values>` is a pair (library/r5rs.ss L84); `values?` (L93-L95). -/
def isValues (tag : Nat) (h : Cells) : Value → Bool
  | .pair l => match (h.cell l).1 with
    | .pair t => t == tag
    | _ => false
  | _ => false

/-- The operand list with which `call-with-values` calls the consumer (library/r5rs.ss L96-L99): that of
`(apply consume (cdr vs))` is the list `(cdr vs)` itself (library/meevax.ss L111; C84), that of `(consume vs)` is
new.  A procedure with only a rest parameter, and the procedure `list` (src/kernel/boot.cpp L140), receive the
operand list itself. -/
def operands (tag : Nat) (v : Value) (σ : State) : Option (Value × State) :=
  if isValues tag σ.cells v then do some (← σ.cells.cdr v, σ)
  else some (.pair σ.cells.next, ⟨σ.cells.cons v .nil, σ.vars⟩)

/-- What an expression of the user does (library/r7rs.ss L129): return a value and leave a store, or not return. -/
abbrev Host := Form → State → Option (Value × State)

mutual

/-- Evaluation of what the rules leave (library/r7rs.ss L131-L159); a form that does not begin with an inserted
keyword is an expression of the user.  Operands are evaluated from the right (src/kernel/generator.cpp L56-L72).
`none`: no result, or `car` or `cdr` of something that is not a pair, which is undefined behaviour. -/
def eval (H : Host) (Γ : Ctx) (tag : Nat) : Form → Locals → State → Option (Value × State)
  | .id x, ρ, σ => match ρ x with
    | some v => some (v, σ)
    | none => H (.id x) σ
  | .cons (.id k) args, ρ, σ =>
    match Γ.kw k, args with
    | some .let_, .cons (.cons (.cons (.id x) (.cons e .nil)) .nil) body => do
      let (v, σ) ← eval H Γ tag e ρ σ
      evalBody H Γ tag body (ρ.bind x v) σ
    | some .cadr, .cons e .nil => do
      let (v, σ) ← eval H Γ tag e ρ σ
      some (← σ.cells.car (← σ.cells.cdr v), σ)
    | some .cddr, .cons e .nil => do
      let (v, σ) ← eval H Γ tag e ρ σ
      some (← σ.cells.cdr (← σ.cells.cdr v), σ)
    | some .car, .cons e .nil => do
      let (v, σ) ← eval H Γ tag e ρ σ
      some (← σ.cells.car v, σ)
    | some .cdr, .cons e .nil => do
      let (v, σ) ← eval H Γ tag e ρ σ
      some (← σ.cells.cdr v, σ)
    | some .setCdr, .cons a (.cons b .nil) => do
      let (w, σ) ← eval H Γ tag b ρ σ
      let (v, σ) ← eval H Γ tag a ρ σ
      match v with
      | .pair l => some (w, ⟨σ.cells.setCdr l w, σ.vars⟩)
      | _ => none
    | some .set, .cons (.id x) (.cons e .nil) => do
      let (v, σ) ← eval H Γ tag e ρ σ
      some (v, σ.set x v)
    | some .callWithValues, .cons (.cons (.id l) (.cons .nil (.cons e .nil))) (.cons c .nil) =>
      if Γ.kw l = some .lambda then do
        let (v, σ) ← eval H Γ tag e ρ σ
        let (xs, σ) ← operands tag v σ
        match c with
        | .id c => if Γ.kw c = some .list then some (xs, σ) else none
        | .cons (.id l) (.cons (.id y) (.cons body .nil)) =>
          if Γ.kw l = some .lambda then eval H Γ tag body (ρ.bind y xs) σ else none
        | _ => none
      else none
    | none, args => H (.cons (.id k) args) σ
    | _, _ => none
  | f, _, σ => H f σ

/-- A body: the value is that of the last expression (library/r7rs.ss L140-L142). -/
def evalBody (H : Host) (Γ : Ctx) (tag : Nat) : Form → Locals → State → Option (Value × State)
  | .cons e .nil, ρ, σ => eval H Γ tag e ρ σ
  | .cons e es, ρ, σ => do
    let (_, σ) ← eval H Γ tag e ρ σ
    evalBody H Γ tag es ρ σ
  | _, _, _ => none

end

/-- `(define identifier expression)` (library/r7rs.ss L131; src/kernel/syntactic_environment.cpp L323-L371). -/
def define (H : Host) (Γ : Ctx) (tag : Nat) : Form → State → Option State
  | .cons (.id k) (.cons (.id x) (.cons e .nil)), σ =>
    if Γ.kw k = some .define then do
      let (v, σ) ← eval H Γ tag e Locals.none σ
      some (σ.set x v)
    else none
  | _, _ => none

/-- Definitions one after the other (library/r7rs.ss L137-L146). -/
def defineAll (H : Host) (Γ : Ctx) (tag : Nat) : Form → State → Option State
  | .nil, σ => some σ
  | .cons d ds, σ => do
    let σ ← define H Γ tag d σ
    defineAll H Γ tag ds σ
  | _, _ => none

/-- What the macro leaves: `(begin definition ...)` or one definition (library/r7rs.ss L128-L159). -/
def exec (H : Host) (Γ : Ctx) (tag : Nat) : Form → State → Option State
  | .cons (.id k) args, σ =>
    if Γ.kw k = some .begin_ then defineAll H Γ tag args σ else define H Γ tag (.cons (.id k) args) σ
  | _, _ => none

/-- A use of `define-values`: it is expanded, and what remains is run (library/r7rs.ss L127-L159). -/
def Runs (H : Host) (Γ : Ctx) (tag : Nat) (U : Use) (form : Form) (σ : State) (r : Option State) : Prop :=
  ∃ fuel f, transform ⟨fun x y => x == y, 0, 1, [], fun _ => false⟩ U rules form fuel = some (.expansion f) ∧ exec H Γ tag f σ = r

end Meevax.DefineValues
