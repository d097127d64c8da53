import Verif.Model.LibraryMacros

/-!
Model of `case` (library/r4rs.ss L228-L251), `when`, `unless` and `letrec*` (library/r7rs.ss L102-L120): the
transformers as written, and what the forms that remain do.

Simplifications:
* The expressions of the user are opaque: functions of the environment and the store, that return or do not.
* The variable `result` that `case` inserts is never assigned; it is held by value, apart from the locations of the
  other variables.
* `memv` is only ever given a quoted constant; the constant is searched as a form.  Constants that are mutated are
  not modelled.
* In a body, `(define x e)` is an internal definition; `(define (f . formals) …)`, `begin` around definitions and
  macros that expand into definitions are not recognised.
* Continuations that the expressions capture are not modelled.
-/

namespace Meevax.Case

open Meevax.Rules

/-- Forms, as the expander sees them (library/r4rs.ss L228-L251). -/
abbrev Form := Meevax.Rules.Form

/-- What an inserted identifier can mean (library/r4rs.ss L228-L251; library/r7rs.ss L102-L120): `temp` is the
variable `result`. -/
inductive Kw where
  | if_
  | begin_
  | let_
  | eqv
  | memv
  | quote
  | not_
  | define
  | temp
  deriving DecidableEq

/-- The meaning of the symbols that the transformers rename (library/r4rs.ss L228-L251; library/r7rs.ss L102-L120).
0 if, 1 begin, 2 let, 3 eqv?, 4 memv, 5 quote, 6 not, 7 define, 8 result, 9 else, 10 =>. -/
def keyword (x : Nat) : Option Kw :=
  if x = 0 then some .if_
  else if x = 1 then some .begin_
  else if x = 2 then some .let_
  else if x = 3 then some .eqv
  else if x = 4 then some .memv
  else if x = 5 then some .quote
  else if x = 6 then some .not_
  else if x = 7 then some .define
  else if x = 8 then some .temp
  else none

/-- Where the form is used: which identifiers are made by renaming, what the identifiers mean, and the symbol under
the renaming (library/meevax.ss L31-L40).  Of the identifiers that are not made by renaming only `define` is told
from a variable: all other expressions of the user are opaque. -/
structure Ctx where
  made : Nat → Prop
  kw : Nat → Option Kw
  symbol : Nat → Nat
  user : ∀ x, ¬made x → (kw x = none ∨ kw x = some .define) ∧ symbol x = x

/-- The renaming of one use of a macro (library/meevax.ss L31-L38). -/
structure Fresh (Γ : Ctx) (U : Use) : Prop where
  made : ∀ x, Γ.made (U.rename x)
  injective : ∀ x y, U.rename x = U.rename y → x = y
  symbol : ∀ x, Γ.kw (U.rename x) = keyword x ∧ Γ.symbol (U.rename x) = x

/-! ### The transformers -/

/-- `(compare (rename 'k) x)` (library/r4rs.ss L233, L238; library/meevax.ss L39-L40): only identifiers are the same. -/
def is (U : Use) (k : Nat) : Form → Bool
  | .id x => U.compare (U.rename k) x
  | _ => false

/-- `body` (library/r4rs.ss L231-L234). -/
def body (U : Use) : Form → Option Form
  | .nil => some (.id (U.rename 8))
  | .cons x xs =>
    if is U 10 x then
      match xs with
      | .cons f _ => some (.ofList [f, .id (U.rename 8)])
      | _ => none
    else some (.cons (.id (U.rename 1)) (.cons x xs))
  | _ => none

/-- `each-clause` (library/r4rs.ss L235-L249): `(if #f #f)` is evaluated when the macro is expanded, and the object
that it returns is put in the form. -/
def eachClause (U : Use) : Form → Option Form
  | .nil => some .undefined
  | .cons (.cons data exprs) clauses =>
    if is U 9 data then body U exprs
    else
      match data with
      | .cons d .nil => do
        let b ← body U exprs
        let rest ← eachClause U clauses
        some (.ofList [.id (U.rename 0),
          .ofList [.id (U.rename 3), .id (U.rename 8), .ofList [.id (U.rename 5), d]], b, rest])
      | data => do
        let b ← body U exprs
        let rest ← eachClause U clauses
        some (.ofList [.id (U.rename 0),
          .ofList [.id (U.rename 4), .id (U.rename 8), .ofList [.id (U.rename 5), data]], b, rest])
  | _ => none

/-- `case` (library/r4rs.ss L228-L251). -/
def caseForm (U : Use) : Form → Option Form
  | .cons _ (.cons key clauses) => do
    let e ← eachClause U clauses
    some (.ofList [.id (U.rename 2), .ofList [.ofList [.id (U.rename 8), key]], e])
  | _ => none

/-- `when` (library/r7rs.ss L102-L106). -/
def whenForm (U : Use) : Form → Option Form
  | .cons _ (.cons test exprs) => some (.ofList [.id (U.rename 0), test, .cons (.id (U.rename 1)) exprs])
  | _ => none

/-- `unless` (library/r7rs.ss L108-L112). -/
def unlessForm (U : Use) : Form → Option Form
  | .cons _ (.cons test exprs) =>
    some (.ofList [.id (U.rename 0), .ofList [.id (U.rename 6), test], .cons (.id (U.rename 1)) exprs])
  | _ => none

/-- `(map (lambda (x) (cons (rename 'define) x)) (cadr form))`, before the body (library/r7rs.ss L118-L120). -/
def definitions (U : Use) : Form → Form → Option Form
  | .nil, exprs => some exprs
  | .cons b bs, exprs => do
    let rest ← definitions U bs exprs
    some (.cons (.cons (.id (U.rename 7)) b) rest)
  | _, _ => none

/-- `letrec*` (library/r7rs.ss L114-L120). -/
def letrecStarForm (U : Use) : Form → Option Form
  | .cons _ (.cons bindings exprs) => do
    let e ← definitions U bindings exprs
    some (.cons (.id (U.rename 2)) (.cons .nil e))
  | _ => none

/-! ### What remains -/

/-- The store (src/kernel/dynamic_environment.cpp L71-L120): what the locations of the variables hold, and the rest. -/
structure State (V S : Type) where
  locs : Nat → V
  next : Nat
  rest : S

/-- The objects, as far as `case` looks at them: `eqv?` (src/kernel/boot.cpp L116), the object that stands in the
text of the program (`datum`; a renamed identifier is a syntactic closure), whether an object is not `#f`
(src/kernel/dynamic_environment.cpp L234-L262), the unspecified object, and the call of a procedure. -/
structure Objects (V S : Type) where
  eqv : V → V → Bool
  datum : Form → V
  truth : V → Bool
  unspecified : V
  apply : V → List V → State V S → Option (V × State V S)

/-- The environment (src/kernel/syntactic_environment.cpp L91-L140): the locations of the variables, and the values
of the variables `result`. -/
structure Env (V : Type) where
  var : Nat → Option Nat
  tmp : Nat → Option V

/-- What an expression of the user does (library/r4rs.ss L250): return an object and leave a store, or not return. -/
abbrev Host (V S : Type) := Form → (Nat → Option Nat) → State V S → Option (V × State V S)

/-- `memv` (src/kernel/list.cpp L359-L376) in a quoted constant: the sublist, or `#f` (src/kernel/boot.cpp L179-L182). -/
def memv {V S} (O : Objects V S) (v : V) : Form → V
  | .cons a d => if O.eqv v (O.datum a) then O.datum (.cons a d) else memv O v d
  | _ => O.datum (.bool false)

/-- A quoted datum (src/kernel/generator.cpp L32-L37): if it is a syntactic closure, the form in it; renamed
identifiers inside a list are left as they are. -/
def quoted {V S} (O : Objects V S) (Γ : Ctx) : Form → V
  | .id x => O.datum (.id (Γ.symbol x))
  | d => O.datum d

/-- The variables of the internal definitions at the beginning of a body, each once
(src/kernel/syntactic_environment.cpp L203-L331). -/
def defined (Γ : Ctx) : List Nat → Form → List Nat
  | xs, .cons (.cons (.id k) (.cons (.id x) (.cons _ .nil))) rest =>
    if Γ.kw k = some .define then defined Γ (if x ∈ xs then xs else xs ++ [x]) rest else xs
  | xs, _ => xs

/-- A new location for each variable; they hold the empty list (src/kernel/expander.cpp L116-L128). -/
def alloc {V S} (junk : V) : List Nat → (Nat → Option Nat) → State V S → (Nat → Option Nat) × State V S
  | [], ρ, σ => (ρ, σ)
  | x :: xs, ρ, σ =>
    alloc junk xs (fun y => if y = x then some σ.next else ρ y)
      ⟨fun l => if l = σ.next then junk else σ.locs l, σ.next + 1, σ.rest⟩

/-- Assignment (src/kernel/dynamic_environment.cpp L398-L433). -/
def assign {V S} (ρ : Nat → Option Nat) (x : Nat) (v : V) (σ : State V S) : Option (State V S) :=
  (ρ x).map fun l => ⟨fun k => if k = l then v else σ.locs k, σ.next, σ.rest⟩

mutual

/-- Evaluation of what the transformers leave (library/r4rs.ss L228-L251; library/r7rs.ss L102-L120); a form that
does not begin with an inserted keyword, and is not a call with the inserted variable as operand, is an expression
of the user.  Operands are evaluated from the right and before the operator (src/kernel/generator.cpp L56-L72).
`none`: no result. -/
def eval {V S} (O : Objects V S) (H : Host V S) (Γ : Ctx) : Form → Env V → State V S → Option (V × State V S)
  | .undefined, _, σ => some (O.unspecified, σ)
  | .id x, ρ, σ => if Γ.kw x = some .temp then (ρ.tmp x).map (·, σ) else H (.id x) ρ.var σ
  | .cons (.id k) args, ρ, σ =>
    match Γ.kw k, args with
    | some .if_, .cons t (.cons c .nil) => do
      let (v, σ) ← eval O H Γ t ρ σ
      if O.truth v then eval O H Γ c ρ σ else some (O.unspecified, σ)
    | some .if_, .cons t (.cons c (.cons a .nil)) => do
      let (v, σ) ← eval O H Γ t ρ σ
      if O.truth v then eval O H Γ c ρ σ else eval O H Γ a ρ σ
    | some .begin_, es => evalSeq O H Γ false es ρ σ
    | some .let_, .cons .nil es =>
      let (var, σ) := alloc (O.datum .nil) (defined Γ [] es) ρ.var σ
      evalSeq O H Γ true es ⟨var, ρ.tmp⟩ σ
    | some .let_, .cons (.cons (.cons (.id x) (.cons e .nil)) .nil) (.cons b .nil) => do
      let (v, σ) ← eval O H Γ e ρ σ
      if Γ.kw x = some .temp then eval O H Γ b ⟨ρ.var, fun y => if y = x then some v else ρ.tmp y⟩ σ
      else
        let (var, σ) := alloc v [x] ρ.var σ
        eval O H Γ b ⟨var, ρ.tmp⟩ σ
    | some .eqv, .cons a (.cons b .nil) => do
      let (w, σ) ← eval O H Γ b ρ σ
      let (v, σ) ← eval O H Γ a ρ σ
      some (O.datum (.bool (O.eqv v w)), σ)
    | some .memv, .cons a (.cons (.cons (.id q) (.cons d .nil)) .nil) =>
      if Γ.kw q = some .quote then do
        let (v, σ) ← eval O H Γ a ρ σ
        match d with
        | .id _ => some (O.datum (.bool false), σ)
        | d => some (memv O v d, σ)
      else none
    | some .quote, .cons d .nil => some (quoted O Γ d, σ)
    | some .not_, .cons e .nil => do
      let (v, σ) ← eval O H Γ e ρ σ
      some (O.datum (.bool (!O.truth v)), σ)
    | none, .cons (.id r) .nil =>
      if Γ.kw r = some .temp then do
        let v ← ρ.tmp r
        let (f, σ) ← H (.id k) ρ.var σ
        O.apply f [v] σ
      else H (.cons (.id k) args) ρ.var σ
    | none, args => H (.cons (.id k) args) ρ.var σ
    | _, _ => none
  | .cons f (.cons (.id r) .nil), ρ, σ =>
    if Γ.kw r = some .temp then do
      let v ← ρ.tmp r
      let (f, σ) ← eval O H Γ f ρ σ
      O.apply f [v] σ
    else H (.cons f (.cons (.id r) .nil)) ρ.var σ
  | f, ρ, σ => H f ρ.var σ

/-- A sequence: the value is that of the last expression (src/kernel/generator.cpp L165-L214).  At the beginning of
a body (`true`) the internal definitions are assignments, in order (src/kernel/expander.cpp L86-L146). -/
def evalSeq {V S} (O : Objects V S) (H : Host V S) (Γ : Ctx) :
    Bool → Form → Env V → State V S → Option (V × State V S)
  | true, .cons (.cons (.id k) (.cons (.id x) (.cons e .nil))) es, ρ, σ =>
    if Γ.kw k = some .define then do
      let (v, σ) ← eval O H Γ e ρ σ
      let σ ← assign ρ.var x v σ
      evalSeq O H Γ true es ρ σ
    else
      match es with
      | .nil => eval O H Γ (.cons (.id k) (.cons (.id x) (.cons e .nil))) ρ σ
      | es => do
        let (_, σ) ← eval O H Γ (.cons (.id k) (.cons (.id x) (.cons e .nil))) ρ σ
        evalSeq O H Γ false es ρ σ
  | _, .cons e .nil, ρ, σ => eval O H Γ e ρ σ
  | _, .cons e es, ρ, σ => do
    let (_, σ) ← eval O H Γ e ρ σ
    evalSeq O H Γ false es ρ σ
  | _, _, _, _ => none

end

end Meevax.Case
