import Verif.Model.SyntaxRules

/-!
Model of macros of the libraries that are written with `syntax-rules`: `receive` (library/srfi-8.ss),
`let-values` and `let*-values` (library/srfi-11.ss), `case-lambda` (library/srfi-16.ss).

The rules are the text of the libraries.  A use of a macro is expanded by `transform`, the model of
`syntax-rules` (Model/SyntaxRules.lean), step by step, and `Core` gives the meaning of what remains.

Simplifications.
* The symbols of the texts are numbers, given at each rule.  The strings "bind", "mktmp" and "no matching
  clause" are `atom`s.
* What the user writes is not interpreted: `Host.body` gives the meaning of a body (or of an expression, a
  body of one expression), in any monad.  It may have any effects, and capture continuations if the monad has
  them.
* That the keywords and variables a macro inserts mean what they mean in the library, and that nothing
  captures them and they capture nothing, is hygiene, the subject of C53.  Here it is a condition on the
  renaming (`Fresh`): each renamed identifier is new, and has the meaning its symbol has in the library.
  (`rename` makes one new syntactic closure for each symbol and each use, library/meevax.ss L31-L38, and
  identifiers are bound by identity, src/kernel/syntactic_environment.cpp L141-L150.)
* An inserted variable is never assigned (no rule has `set!`), so its binding is the value.
-/

namespace Meevax.LibraryMacros

open Meevax.Rules

/-- Symbols and pattern variables of the rules
(library/srfi-8.ss L28-L30; library/srfi-11.ss L8-L31; library/srfi-16.ss L7-L22). -/
abbrev s (n : Nat) : Form := .id n

/-- The ellipsis `...` (library/srfi-8.ss L28). -/
abbrev dots : Form := .id 0

/-- A list with a given end (auxiliary to library/srfi-11.ss L22). -/
def Form.dotted : List Form → Form → Form
  | [], z => z
  | a :: d, z => .cons a (Form.dotted d z)

/-- The rule of `receive` (library/srfi-8.ss L26-L30).
5 call-with-values, 2 lambda, 8 receive; 20 formals, 21 expression, 22 body. -/
def receiveRules : List (Form × Form) :=
  [(.cons (s 8) (.cons (s 20) (.cons (s 21) (.cons (s 22) (.cons dots .nil)))),
    .ofList [s 5, .ofList [s 2, .nil, s 21], .cons (s 2) (.cons (s 20) (.cons (s 22) (.cons dots .nil)))])]

/-- The string "bind" (library/srfi-11.ss L9). -/
abbrev strBind : Form := .atom 0

/-- The string "mktmp" (library/srfi-11.ss L13). -/
abbrev strMktmp : Form := .atom 1

/-- The rules of `let-values` (library/srfi-11.ss L6-L24).
2 lambda, 3 let, 4 begin, 5 call-with-values, 6 let-values; 20 binding, 21 body0, 22 body1, 23 tmps, 24 body,
25 b0, 26 e0, 27 args, 28 bindings, 29 a, 30 b, 31 arg, 32 tmp, 33 x. -/
def letValuesRules : List (Form × Form) :=
  [ (.cons (s 6) (.cons (.cons (s 20) (.cons dots .nil)) (.cons (s 21) (.cons (s 22) (.cons dots .nil)))),
     .ofList [s 6, strBind, .cons (s 20) (.cons dots .nil), .nil,
       .cons (s 4) (.cons (s 21) (.cons (s 22) (.cons dots .nil)))]),
    (.ofList [s 6, strBind, .nil, s 23, s 24],
     .ofList [s 3, s 23, s 24]),
    (.ofList [s 6, strBind, .cons (.ofList [s 25, s 26]) (.cons (s 20) (.cons dots .nil)), s 23, s 24],
     .ofList [s 6, strMktmp, s 25, s 26, .nil, .cons (s 20) (.cons dots .nil), s 23, s 24]),
    (.ofList [s 6, strMktmp, .nil, s 26, s 27, s 28, s 23, s 24],
     .ofList [s 5, .ofList [s 2, .nil, s 26], .ofList [s 2, s 27, .ofList [s 6, strBind, s 28, s 23, s 24]]]),
    (.ofList [s 6, strMktmp, .cons (s 29) (s 30), s 26, .cons (s 31) (.cons dots .nil), s 28,
       .cons (s 32) (.cons dots .nil), s 24],
     .ofList [s 6, strMktmp, s 30, s 26, .cons (s 31) (.cons dots (.cons (s 33) .nil)), s 28,
       .cons (s 32) (.cons dots (.cons (.ofList [s 29, s 33]) .nil)), s 24]),
    (.ofList [s 6, strMktmp, s 29, s 26, .cons (s 31) (.cons dots .nil), s 28,
       .cons (s 32) (.cons dots .nil), s 24],
     .ofList [s 5, .ofList [s 2, .nil, s 26], .ofList [s 2, .cons (s 31) (.cons dots (s 33)),
       .ofList [s 6, strBind, s 28, .cons (s 32) (.cons dots (.cons (.ofList [s 29, s 33]) .nil)), s 24]]])]

/-- The rules of `let*-values` (library/srfi-11.ss L26-L31).
3 let, 6 let-values, 7 let*-values; 20 binding0, 21 binding1, 22 body0, 23 body1. -/
def letStarValuesRules : List (Form × Form) :=
  [ (.cons (s 7) (.cons .nil (.cons (s 22) (.cons (s 23) (.cons dots .nil)))),
     .cons (s 3) (.cons .nil (.cons (s 22) (.cons (s 23) (.cons dots .nil))))),
    (.cons (s 7) (.cons (.cons (s 20) (.cons (s 21) (.cons dots .nil))) (.cons (s 22) (.cons (s 23) (.cons dots .nil)))),
     .ofList [s 6, .ofList [s 20], .cons (s 7) (.cons (.cons (s 21) (.cons dots .nil))
       (.cons (s 22) (.cons (s 23) (.cons dots .nil))))])]

/-- The string "no matching clause" (library/srfi-16.ss L13). -/
abbrev strNoMatch : Form := .atom 2

/-- The rules of the local macro of `case-lambda`, as they stand in its template (library/srfi-16.ss L12-L21).
2 lambda, 9 if, 10 quote, 11 length, 12 =, 13 >=, 14 apply, 15 error, 41 `:::`; 42 args, 43 len, 44 cl, 45 p,
46 body, 47 rest, 48 tail. -/
def clauseRules : List (Form × Form) :=
  [ (.cons (s 44) .nil, .ofList [s 15, strNoMatch]),
    (.cons (s 44) (.cons (.cons (.cons (s 45) (.cons (s 41) .nil)) (s 46)) (s 47)),
     .ofList [s 9, .ofList [s 12, s 43, .ofList [s 11, .ofList [s 10, .cons (s 45) (.cons (s 41) .nil)]]],
       .ofList [s 14, .cons (s 2) (.cons (.cons (s 45) (.cons (s 41) .nil)) (s 46)), s 42],
       .cons (s 44) (s 47)]),
    (.cons (s 44) (.cons (.cons (.cons (s 45) (.cons (s 41) (s 48))) (s 46)) (s 47)),
     .ofList [s 9, .ofList [s 13, s 43, .ofList [s 11, .ofList [s 10, .cons (s 45) (.cons (s 41) .nil)]]],
       .ofList [s 14, .cons (s 2) (.cons (.cons (s 45) (.cons (s 41) (s 48))) (s 46)), s 42],
       .cons (s 44) (s 47)])]

/-- Rules as a list of forms `(pattern template)` (auxiliary to library/srfi-16.ss L11-L21). -/
def rulesForm : List (Form × Form) → Form
  | [] => .nil
  | r :: rs => .cons (.ofList [r.1, r.2]) (rulesForm rs)

/-- The rule of `case-lambda` (library/srfi-16.ss L5-L22).
2 lambda, 3 let, 11 length, 16 letrec-syntax, 17 syntax-rules, 18 case-lambda; 20 params, 21 body0. -/
def caseLambdaRules : List (Form × Form) :=
  [(.cons (s 18) (.cons (.cons (s 20) (.cons (s 21) (.cons dots .nil))) (.cons dots .nil)),
    .ofList [s 2, s 42, .ofList [s 3, .ofList [.ofList [s 43, .ofList [s 11, s 42]]],
      .ofList [s 16, .ofList [.ofList [s 44, .cons (s 17) (.cons (s 41) (.cons .nil (rulesForm clauseRules)))]],
        .cons (s 44) (.cons (.cons (s 20) (.cons (s 21) (.cons dots .nil))) (.cons dots .nil))]]])]

/-- Procedures the rules call (library/srfi-8.ss L29; library/srfi-11.ss L15; library/srfi-16.ss L9-L20). -/
inductive Prim where
  | length
  | numEq
  | numGe
  | error
  deriving DecidableEq

/-- What an inserted identifier can mean, besides being a variable
(library/srfi-8.ss L29-L30; library/srfi-11.ss L9-L31; library/srfi-16.ss L8-L22). -/
inductive Kw where
  | lambda
  | let_
  | begin_
  | if_
  | quote
  | callWithValues
  | apply
  | letrecSyntax
  | syntaxRules
  | prim (p : Prim)
  /-- A macro made by `syntax-rules` with this ellipsis and these rules. -/
  | rules (ellipsis : Nat) (rs : List (Form × Form))

/-- The meaning of the symbols of the rules in the libraries
(library/srfi-8.ss L29-L30; library/srfi-11.ss L9-L31; library/srfi-16.ss L8-L22). -/
def keyword (x : Nat) : Option Kw :=
  if x = 2 then some .lambda
  else if x = 3 then some .let_
  else if x = 4 then some .begin_
  else if x = 5 then some .callWithValues
  else if x = 6 then some (.rules 0 letValuesRules)
  else if x = 7 then some (.rules 0 letStarValuesRules)
  else if x = 9 then some .if_
  else if x = 10 then some .quote
  else if x = 11 then some (.prim .length)
  else if x = 12 then some (.prim .numEq)
  else if x = 13 then some (.prim .numGe)
  else if x = 14 then some .apply
  else if x = 15 then some (.prim .error)
  else if x = 16 then some .letrecSyntax
  else if x = 17 then some .syntaxRules
  else none

/-- Where the macros are used: which identifiers are made by renaming, what they mean, and the variable an
identifier stands for (library/meevax.ss L31-L40). -/
structure Ctx where
  made : Nat → Prop
  kw : Nat → Option Kw
  var : Nat → Nat

/-- The identifiers that occur in a form (auxiliary to library/meevax.ss L31-L38). -/
def idsOf : Form → List Nat
  | .id x => [x]
  | .cons a d => idsOf a ++ idsOf d
  | .vec xs => idsOf xs
  | _ => []

/-- The user wrote the form: nothing in it was made by renaming (auxiliary to library/meevax.ss L31-L38). -/
def Ctx.User (Γ : Ctx) (f : Form) : Prop := ∀ x ∈ idsOf f, ¬Γ.made x

/-- The renaming of one use of a macro (library/meevax.ss L31-L38): one new identifier for each identifier of
the template.  A renamed symbol has the meaning of the symbol in the library, or is a variable of its own; an
identifier that is already renamed (in a macro that a macro defines) keeps its meaning. -/
structure Fresh (Γ : Ctx) (U : Use) (form : Form) : Prop where
  made : ∀ x, Γ.made (U.rename x)
  injective : ∀ x y, U.rename x = U.rename y → x = y
  fresh : ∀ x, U.rename x ∉ idsOf form
  symbol : ∀ x, ¬Γ.made x → Γ.kw (U.rename x) = keyword x ∧ Γ.var (U.rename x) = U.rename x
  again : ∀ x, Γ.made x → Γ.kw (U.rename x) = Γ.kw x ∧ Γ.var (U.rename x) = Γ.var x

/-- `(letrec-syntax ((x (syntax-rules e () rule ...))) …)`: `x`, and all that stands for it, is the macro
(library/srfi-16.ss L10-L11). -/
def Ctx.define (Γ : Ctx) (x : Nat) (k : Kw) : Ctx where
  made := Γ.made
  kw y := if Γ.var y = Γ.var x then some k else Γ.kw y
  var := Γ.var

/-- What bound identifiers are bound to (the environment of src/kernel/dynamic_environment.cpp L71-L120). -/
abbrev Env (V : Type) := Nat → V

/-- The binding of one more identifier (the environment of src/kernel/dynamic_environment.cpp L71-L120). -/
def Env.set {V : Type} (ρ : Env V) (x : Nat) (v : V) : Env V := fun y => if y = x then v else ρ y

/-- The meaning of what the user writes, and of the procedures the rules call
(library/srfi-8.ss L30; library/srfi-11.ss L9; library/srfi-16.ss L16). -/
structure Host (m : Type → Type) (V : Type) where
  /-- A body in an environment. -/
  body : List Form → Env V → m V
  /-- The values a continuation made by `call-with-values` receives. -/
  vals : V → List V
  /-- A new list of the values. -/
  list : List V → m V
  /-- The elements of a list. -/
  items : V → m (List V)
  /-- What an identifier is bound to when a procedure binds it to the value. -/
  enter : Nat → V → m V
  /-- A procedure that requires so many arguments, and takes more or not, is called with other ones. -/
  wrong : Nat → Bool → List V → m V
  /-- A constant. -/
  const : Form → V
  /-- A procedure. -/
  prim : Prim → List V → m V
  /-- Whether a value counts as true. -/
  truth : V → Bool

variable {m : Type → Type} [Monad m] {V : Type}

/-- The number of required arguments and whether there are others: `(x ...)`, `(x ... . y)` or `y`
(library/srfi-16.ss L14-L20). -/
def arity : Form → Nat × Bool
  | .cons _ d => ((arity d).1 + 1, (arity d).2)
  | .id _ => (0, true)
  | _ => (0, false)

/-- Formals and arguments: the required ones, and the variable and the list of the others
(how formals find their values, src/kernel/dynamic_environment.cpp L71-L120). -/
def split : Form → List V → Option (List (Nat × V) × Option (Nat × List V))
  | .nil, [] => some ([], none)
  | .id x, vs => some ([], some (x, vs))
  | .cons (.id x) d, v :: vs => (split d vs).map fun r => ((x, v) :: r.1, r.2)
  | _, _ => none

/-- The other arguments in a new list (src/kernel/dynamic_environment.cpp L98-L120). -/
def withRest (H : Host m V) (r : List (Nat × V) × Option (Nat × List V)) : m (List (Nat × V)) :=
  match r.2 with
  | none => pure r.1
  | some (x, vs) => do
    let l ← H.list vs
    pure (r.1 ++ [(x, l)])

/-- A body with more bindings (auxiliary to library/srfi-8.ss L30). -/
def bindAll (H : Host m V) : List (Nat × V) → Env V → (Env V → m V) → m V
  | [], ρ, b => b ρ
  | (x, v) :: bs, ρ, b => do
    let c ← H.enter x v
    bindAll H bs (ρ.set x c) b

/-- The call of `(lambda formals body)` with arguments (src/kernel/syntactic_environment.cpp L434 ff.; the
machine: Model/Machine.lean). -/
def call (H : Host m V) (formals : Form) (b : Env V → m V) (ρ : Env V) (vs : List V) : m V :=
  match split formals vs with
  | none => H.wrong (arity formals).1 (arity formals).2 vs
  | some r => do
    let bs ← withRest H r
    bindAll H bs ρ b

/-- Operands are evaluated from the right (Model/Generator.lean) (src/kernel/generator.cpp L56-L72). -/
def operands (ds : List (Env V → m V)) (ρ : Env V) : m (List V) :=
  match ds with
  | [] => pure []
  | d :: ds => do
    let vs ← operands ds ρ
    let v ← d ρ
    pure (v :: vs)

mutual

/-- The meaning of an expression in which inserted identifiers occur
(what is left of library/srfi-8.ss L29-L30, library/srfi-11.ss L11-L23, library/srfi-16.ss L8-L22 after expansion). -/
inductive Core (H : Host m V) : Ctx → Form → (Env V → m V) → Prop
  /-- An expression of the user. -/
  | user {Γ f} : Γ.User f → Core H Γ f (H.body [f])
  /-- An inserted variable. -/
  | var {Γ x} : Γ.made x → Γ.kw x = none → Core H Γ (.id x) (fun ρ => pure (ρ (Γ.var x)))
  /-- `(quote datum)`. -/
  | quote {Γ k f} : Γ.made k → Γ.kw k = some .quote →
      Core H Γ (.cons (.id k) (.cons f .nil)) (fun _ => pure (H.const f))
  /-- `(if test consequent alternate)`. -/
  | if_ {Γ k t a b T A B} : Γ.made k → Γ.kw k = some .if_ → Core H Γ t T → Core H Γ a A → Core H Γ b B →
      Core H Γ (.cons (.id k) (.cons t (.cons a (.cons b .nil)))) (fun ρ => do
        let v ← T ρ
        if H.truth v then A ρ else B ρ)
  /-- `(let ((x init) ...) body)`. -/
  | let_ {Γ k bs xs ds body B} : Γ.made k → Γ.kw k = some .let_ → Inits H Γ bs xs ds → Body H Γ body B →
      Core H Γ (.cons (.id k) (.cons bs body)) (fun ρ => do
        let vs ← operands ds ρ
        bindAll H (xs.zip vs) ρ B)
  /-- `(call-with-values producer consumer)` (library/meevax.ss; C54). -/
  | callWithValues {Γ k p c P C} : Γ.made k → Γ.kw k = some .callWithValues → Proc H Γ p P → Proc H Γ c C →
      Core H Γ (.cons (.id k) (.cons p (.cons c .nil))) (fun ρ => do
        let r ← P ρ []
        C ρ (H.vals r))
  /-- `(apply procedure list)`. -/
  | apply {Γ k p a P A} : Γ.made k → Γ.kw k = some .apply → Proc H Γ p P → Core H Γ a A →
      Core H Γ (.cons (.id k) (.cons p (.cons a .nil))) (fun ρ => do
        let l ← A ρ
        let vs ← H.items l
        P ρ vs)
  /-- A call of a procedure of the library. -/
  | prim {Γ k p args ds} : Γ.made k → Γ.kw k = some (.prim p) → Cores H Γ args ds →
      Core H Γ (.cons (.id k) args) (fun ρ => do
        let vs ← operands ds ρ
        H.prim p vs)
  /-- `(letrec-syntax ((x (syntax-rules e () rule ...))) body)`. -/
  | letrecSyntax {Γ k q x e rs body d} : Γ.made k → Γ.kw k = some .letrecSyntax → Γ.made q →
      Γ.kw q = some .syntaxRules → Core H (Γ.define x (.rules e rs)) body d →
      Core H Γ (.cons (.id k) (.cons (.cons (.cons (.id x)
        (.cons (.cons (.id q) (.cons (.id e) (.cons .nil (rulesForm rs)))) .nil)) .nil) (.cons body .nil))) d
  /-- A use of a macro. No pattern variable counts as inserted: the one macro defined by an expansion, `cl` of
  library/srfi-16.ss L11-L21, has an ellipsis only after an identifier, where it makes no difference. -/
  | use {Γ U k e rs args fuel f d} : Γ.made k → Γ.kw k = some (.rules e rs) → Fresh Γ U (.cons (.id k) args) →
      transform ⟨fun x y => x == y, e, 1, [], fun _ => false⟩ U rs (.cons (.id k) args) fuel = some (.expansion f) →
      Core H Γ f d → Core H Γ (.cons (.id k) args) d

/-- The meaning of the operands of a call (as `Core`, library/srfi-8.ss L29). -/
inductive Cores (H : Host m V) : Ctx → Form → List (Env V → m V) → Prop
  | nil {Γ} : Cores H Γ .nil []
  | cons {Γ a as d ds} : Core H Γ a d → Cores H Γ as ds → Cores H Γ (.cons a as) (d :: ds)

/-- The meaning of a lambda expression (as `Core`, library/srfi-8.ss L30). -/
inductive Proc (H : Host m V) : Ctx → Form → (Env V → List V → m V) → Prop
  | lambda {Γ k formals body B} : Γ.made k → Γ.kw k = some .lambda → Body H Γ body B →
      Proc H Γ (.cons (.id k) (.cons formals body)) (call H formals B)

/-- The meaning of a body (as `Core`, library/srfi-11.ss L9). -/
inductive Body (H : Host m V) : Ctx → Form → (Env V → m V) → Prop
  /-- A body of the user. -/
  | user {Γ fs} : Γ.User (.ofList fs) → Body H Γ (.ofList fs) (H.body fs)
  /-- `begin` in a body is replaced by what it contains (src/kernel/syntactic_environment.cpp L268 ff.). -/
  | begin_ {Γ k body B} : Γ.made k → Γ.kw k = some .begin_ → Body H Γ body B →
      Body H Γ (.cons (.cons (.id k) body) .nil) B
  /-- One expression. -/
  | one {Γ f d} : Core H Γ f d → Body H Γ (.cons f .nil) d

/-- The bindings of `let`: the identifiers and the meanings of the expressions (library/srfi-11.ss L11). -/
inductive Inits (H : Host m V) : Ctx → Form → List Nat → List (Env V → m V) → Prop
  | nil {Γ} : Inits H Γ .nil [] []
  | cons {Γ x e bs d xs ds} : Core H Γ e d → Inits H Γ bs xs ds →
      Inits H Γ (.cons (.cons (.id x) (.cons e .nil)) bs) (x :: xs) (d :: ds)

end

/-- The meaning of a use, by the user, of a macro with these rules: it is expanded, and what remains has the
meaning (library/srfi-8.ss L26-L30). -/
def Means (H : Host m V) (Γ : Ctx) (rules : List (Form × Form)) (form : Form) (d : Env V → m V) : Prop :=
  ∃ U fuel f, Fresh Γ U form ∧ transform ⟨fun x y => x == y, 0, 1, [], fun _ => false⟩ U rules form fuel = some (.expansion f) ∧
    Core H Γ f d

/-- `Means`, where the macro makes a procedure (library/srfi-16.ss L5-L22). -/
def MeansProc (H : Host m V) (Γ : Ctx) (rules : List (Form × Form)) (form : Form) (p : Env V → List V → m V) : Prop :=
  ∃ U fuel f, Fresh Γ U form ∧ transform ⟨fun x y => x == y, 0, 1, [], fun _ => false⟩ U rules form fuel = some (.expansion f) ∧
    Proc H Γ f p

end Meevax.LibraryMacros
