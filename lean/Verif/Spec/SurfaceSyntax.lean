import Verif.Model.DerivedForms
import Verif.Spec.Hygiene
import Verif.Spec.Scheme
import Verif.Spec.Surface

/-!
Which expression of Spec/Surface.lean a form of the program is: the concrete syntax of R7RS 4.1 and 4.2,
with lexical scope.  There are no macros here.  The keywords of derived expression types are the global
bindings that hold the transformers of the library.
-/

namespace Meevax.Expand.Spec

open Secd (Name)
open Surface (Expr)

/-- The global variable of a name. -/
def Ctx.index (C : Ctx) (x : Name) : Nat := (C.globals x).getD (C.fresh x)

/-- The keyword a symbol is at the outermost level. -/
def Ctx.symbol (C : Ctx) (x : Name) : Option Keyword := (C.globals x).bind C.value

/-- The symbol stands for the keyword: it has no lexical binding, and globally it is the keyword. -/
def Ctx.Is (C : Ctx) (sc : Scheme.Scopes) (q : Name) (k : Keyword) : Prop :=
  q ∉ Scheme.names sc ∧ C.symbol q = some k

/-- The name is a fixed parameter of some enclosing procedure. -/
def boundIn (x : Name) (sc : Scheme.Scopes) : Prop := ∃ f ∈ sc, x ∈ f.1

/-- The name is a parameter, and a fixed parameter further out. -/
def reboundIn (x : Name) : Scheme.Scopes → Prop
  | [] => False
  | f :: sc => (x ∈ f.1 ++ f.2.toList ∧ boundIn x sc) ∨ reboundIn x sc

/-- Formals the expander binds properly (`Bindable` of Spec/Hygiene.lean): they are different, and a name
that is a keyword globally does not shadow another parameter. -/
def Ctx.Binds (C : Ctx) (sc : Scheme.Scopes) (xs : List Name) : Prop :=
  xs.Nodup ∧ ∀ x ∈ xs, C.symbol x ≠ none → ¬ boundIn x sc

/-- Names the expander binds properly in `letrec` (`Definable` of Spec/Hygiene.lean): they are different, not
keywords, and do not shadow a parameter. -/
def Ctx.Defines (C : Ctx) (sc : Scheme.Scopes) (xs : List Name) : Prop :=
  xs.Nodup ∧ ∀ x ∈ xs, C.symbol x = none ∧ ¬ boundIn x sc

/-- `(x ...)` and `(x ... . rest)`. -/
def formals : List Name → Option Name → Form
  | [], none => .nil
  | [], some r => .sym r
  | x :: fs, rest => .cons (.sym x) (formals fs rest)

/-- `((x e) ...)` -/
def bindings (xs : List Name) (es : List Form) : Form :=
  .ofList (List.zipWith (fun x e => Form.ofList [.sym x, e]) xs es)

/-- `(x e step)`, or `(x e)`. -/
def doSpec : Name × Form × Option Form → Form
  | (x, e, none) => .ofList [.sym x, e]
  | (x, e, some s) => .ofList [.sym x, e, s]

/-- The step of a variable; without one the variable keeps its value. -/
def stepOf : Name × Form × Option Form → Form
  | (x, _, none) => .sym x
  | (_, _, some s) => s

/-- The body of a procedure that begins with definitions (R7RS 5.3.2): the variables are bound to new locations,
and then assigned in order.  A program that refers to one of them before it is assigned is in error; here the
variable is the empty list until then. -/
def internal (xs : List Name) (es bs : List Expr) : Expr :=
  .let_ xs (xs.map fun _ => .const .nil) (Surface.sequence (List.zipWith Expr.set xs es ++ bs))

/-- The forms of a body are `ds` and then `es`, after some of the `begin` forms at the front have been replaced by
what is in them (R7RS 4.2.3). -/
inductive Ctx.Splices (C : Ctx) (sc : Scheme.Scopes) : List Form → List Form → List Form → Prop where
  | stop {es} : Ctx.Splices C sc es [] es
  | form {d fs ds es} : Ctx.Splices C sc fs ds es → Ctx.Splices C sc (d :: fs) (d :: ds) es
  | begin {q ys zs ds es} : C.Is sc q (.syn .begin) → Ctx.Splices C sc (ys ++ zs) ds es →
    Ctx.Splices C sc (.cons (.sym q) (.ofList ys) :: zs) ds es

/-- What is read: an expression; a list of expressions; the body of a procedure; definitions of variables at
the beginning of a body; and what follows the keyword in `cond`, `and`, `or`
and `let*`. -/
inductive Phrase where
  | expr (e : Expr)
  | list (es : List Expr)
  | body (e : Expr)
  | defs (xs : List Name) (es : List Expr)
  | cond (e : Expr)
  | and (e : Expr)
  | or (e : Expr)
  | letStar (e : Expr)

/-- `Reads C ids sc form p`: in the scope `sc`, the form is the phrase `p`.  The transformers of the library
have the numbers `ids`. -/
inductive Reads (C : Ctx) (ids : Macro → Nat) : Scheme.Scopes → Form → Phrase → Prop where
  | var {sc x} : x ∈ Scheme.names sc ∨ C.value (C.index x) = none →
    Reads C ids sc (.sym x) (.expr (.var x))
  | const {sc d c} : d.isIdentifier = false → (∀ a b, d ≠ .cons a b) → toDatum d = some c →
    Reads C ids sc d (.expr (.const c))
  | quote {sc q d c} : C.Is sc q (.syn .quote) → toDatum d = some c →
    Reads C ids sc (.ofList [.sym q, d]) (.expr (.const c))
  | lam {sc q fs rest body e} : C.Is sc q (.syn .lambda) → C.Binds sc (fs ++ rest.toList) →
    Reads C ids ((fs, rest) :: sc) body (.body e) →
    Reads C ids sc (.cons (.sym q) (.cons (formals fs rest) body)) (.expr (.lam fs rest e))
  | app {sc a d f args} : Reads C ids sc a (.expr f) → Reads C ids sc d (.list args) →
    Reads C ids sc (.cons a d) (.expr (.app f args))
  | when {sc q a b ea eb} : C.Is sc q (.syn .cond) → Reads C ids sc a (.expr ea) →
    Reads C ids sc b (.expr eb) →
    Reads C ids sc (.ofList [.sym q, a, b]) (.expr (.ite ea eb (.const .unspecified)))
  | ite {sc q a b c ea eb ec} : C.Is sc q (.syn .cond) → Reads C ids sc a (.expr ea) →
    Reads C ids sc b (.expr eb) → Reads C ids sc c (.expr ec) →
    Reads C ids sc (.ofList [.sym q, a, b, c]) (.expr (.ite ea eb ec))
  | set {sc q x a e} : C.Is sc q (.syn .set) → Reads C ids sc a (.expr e) →
    Reads C ids sc (.ofList [.sym q, .sym x, a]) (.expr (.set x e))
  | begin {sc q d es} : C.Is sc q (.syn .begin) → Reads C ids sc d (.list es) → es ≠ [] →
    Reads C ids sc (.cons (.sym q) d) (.expr (Surface.sequence es))
  | letrec {sc q xs fs body es e} : C.Is sc q (.syn .letrec) → C.Defines sc xs → xs.length = fs.length →
    Reads C ids ((xs, none) :: sc) (.ofList fs) (.list es) →
    Reads C ids ((xs, none) :: sc) body (.body e) →
    Reads C ids sc (.cons (.sym q) (.cons (bindings xs fs) body)) (.expr (.letrec xs es e))
  -- derived expression types
  | cond {sc q d e} : C.Is sc q (.transformer (ids .cond)) → Reads C ids sc d (.cond e) →
    Reads C ids sc (.cons (.sym q) d) (.expr e)
  | and {sc q d e} : C.Is sc q (.transformer (ids .and)) → Reads C ids sc d (.and e) →
    Reads C ids sc (.cons (.sym q) d) (.expr e)
  | or {sc q d e} : C.Is sc q (.transformer (ids .or)) → Reads C ids sc d (.or e) →
    Reads C ids sc (.cons (.sym q) d) (.expr e)
  | letStar {sc q d e} : C.Is sc q (.transformer (ids .letStar)) → Reads C ids sc d (.letStar e) →
    Reads C ids sc (.cons (.sym q) d) (.expr e)
  | let_ {sc q xs fs body es e} : C.Is sc q (.transformer (ids .let_)) → C.Binds sc xs →
    xs.length = fs.length → Reads C ids sc (.ofList fs) (.list es) →
    Reads C ids ((xs, none) :: sc) body (.body e) →
    Reads C ids sc (.cons (.sym q) (.cons (bindings xs fs) body)) (.expr (.let_ xs es e))
  /-- the initial values are outside the scope of the name -/
  | named {sc q f xs fs body es e} : C.Is sc q (.transformer (ids .let_)) → C.Defines sc [f] →
    f ≠ elseName → f ≠ arrowName → C.Binds (([f], none) :: sc) xs →
    xs.length = fs.length → Reads C ids sc (.ofList fs) (.list es) →
    Reads C ids ((xs, none) :: ([f], none) :: sc) body (.body e) →
    Reads C ids sc (.cons (.sym q) (.cons (.sym f) (.cons (bindings xs fs) body)))
      (.expr (.named f xs es e))
  | do_ {sc q} {specs : List (Name × Form × Option Form)} {test res commands es ss et rs cs} : C.Is sc q (.transformer (ids .do_)) →
    C.Binds sc (specs.map Prod.fst) →
    Reads C ids sc (.ofList (specs.map fun s => s.2.1)) (.list es) →
    Reads C ids ((specs.map Prod.fst, none) :: sc) (.ofList (specs.map stepOf)) (.list ss) →
    Reads C ids ((specs.map Prod.fst, none) :: sc) test (.expr et) →
    Reads C ids ((specs.map Prod.fst, none) :: sc) (.ofList res) (.list rs) →
    Reads C ids ((specs.map Prod.fst, none) :: sc) (.ofList commands) (.list cs) →
    Reads C ids sc
      (.cons (.sym q) (.cons (.ofList (specs.map doSpec)) (.cons (.cons test (.ofList res)) (.ofList commands))))
      (.expr (.loop (specs.map Prod.fst) es ss et rs cs))
  -- lists of expressions
  | nil {sc} : Reads C ids sc .nil (.list [])
  | cons {sc a d e es} : Reads C ids sc a (.expr e) → Reads C ids sc d (.list es) →
    Reads C ids sc (.cons a d) (.list (e :: es))
  -- bodies
  | exprs {sc d es} : Reads C ids sc d (.list es) → es ≠ [] → Reads C ids sc d (.body (Surface.sequence es))
  /-- definitions and expressions; `begin` forms around the definitions or right after them are spliced -/
  | internal {sc xs fs ds b bs es e es' d} : d = .ofList fs → C.Splices ((xs, none) :: sc) fs ds (b :: bs) →
    ds ≠ [] → C.Defines sc xs →
    Reads C ids ((xs, none) :: sc) (.ofList ds) (.defs xs es) →
    (∀ q d, b = .cons (.sym q) d → ¬ C.Is ((xs, none) :: sc) q (.syn .begin)) →
    Reads C ids ((xs, none) :: sc) b (.expr e) → Reads C ids ((xs, none) :: sc) (.ofList bs) (.list es') →
    Reads C ids sc d (.body (internal xs es (e :: es')))
  | defsNil {sc} : Reads C ids sc .nil (.defs [] [])
  | defsVar {sc q x a d e xs es} : C.Is sc q (.syn .define) → Reads C ids sc a (.expr e) →
    Reads C ids sc d (.defs xs es) →
    Reads C ids sc (.cons (.ofList [.sym q, .sym x, a]) d) (.defs (x :: xs) (e :: es))
  | defsFun {sc q x fs rest body d e xs es} : C.Is sc q (.syn .define) → C.Binds sc (fs ++ rest.toList) →
    Reads C ids ((fs, rest) :: sc) body (.body e) → Reads C ids sc d (.defs xs es) →
    Reads C ids sc (.cons (.cons (.sym q) (.cons (.cons (.sym x) (formals fs rest)) body)) d)
      (.defs (x :: xs) (.lam fs rest e :: es))
  -- the clauses of `cond`
  | condNil {sc} : Reads C ids sc .nil (.cond (.const .unspecified))
  | condElse {sc body es} : elseName ∉ Scheme.names sc → Reads C ids sc body (.list es) → es ≠ [] →
    Reads C ids sc (.ofList [.cons (.sym elseName) body]) (.cond (Surface.sequence es))
  | condTest {sc a d ea ed} : a ≠ .sym elseName → Reads C ids sc a (.expr ea) →
    Reads C ids sc d (.cond ed) →
    Reads C ids sc (.cons (.ofList [a]) d) (.cond (.orElse ea ed))
  | condArrow {sc a f d ea ef ed} : a ≠ .sym elseName → arrowName ∉ Scheme.names sc →
    Reads C ids sc a (.expr ea) → Reads C ids sc f (.expr ef) → Reads C ids sc d (.cond ed) →
    Reads C ids sc (.cons (.ofList [a, .sym arrowName, f]) d) (.cond (.arrow ea ef ed))
  | condBody {sc a b bs d ea es ed} : a ≠ .sym elseName → b ≠ .sym arrowName →
    Reads C ids sc a (.expr ea) → Reads C ids sc (.cons b bs) (.list es) → Reads C ids sc d (.cond ed) →
    Reads C ids sc (.cons (.cons a (.cons b bs)) d) (.cond (.ite ea (Surface.sequence es) ed))
  -- the operands of `and`; a parameter that shadows another one is not the only one
  | andNil {sc} : Reads C ids sc .nil (.and (.const (.bool true)))
  | andOne {sc a e} : (∀ x, a = .sym x → ¬ reboundIn x sc) → Reads C ids sc a (.expr e) →
    Reads C ids sc (.ofList [a]) (.and e)
  | andCons {sc a b d ea ed} : Reads C ids sc a (.expr ea) → Reads C ids sc (.cons b d) (.and ed) →
    Reads C ids sc (.cons a (.cons b d)) (.and (.ite ea ed (.const (.bool false))))
  -- the operands of `or`
  | orNil {sc} : Reads C ids sc .nil (.or (.const (.bool false)))
  | orOne {sc a e} : (∀ x, a = .sym x → ¬ reboundIn x sc) → Reads C ids sc a (.expr e) →
    Reads C ids sc (.ofList [a]) (.or e)
  | orCons {sc a b d ea ed} : Reads C ids sc a (.expr ea) → Reads C ids sc (.cons b d) (.or ed) →
    Reads C ids sc (.cons a (.cons b d)) (.or (.orElse ea ed))
  -- the bindings and the body of `let*`
  | letStarNil {sc body e} : Reads C ids (([], none) :: sc) body (.body e) →
    Reads C ids sc (.cons .nil body) (.letStar (.let_ [] [] e))
  | letStarCons {sc x a d body ea e} : C.Binds sc [x] → Reads C ids sc a (.expr ea) →
    Reads C ids (([x], none) :: sc) (.cons d body) (.letStar e) →
    Reads C ids sc (.cons (.cons (.ofList [.sym x, a]) d) body) (.letStar (.let_ [x] [ea] e))

/-- The derived expression types of the library: the keywords their transformers use are bound where the
library is defined (`home`), and their temporary variables are not keywords there. -/
structure Library (C : Ctx) (home : Nat) (ids : Macro → Nat) : Prop where
  lambda : (C.env home lambdaName).bind C.value = some (.syn .lambda)
  cond : (C.env home ifName).bind C.value = some (.syn .cond)
  letrec : (C.env home letrecName).bind C.value = some (.syn .letrec)
  begin : (C.env home beginName).bind C.value = some (.syn .begin)
  macros : ∀ k : Macro, (C.env home k.name).bind C.value = some (.transformer (ids k))
  place : ∀ k : Macro, C.home (ids k) = home
  template : ∀ k : Macro, C.template (ids k) = k.template
  result : (C.env home resultName).bind C.value = none
  rec_ : (C.env home recName).bind C.value = none
  it : (C.env home itName).bind C.value = none

end Meevax.Expand.Spec
