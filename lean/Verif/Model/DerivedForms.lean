import Verif.Model.Expander

/-!
The derived expression types of library/r4rs.ss: what the transformers of `cond`, `and`, `or`, `let`,
`let*` and `do` build.

Simplifications.
* The bodies of the transformers are Scheme; here they are functions from the form to a template (see
  Model/Expander.lean).  The objects that `rename` makes are numbered from left to right in the result;
  the order in which a transformer really makes them cannot be observed.
* `compare` of library/meevax.ss L39-L40 with `(rename 'else)` or `(rename '=>)` is equality with the symbol
  `else` or `=>`.  The two agree where the symbol has no lexical binding and the same global binding
  (none, or an imported one) as in the library; the theorems exclude other uses of the two symbols.
* Where `car`, `cdr` or `map` raises an exception on a form that is not well formed, the result is `()`.
* `case` is in Model/Case.lean, `quasiquote` in Model/Quasiquote.lean.
-/

namespace Meevax.Expand

open Secd (Name)

/-- The symbols that the library mentions, as numbers; `lambdaName` is another one (library/r4rs.ss L91-L226). -/
def ifName : Name := 2
/-- `letrec` (library/r4rs.ss L191). -/
def letrecName : Name := 5
/-- `begin` (library/r4rs.ss L98). -/
def beginName : Name := 6
/-- `cond` (library/r4rs.ss L91). -/
def condName : Name := 7
/-- `and` (library/r4rs.ss L118). -/
def andName : Name := 8
/-- `or` (library/r4rs.ss L130). -/
def orName : Name := 9
/-- `let` (library/r4rs.ss L187). -/
def letName : Name := 10
/-- `let*` (library/r4rs.ss L197). -/
def letStarName : Name := 11
/-- `do` (library/r4rs.ss L206). -/
def doName : Name := 12
/-- `else` (library/r4rs.ss L97). -/
def elseName : Name := 13
/-- `=>` (library/r4rs.ss L100). -/
def arrowName : Name := 14
/-- `result` (library/r4rs.ss L102). -/
def resultName : Name := 15
/-- `rec` (library/r4rs.ss L210). -/
def recName : Name := 16
/-- `it` (library/r4rs.ss L220). -/
def itName : Name := 17

/-- `(list a ...)` of renamed identifiers and pieces of the form (auxiliary to library/r4rs.ss L91-L226). -/
def tlist : List Template → Template
  | [] => .use .nil
  | a :: d => .pair a (tlist d)

/-- `(rename 'x)` (auxiliary to library/r4rs.ss L91-L226). -/
def rsym (x : Name) : Template := .insert (.sym x)

/-- `(cons (rename 'x) d)` (auxiliary to library/r4rs.ss L91-L226). -/
def rcons (x : Name) (d : Form) : Template := .pair (rsym x) (.use d)

/-- The expression for a clause without body or with `=>` (r4rs.ss L101-L110). -/
def condResult (test : Form) (consequent : Template) (clauses : Form) : Template :=
  tlist [tlist [rsym lambdaName, tlist [rsym resultName],
    tlist [rsym ifName, rsym resultName, consequent, rcons condName clauses]], .use test]

/-- `cond` (r4rs.ss L91-L115). -/
def condTemplate : Form → Template
  | .cons _ .nil => .use .unspecified
  | .cons _ (.cons (.cons test rest) clauses) =>
    if test = .sym elseName then rcons beginName rest
    else match rest with
      | .nil => condResult test (rsym resultName) clauses
      | .cons a more =>
        if a = .sym arrowName then
          match more with
          | .cons f _ => condResult test (tlist [.use f, rsym resultName]) clauses
          | _ => .use .nil
        else tlist [rsym ifName, .use test, rcons beginName rest, rcons condName clauses]
      | _ => .use .nil
  | _ => .use .nil

/-- `and` (r4rs.ss L117-L127). -/
def andTemplate : Form → Template
  | .cons _ .nil => .use (.bool true)
  | .cons _ (.cons a .nil) => .use a
  | .cons _ (.cons a rest) => tlist [rsym ifName, .use a, rcons andName rest, .use (.bool false)]
  | _ => .use .nil

/-- `or` (r4rs.ss L129-L142). -/
def orTemplate : Form → Template
  | .cons _ .nil => .use (.bool false)
  | .cons _ (.cons a .nil) => .use a
  | .cons _ (.cons a rest) =>
    tlist [tlist [rsym lambdaName, tlist [rsym resultName],
      tlist [rsym ifName, rsym resultName, rsym resultName, rcons orName rest]], .use a]
  | _ => .use .nil

/-- `(map car xs)` (library/r4rs.ss L192-L194). -/
def cars : Form → Form
  | .cons (.cons a _) d => .cons a (cars d)
  | _ => .nil

/-- `(map cadr xs)` (library/r4rs.ss L193-L195). -/
def cadrs : Form → Form
  | .cons (.cons _ (.cons a _)) d => .cons a (cadrs d)
  | _ => .nil

/-- `let` (r4rs.ss L187-L195). -/
def letTemplate : Form → Template
  | .cons _ (.cons n rest) =>
    if n.isIdentifier then
      match rest with
      | .cons bindings body =>
        tlist [rsym letrecName,
          tlist [tlist [.use n, .pair (rsym lambdaName) (.pair (.use (cars bindings)) (.use body))]],
          .pair (.use n) (.use (cadrs bindings))]
      | _ => .use .nil
    else .pair (.pair (rsym lambdaName) (.pair (.use (cars n)) (.use rest))) (.use (cadrs n))
  | _ => .use .nil

/-- `let*` (r4rs.ss L197-L204). -/
def letStarTemplate : Form → Template
  | .cons _ (.cons .nil body) => .pair (rsym letName) (.pair (.use .nil) (.use body))
  | .cons _ (.cons (.cons b bs) body) =>
    tlist [rsym letName, tlist [.use b], .pair (rsym letStarName) (.pair (.use bs) (.use body))]
  | _ => .use .nil

/-- `,@xs` in front of more (library/r4rs.ss L192-L215). -/
def splice : Form → Template → Template
  | .cons a d, t => .pair (.use a) (splice d t)
  | _, t => t

/-- The steps: `(if (pair? (cddr x)) (caddr x) (car x))` for each of the variables (r4rs.ss L210-L214). -/
def doSteps : Form → Template
  | .cons (.cons _ (.cons _ (.cons s _))) d => .pair (.use s) (doSteps d)
  | .cons (.cons x _) d => .pair (.use x) (doSteps d)
  | _ => .use .nil

/-- The variables with their initial values (r4rs.ss L215-L218). -/
def doBindings : Form → Template
  | .cons (.cons x (.cons e _)) d => .pair (tlist [.use x, .use e]) (doBindings d)
  | _ => .use .nil

/-- `do` (r4rs.ss L206-L226). -/
def doTemplate : Form → Template
  | .cons _ (.cons specs (.cons (.cons test res) commands)) =>
    let body : Template := .pair (rsym beginName) (splice commands (tlist [.pair (rsym recName) (doSteps specs)]))
    tlist [rsym letName, rsym recName, doBindings specs,
      if res = .nil then
        tlist [rsym letName, tlist [tlist [rsym itName, .use test]],
          tlist [rsym ifName, rsym itName, rsym itName, body]]
      else tlist [rsym ifName, .use test, rcons beginName res, body]]
  | _ => .use .nil

/-- The derived expression types that are modelled (library/r4rs.ss L91-L226). -/
inductive Macro where
  | cond
  | and
  | or
  | let_
  | letStar
  | do_
  deriving DecidableEq, Repr

/-- The name of the keyword (library/r4rs.ss L91-L226). -/
def Macro.name : Macro → Name
  | .cond => condName
  | .and => andName
  | .or => orName
  | .let_ => letName
  | .letStar => letStarName
  | .do_ => doName

/-- What the transformer builds (library/r4rs.ss L91-L226). -/
def Macro.template : Macro → Form → Template
  | .cond => condTemplate
  | .and => andTemplate
  | .or => orTemplate
  | .let_ => letTemplate
  | .letStar => letStarTemplate
  | .do_ => doTemplate

end Meevax.Expand
