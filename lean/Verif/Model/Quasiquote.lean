import Verif.Model.SyntaxRules

/-!
Model of `quasiquote` (library/r4rs.ss L144-L185): the transformer, the texts it makes (`Exp`), and their
evaluation (`eval`).

Simplifications.
* Forms are those of Model/SyntaxRules.lean: finite trees, an identifier is a number.  Values are the same
  trees; an `atom` may also be an object that has no text, such as a procedure.
* Which identifiers `compare` (library/meevax.ss L39-L40) takes for `unquote`, `unquote-splicing` and
  `quasiquote` is a parameter; it takes nothing else for them.  So is the symbol of an identifier, which
  `quote` puts in its place (src/kernel/generator.cpp L32-L37).
* A text has one constructor for each kind of expression the transformer makes; the keywords and procedures
  in it are renamed, so that nothing the user binds can capture them.
* What the expressions of the user do is a parameter: each takes a state to a value and a state, or fails.
  A use of a captured continuation is not modelled.
* Numbers, strings, characters and the like evaluate to themselves.
* An error or undefined behaviour is `none`.
-/

namespace Meevax.Quasi

open Rules (Form)

/-- What identifiers mean where the form is used (library/meevax.ss L31-L40). -/
structure Keys where
  /-- `(compare (rename 'unquote) x)` -/
  isUnquote : Nat → Bool
  /-- `(compare (rename 'unquote-splicing) x)` -/
  isSplicing : Nat → Bool
  /-- `(compare (rename 'quasiquote) x)` -/
  isQuasi : Nat → Bool
  /-- the symbol of an identifier -/
  symbol : Nat → Nat
  /-- the symbol `unquote` -/
  unquote : Nat
  /-- the symbol `unquote-splicing` -/
  splicing : Nat
  /-- the symbol `quasiquote` -/
  quasi : Nat

/-- `(compare (rename 'unquote) f)` (library/r4rs.ss L144-L185). -/
def Keys.unquoteAt (K : Keys) : Form → Bool
  | .id x => K.isUnquote x
  | _ => false

/-- `(compare (rename 'unquote-splicing) f)` (library/r4rs.ss L144-L185). -/
def Keys.splicingAt (K : Keys) : Form → Bool
  | .id x => K.isSplicing x
  | _ => false

/-- `(compare (rename 'quasiquote) f)` (library/r4rs.ss L144-L185). -/
def Keys.quasiAt (K : Keys) : Form → Bool
  | .id x => K.isQuasi x
  | _ => false

/-- The texts that the transformer makes (library/r4rs.ss L144-L185). -/
inductive Exp where
  /-- an expression of the user -/
  | user (f : Form)
  /-- `(quote f)` -/
  | quote (f : Form)
  /-- `(quote s)` of a symbol of the transformer -/
  | symbol (s : Nat)
  /-- an object that is its own value -/
  | self (f : Form)
  /-- `(list a b)` -/
  | list (a b : Exp)
  /-- `(cons a b)` -/
  | cons (a b : Exp)
  /-- `(append a b)` -/
  | append (a b : Exp)
  /-- `(list->vector a)` -/
  | listToVector (a : Exp)

/-- `expand` (r4rs.ss L147-L184); the first argument bounds the depth of calls. -/
def Keys.expand (K : Keys) : Nat → Form → Nat → Option Exp
  | 0, _, _ => none
  | n + 1, .cons a d, depth =>
    if K.unquoteAt a then
      match d with
      | .cons e _ =>
        if depth = 0 then some (.user e)
        else (K.expand n e (depth - 1)).map fun t => .list (.symbol K.unquote) t
      | _ => none
    else if K.splicingAt a then
      if depth = 0 then do
        let t ← K.expand n a depth
        let u ← K.expand n d depth
        some (.cons t u)
      else
        match d with
        | .cons e _ => (K.expand n e (depth - 1)).map fun t => .list (.symbol K.splicing) t
        | _ => none
    else if K.quasiAt a then
      match d with
      | .cons e _ => (K.expand n e (depth + 1)).map fun t => .list (.symbol K.quasi) t
      | _ => none
    else
      let other : Option Exp := do
        let t ← K.expand n a depth
        let u ← K.expand n d depth
        some (.cons t u)
      match a with
      | .cons s rest =>
        if depth = 0 ∧ K.splicingAt s then
          match rest with
          | .cons e _ =>
            if d = .nil then some (.user e)
            else (K.expand n d depth).map fun t => .append (.user e) t
          | _ => none
        else other
      | _ => other
  | n + 1, .vec xs, depth => (K.expand n xs depth).map .listToVector
  | _ + 1, .id x, _ => some (.quote (.id x))
  | _ + 1, .nil, _ => some (.quote .nil)
  | _ + 1, f, _ => some (.self f)

/-- `quasiquote` (r4rs.ss L144-L146, L185). -/
def Keys.quasiquote (K : Keys) (f : Form) : Option Exp := K.expand f.size f 0

/-- `quote` puts the symbols in the place of the identifiers (src/kernel/generator.cpp L32-L37). -/
def Keys.strip (K : Keys) : Form → Form
  | .id x => .id (K.symbol x)
  | .cons a d => .cons (K.strip a) (K.strip d)
  | .vec xs => .vec (K.strip xs)
  | f => f

/-- `append` of two arguments (src/kernel/boot.cpp L151, src/kernel/list.cpp L253-L263): what ends the first
argument is dropped, even if it is not `()`. -/
def append2 : Form → Form → Form
  | .cons a d, y => .cons a (append2 d y)
  | _, y => y

/-- A list that ends in `()`; of other objects `list->vector` (src/kernel/boot.cpp L395) makes no vector. -/
def isList : Form → Bool
  | .nil => true
  | .cons _ d => isList d
  | _ => false

/-- The evaluation of a text, given that of the user's expressions.  Operands are evaluated from right to
left (src/kernel/generator.cpp L45-L71; see C37). -/
def Keys.eval (K : Keys) {σ : Type} (ev : Form → σ → Option (Form × σ)) : Exp → σ → Option (Form × σ)
  | .user f, s => ev f s
  | .quote f, s => some (K.strip f, s)
  | .symbol x, s => some (.id x, s)
  | .self f, s => some (f, s)
  | .list a b, s => do
    let (w, s) ← K.eval ev b s
    let (v, s) ← K.eval ev a s
    some (.cons v (.cons w .nil), s)
  | .cons a b, s => do
    let (w, s) ← K.eval ev b s
    let (v, s) ← K.eval ev a s
    some (.cons v w, s)
  | .append a b, s => do
    let (w, s) ← K.eval ev b s
    let (v, s) ← K.eval ev a s
    some (append2 v w, s)
  | .listToVector a, s => do
    let (v, s) ← K.eval ev a s
    if isList v then some (.vec v, s) else none

end Meevax.Quasi
