import Verif.Props.HygieneExamples

/-!
C53: where the compiler is not hygienic.  Each theorem compares a program with one that should mean
the same, or should mean something else.
-/

namespace Meevax.Expand.Fails

open Secd (Name Code)
open Example (s l tlist)

/-- The names: `lambda set! if id get define begin call letrec let-syntax quote sc call1 ql` are 0 to 13,
the global variable `g` is 14; `a b c v x y z f` are 20 to 27. -/
def globals (x : Name) : Option Nat := if x < 15 ∨ x = 27 then some x else none

def value : Nat → Option Keyword
  | 0 => some (.syn .lambda)
  | 1 => some (.syn .set)
  | 2 => some (.syn .cond)
  | 3 => some (.transformer 0)
  | 4 => some (.transformer 1)
  | 5 => some (.syn .define)
  | 6 => some (.syn .begin)
  | 7 => some (.transformer 2)
  | 8 => some (.syn .letrec)
  | 9 => some (.syn .letSyntax)
  | 10 => some (.syn .quote)
  | 11 => some (.transformer 3)
  | 12 => some (.transformer 4)
  | 13 => some (.transformer 5)
  | _ => none

/-- The explicit renaming macros: `(id a)` is `a`; `(get)` is `v`; `(call a)` is `(f a)`;
`(call1 a)` is `(lambda (id) (id a))`; `(ql)` is `(quote (a b))`; procedure 6, for `let-syntax`, yields
`x`. -/
def template : Nat → Form → Template
  | 0, .cons _ (.cons a .nil) => .use a
  | 1, _ => .insert (s 23)
  | 2, .cons _ (.cons a .nil) => tlist [.insert (s 27), .use a]
  | 4, .cons _ (.cons a .nil) =>
    tlist [.insert (s 0), tlist [.insert (s 3)], tlist [.insert (s 3), .use a]]
  | 5, _ => tlist [.insert (s 10), tlist [.insert (s 20), .insert (s 21)]]
  | 6, _ => .insert (s 24)
  | _, _ => .use .nil

/-- Macro 3 is `(sc-macro-transformer (lambda (form env) '(lambda (g) g)))`. -/
def W : World where
  value := value
  fresh := (· + 100)
  run p := if p = 3 then scTransformer (fun _ _ => l [s 0, l [s 14], s 14]) else erTransformer (template p)
  eval _ := 6

def st : St where
  next := 0
  made := 0
  envs _ := ⟨[], globals⟩
  nextEnv := 2
  macros t := (t, 1)
  nextMacro := 7
  alpha := []

def lam (fs : List Form) (body : List Form) : Form := .cons (s 0) (.cons (l fs) (l body))

abbrev run (form : Form) : Option Code := compile W 80 globals form st

/-- **C53 fails** when the result of a macro is a variable of the user that shadows another one: in
`(lambda (x) (lambda (x) (id x)))` the variable is the outer `x`.  (So it is for `(and x)`.) -/
theorem C53_variable_fails :
    run (lam [s 24] [lam [s 24] [l [s 3, s 24]]]) = run (lam [s 24] [lam [s 25] [s 24]]) ∧
    run (lam [s 24] [lam [s 24] [s 24]]) = run (lam [s 24] [lam [s 25] [s 25]]) ∧
    run (lam [s 24] [lam [s 24] [s 24]]) ≠ run (lam [s 24] [lam [s 25] [s 24]]) ∧
    (run (lam [s 24] [lam [s 24] [l [s 3, s 24]]])).isSome := by
  decide +kernel

/-- **C53 fails** for a macro use after an internal definition of a name that is bound twice already:
in `(lambda (x) (lambda (x) (define x 2) (call x)))` the variable is the parameter. -/
theorem C53_definition_fails :
    run (lam [s 24] [lam [s 24] [l [s 5, s 24, .atom 2], l [s 7, s 24]]]) =
      run (lam [s 24] [lam [s 25] [l [s 5, s 26, .atom 2], l [s 7, s 25]]]) ∧
    run (lam [s 24] [lam [s 25] [l [s 5, s 26, .atom 2], l [s 7, s 25]]]) ≠
      run (lam [s 24] [lam [s 25] [l [s 5, s 26, .atom 2], l [s 7, s 26]]]) ∧
    (run (lam [s 24] [lam [s 24] [l [s 5, s 24, .atom 2], l [s 7, s 24]]])).isSome := by
  decide +kernel

/-- **C53 fails** for an inserted identifier that is not bound where the macro is defined (yet): the
parameter of the user captures it. -/
theorem C53_unbound_fails :
    run (lam [s 23] [l [s 4]]) = run (lam [s 23] [s 23]) ∧
    run (lam [s 23] [l [s 4]]) ≠ run (lam [s 20] [l [s 4]]) ∧
    (run (lam [s 23] [l [s 4]])).isSome := by
  decide +kernel

/-- **C53 fails** for local macros: `(lambda (x) (lambda (x) (let-syntax ((m ...)) (m))))`, where the
macro inserts `x`, refers to the outer `x`. -/
theorem C53_local_macro_fails :
    run (lam [s 24] [lam [s 24] [l [s 9, l [l [s 20, .nil]], l [s 20]]]]) =
      run (lam [s 24] [lam [s 25] [l [s 9, l [l [s 20, .nil]], s 24]]]) ∧
    run (lam [s 24] [lam [s 25] [l [s 9, l [l [s 20, .nil]], s 24]]]) ≠
      run (lam [s 24] [lam [s 25] [l [s 9, l [l [s 20, .nil]], s 25]]]) ∧
    (run (lam [s 24] [lam [s 24] [l [s 9, l [l [s 20, .nil]], l [s 20]]]])).isSome := by
  decide +kernel

/-- **C53 fails** for `sc-macro-transformer`: a variable that the macro binds is taken for the global
variable of that name, if there is one. -/
theorem C53_sc_fails :
    run (lam [s 20] [l [s 11]]) = run (lam [s 20] [lam [s 21] [s 14]]) ∧
    run (lam [s 20] [lam [s 14] [s 14]]) = run (lam [s 20] [lam [s 21] [s 21]]) ∧
    run (lam [s 20] [l [s 11]]) ≠ run (lam [s 20] [lam [s 14] [s 14]]) ∧
    (run (lam [s 20] [l [s 11]])).isSome := by
  decide +kernel

/-- **C53 fails** for `letrec` without any macro: in `(lambda (g) (letrec ((g 1)) g))` the variable is
the global one, if there is one. -/
theorem C53_letrec_fails :
    run (lam [s 14] [l [s 8, l [l [s 14, .atom 1]], s 14]]) =
      run (lam [s 20] [l [s 8, l [l [s 21, .atom 1]], s 14]]) ∧
    run (lam [s 20] [l [s 8, l [l [s 21, .atom 1]], s 14]]) ≠
      run (lam [s 20] [l [s 8, l [l [s 21, .atom 1]], s 21]]) ∧
    (run (lam [s 14] [l [s 8, l [l [s 14, .atom 1]], s 14]])).isSome := by
  decide +kernel

/-- **C53 fails** for a variable that has the name of a macro and shadows another variable: in
`(lambda (id) (lambda (id) (id x)))` the macro is used. -/
theorem C53_keyword_fails :
    run (lam [s 3] [lam [s 3] [l [s 3, s 24]]]) = run (lam [s 20] [lam [s 21] [s 24]]) ∧
    run (lam [s 20] [lam [s 21] [s 24]]) ≠ run (lam [s 20] [lam [s 21] [l [s 21, s 24]]]) ∧
    (run (lam [s 3] [lam [s 3] [l [s 3, s 24]]])).isSome := by
  decide +kernel

/-- **C53 fails** for a variable that a macro binds and that has the name of a macro. -/
theorem C53_bound_keyword_fails :
    run (lam [s 24] [l [s 12, s 24]]) = run (lam [s 24] [lam [s 20] [s 24]]) ∧
    run (lam [s 24] [lam [s 20] [s 24]]) ≠ run (lam [s 24] [lam [s 20] [l [s 20, s 24]]]) ∧
    (run (lam [s 24] [l [s 12, s 24]])).isSome := by
  decide +kernel

/-- **C53 fails** for a quoted list in a macro: the symbols in it stay renamed objects. -/
theorem C53_quote_fails :
    (expandForm W 80 globals (l [s 13]) [] st).map Prod.fst =
      some (l [.closure (.rename 0) 1 [] (s 10),
        l [.closure (.rename 1) 1 [] (s 20), .closure (.rename 2) 1 [] (s 21)]]) := by
  decide +kernel

end Meevax.Expand.Fails
