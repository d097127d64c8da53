import Verif.Model.Generator

/-!
Model of `apply` (library/meevax.ss L102-L117): its source, compiled by the model of the code generator, and
run by the model of the machine; and of the primitive procedures it calls, on proper lists.
-/

namespace Meevax.Secd.Apply

open Meevax.Secd

/-- The names in the source (library/meevax.ss L103-L117). -/
abbrev nF : Name := 0
/-- `x` (library/meevax.ss L109-L117). -/
abbrev nX : Name := 1
/-- `xs` (library/meevax.ss L109-L117). -/
abbrev nXs : Name := 2
/-- `null?` (library/meevax.ss L103-L117). -/
abbrev nNull : Name := 10
/-- `append` (library/meevax.ss L103-L117). -/
abbrev nAppend : Name := 11
/-- `reverse` (library/meevax.ss L103-L117). -/
abbrev nReverse : Name := 12
/-- `cdr` (library/meevax.ss L103-L117). -/
abbrev nCdr : Name := 13
/-- `car` (library/meevax.ss L103-L117). -/
abbrev nCar : Name := 14
/-- `cons` (library/meevax.ss L103-L117). -/
abbrev nCons : Name := 15
/-- `if` (library/meevax.ss L103-L117). -/
abbrev nIf : Name := 16
/-- `lambda` (library/meevax.ss L103-L117). -/
abbrev nLambda : Name := 17

/-- What `(meevax apply)` imports (meevax.ss L103-L105): the identity of a name is its number. -/
def globals : Globals where
  free x := x
  syn g := if g = nIf then some .cond else if g = nLambda then some .lambda else none

/-- A list as a form (auxiliary to library/meevax.ss L109-L117). -/
def form : List Form → Form
  | [] => .nil
  | x :: xs => .cons x (form xs)

/-- `(f . x)`: the operand list is the value of `x` (library/meevax.ss L109-L117). -/
def callWith : Form := .cons (.sym nF) (.sym nX)

/-- `apply` (meevax.ss L109-L117), with `define` reduced to the `lambda` expression it binds. -/
def source : Form :=
  form [.sym nLambda, .cons (.sym nF) (.cons (.sym nX) (.sym nXs)),
    form [.sym nIf, form [.sym nNull, .sym nXs],
      callWith,
      form [form [.sym nLambda, form [.sym nXs],
          form [form [.sym nLambda, form [.sym nX], callWith],
            form [.sym nAppend, form [.sym nReverse, form [.sym nCdr, .sym nXs]], form [.sym nCar, .sym nXs]]]],
        form [.sym nReverse, form [.sym nCons, .sym nX, .sym nXs]]]]]

/-- The code that `%load-closure` makes the procedure of (library/meevax.ss L109-L117). -/
def code : Code :=
  match generate globals source [] [] false with
  | some [.loadClosure c] => c
  | _ => []

/-- `null?` (boot.cpp L138). -/
def isNull : Value → Bool
  | .datum .nil => true
  | _ => false

/-- `reverse(xs, a)` (src/kernel/list.cpp L306-L321) of a list with the elements `vs`. -/
def push : List Value → Value → Cells → Value × Cells
  | [], a, h => (a, h)
  | v :: vs, a, h => push vs (.pair h.next) (h.cons v a)

/-- `append(x, y)` (list.cpp L253-L263) of a list with the elements `vs` and any `y`; boot.cpp L151 folds it
over its arguments, from the left, beginning with the empty list. -/
def copy : List Value → Value → Cells → Value × Cells
  | [], y, h => (y, h)
  | v :: vs, y, h => let (t, h) := copy vs y h; (.pair h.next, h.cons v t)

end Meevax.Secd.Apply
