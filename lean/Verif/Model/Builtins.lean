import Verif.Model.Machine

/-!
Some builtin procedures of src/kernel/boot.cpp, as primitives of the machine.

Simplifications.  A quoted pair is an opaque constant (Model/Machine.lean): its fields can be read
but not assigned, and it has no identity; neither have closures, continuations, and the atoms that
are numbers, characters and strings.  Using what a value does not have is `undefined`.
-/

namespace Meevax.Secd

/-- A procedure that may be undefined (auxiliary to src/kernel/boot.cpp). -/
def PrimResult.ofOption : Option (Value × Cells) → PrimResult
  | some (v, h) => .ok v h
  | none => .undefined

/-- `car(x)` of an argument (pair.hpp L82). -/
def Cells.first (h : Cells) : Value → Option Value
  | .pair l => some (h.cell l).1
  | .datum (.cons a _) => some (.datum a)
  | _ => none

/-- `cdr(x)` of an argument (pair.hpp L83). -/
def Cells.second (h : Cells) : Value → Option Value
  | .pair l => some (h.cell l).2
  | .datum (.cons _ d) => some (.datum d)
  | _ => none

/-- Values whose identity is known (auxiliary to include/meevax/kernel/comparator.hpp L24-L27). -/
def Value.hasIdentity : Value → Bool
  | .datum (.cons _ _) => false
  | .datum (.atom _) => false
  | .closure _ _ => false
  | .cont _ _ _ _ => false
  | _ => true

/-- `eq(x, y)` (src/kernel/comparator.cpp): the same word. -/
def Value.same : Value → Value → Bool
  | .datum a, .datum b => a = b
  | .pair a, .pair b => a = b
  | .prim a, .prim b => a = b
  | _, _ => false

/-- `make<bool>(b)` (src/kernel/boot.cpp). -/
def Value.bool (b : Bool) : Value := .datum (.bool b)

/-- `x.is<pair>()` (src/kernel/boot.cpp). -/
def Value.isPair : Value → Bool
  | .pair _ => true
  | .datum (.cons _ _) => true
  | _ => false

/-- `x.is<null>()` (src/kernel/boot.cpp). -/
def Value.isNull : Value → Bool
  | .datum .nil => true
  | _ => false

/-- The builtins (src/kernel/boot.cpp): 0 `cons` L272, 1 `car` L275, 2 `cdr` L276, 3 `set-car!` L305,
4 `set-cdr!` L306, 5 `list` L140, 6 `pair?` L270, 7 `null?` L138, 8 `not` L83, 9 `eq?` L115,
10 `throw` L125.  None of them looks at the number of arguments. -/
def core : Prims := fun p xs h =>
  match p with
  | 0 => .ofOption do some (.pair h.next, h.cons (← h.car xs) (← h.car (← h.cdr xs)))
  | 1 => .ofOption do some (← h.first (← h.car xs), h)
  | 2 => .ofOption do some (← h.second (← h.car xs), h)
  | 3 => .ofOption do
    let v ← h.car (← h.cdr xs)
    match ← h.car xs with
    | .pair l => some (v, h.setCar l v)
    | _ => none
  | 4 => .ofOption do
    let v ← h.car (← h.cdr xs)
    match ← h.car xs with
    | .pair l => some (v, h.setCdr l v)
    | _ => none
  | 5 => .ok xs h
  | 6 => .ofOption do some (.bool (← h.car xs).isPair, h)
  | 7 => .ofOption do some (.bool (← h.car xs).isNull, h)
  | 8 => .ofOption do some (.bool (!(← h.car xs).truthy), h)
  | 9 => .ofOption do
    let x ← h.car xs
    let y ← h.car (← h.cdr xs)
    if x.hasIdentity && y.hasIdentity then some (.bool (x.same y), h) else none
  | 10 =>
    match h.car xs with
    | some v => .throw v h
    | none => .undefined
  | _ => .undefined

end Meevax.Secd
