import Verif.Spec.Scheme

/-! What R7RS says about the procedures of Model/Builtins.lean. -/

namespace Meevax.Scheme

def Val.bool (b : Bool) : Val := .datum (.bool b)

/-- The car of a pair. -/
def Pairs.car (p : Pairs) : Val → Option Val
  | .pair l => some (p.pair l).1
  | .datum (.cons a _) => some (.datum a)
  | _ => none

/-- The cdr of a pair. -/
def Pairs.cdr (p : Pairs) : Val → Option Val
  | .pair l => some (p.pair l).2
  | .datum (.cons _ d) => some (.datum d)
  | _ => none

def Val.isPair : Val → Bool
  | .pair _ => true
  | .datum (.cons _ _) => true
  | _ => false

def Val.isNull : Val → Bool
  | .datum .nil => true
  | _ => false

/-- The procedures, by number: 0 `cons`, 1 `car`, 2 `cdr`, 3 `set-car!`, 4 `set-cdr!`, 5 `list`,
6 `pair?`, 7 `null?`, 8 `not`, 9 `eq?` (for symbols, booleans, the empty list, pairs and primitive
procedures), 10 `throw`.  A wrong number of arguments, and arguments of the wrong kind, are
errors. -/
def core : Prims := fun n vs p =>
  match n, vs with
  | 0, [a, d] => .ok (.pair p.next) (p.cons a d)
  | 1, [x] => match p.car x with | some v => .ok v p | none => .wrong
  | 2, [x] => match p.cdr x with | some v => .ok v p | none => .wrong
  | 3, [.pair l, v] =>
    .ok v { p with pair := fun l' => if l' = l then (v, (p.pair l).2) else p.pair l' }
  | 4, [.pair l, v] =>
    .ok v { p with pair := fun l' => if l' = l then ((p.pair l).1, v) else p.pair l' }
  | 5, vs => .ok (p.list vs).1 (p.list vs).2
  | 6, [x] => .ok (.bool x.isPair) p
  | 7, [x] => .ok (.bool x.isNull) p
  | 8, [x] => .ok (.bool (!x.truthy)) p
  | 9, [.datum (.sym a), .datum (.sym b)] => .ok (.bool (a = b)) p
  | 9, [.datum (.bool a), .datum (.bool b)] => .ok (.bool (a = b)) p
  | 9, [.datum .nil, .datum .nil] => .ok (.bool true) p
  | 9, [.pair a, .pair b] => .ok (.bool (a = b)) p
  | 9, [.prim a, .prim b] => .ok (.bool (a = b)) p
  | 9, [.pair _, .datum .nil] => .ok (.bool false) p
  | 9, [.datum .nil, .pair _] => .ok (.bool false) p
  | 9, [.pair _, .datum (.sym _)] => .ok (.bool false) p
  | 9, [.datum (.sym _), .pair _] => .ok (.bool false) p
  | 10, [x] => .throw x p
  | _, _ => .wrong

end Meevax.Scheme
