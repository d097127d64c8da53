import Verif.Model.Number

/-
Model of `rationalize` (r4rs.ss L268-L292) on exact numbers. `floor`, `<`, `=`, `+`, `-`, `/`,
`positive?` and `negative?` are the procedures of `Verif/Model/Number.lean`.

Not modelled: inexact operands.
-/

namespace Meevax.Number

/-- `simplest-rational-internal` (r4rs.ss L270-L278), cut off after `fuel` nested calls
(`undefined`: the call does not return). -/
def simplestInternal : Nat → Num → Num → Outcome Num
  | 0, _, _ => .undefined
  | fuel + 1, x, y => do
    let fx ← floor x
    let fy ← floor y
    if !numLt [fx, x] then pure fx
    else if numEq [fx, fy] then do
      let dy ← minus [y, fy]
      let ry ← divide [dy]
      let dx ← minus [x, fx]
      let rx ← divide [dx]
      let r ← simplestInternal fuel ry rx
      let s ← divide [r]
      plus [fx, s]
    else plus [.small 1, fx]

/-- `simplest-rational` (r4rs.ss L269, L279-L290), cut off like `simplestInternal`. The operands are
exact, so the last clause gives the exact zero. -/
def simplestRational : Nat → Num → Num → Outcome Num
  | 0, _, _ => .undefined
  | fuel + 1, x, y =>
    if numLt [y, x] then simplestRational fuel y x
    else if !numLt [x, y] then .value x
    else if isPositive x then simplestInternal fuel x y
    else if isNegative x then do
      let ny ← minus [y]
      let nx ← minus [x]
      let r ← simplestInternal fuel ny nx
      minus [r]
    else .value (.small 0)

/-- `rationalize` (r4rs.ss L268, L291-L292), cut off like `simplestInternal`. -/
def rationalize (fuel : Nat) (x e : Num) : Outcome Num := do
  let lo ← minus [x, e]
  let hi ← plus [x, e]
  simplestRational fuel lo hi

end Meevax.Number
