import Verif.Spec.Hygiene
import Verif.Spec.Scheme
import Mathlib.Data.Nat.Pairing

/-!
A term of `Spec/Hygiene.lean` as an expression of `Spec/Scheme.lean`: every variable gets a name of its
own.  The name of a local variable is made of the number of the procedures around the one that binds it,
and its position there; global variables have names of another kind.
-/

namespace Meevax.Expand.Spec

open Secd (Name)
open Scheme (Expr)

def localName (level j : Nat) : Name := 2 * Nat.pair level j

def globalName (g : Nat) : Name := 2 * g + 1

/-- The global variable a free name stands for. -/
def free (x : Name) : Nat := x / 2

/-- The name of a variable, below `d` binding constructs. -/
def Address.name (d : Nat) : Address → Name
  | .loc i j => localName (d - 1 - i) j
  | .rest i j => localName (d - 1 - i) j
  | .glob g => globalName g

/-- The names of `n` variables bound below `d` binding constructs. -/
def locals (d n : Nat) : List Name := (List.range n).map (localName d)

mutual

/-- The expression of a term below `d` binding constructs. -/
def Term.expr (d : Nat) : Term → Expr
  | .const c => .const c
  | .ref a => .var (a.name d)
  | .lam n rest body =>
    .lam (locals d n) (if rest then some (localName d n) else none) (sequence (d + 1) body)
  | .when t c => .ite (t.expr d) (c.expr d) (.const .unspecified)
  | .ite t c a => .ite (t.expr d) (c.expr d) (a.expr d)
  | .set a t => .set (a.name d) (t.expr d)
  | .app f args => .app (f.expr d) (exprs d args)
  | .seq ts => sequence d ts
  | .letrec inits body => .letrec (locals d inits.length) (exprs (d + 1) inits) (sequence (d + 1) body)

def exprs (d : Nat) : List Term → List Expr
  | [] => []
  | t :: ts => t.expr d :: exprs d ts

def sequence (d : Nat) : List Term → Expr
  | [] => .const .nil
  | [t] => t.expr d
  | t :: ts => .seq (t.expr d) (sequence d ts)

end

end Meevax.Expand.Spec
