import Verif.Spec.Observe

/-! The control space of the machine, and how deep the text of a program is nested. -/

namespace Meevax

namespace Scheme

mutual

/-- How deep an expression is nested. -/
def Expr.nesting : Expr → Nat
  | .const _ => 1
  | .var _ => 1
  | .lam _ _ body => body.nesting + 1
  | .app f args => max f.nesting (nestingArgs args) + 1
  | .ite a b c => max a.nesting (max b.nesting c.nesting) + 1
  | .set _ e => e.nesting + 1
  | .letrec _ es body => max (nestingArgs es) body.nesting + 1
  | .seq a b => max a.nesting b.nesting + 1
  | .callcc f => f.nesting + 1
  | .current _ => 1
  | .install _ e => e.nesting + 1

def nestingArgs : List Expr → Nat
  | [] => 0
  | a :: as => max a.nesting (nestingArgs as)

end

end Scheme

namespace Secd

/-- All that the dump holds: one cell for every entry, and the saved stacks. -/
def Dump.space : Dump → Nat
  | .nil => 0
  | .code _ d => d.space + 1
  | .frame s _ _ d => d.space + s.length + 1

/-- The stack and the dump. -/
def State.space (m : State) : Nat := m.s.length + m.d.space

/-- The operands that an instruction takes from the stack. -/
def Instr.operands : Instr → Nat
  | .select .. | .tailSelect .. | .ret | .drop | .storeAbsolute _ | .storeRelative .. | .storeVariadic ..
  | .install _ | .stop => 1
  | .call | .tailCall | .letrec | .tailLetrec | .cons => 2
  | _ => 0

/-- The machine has run off the end of the code, or looks for an operand on the stack, or for an
entry of the dump, that is not there. -/
def Underflow (m : State) : Prop :=
  match m.c with
  | [] => True
  | i :: _ => m.s.length < i.operands ∨
    match i, m.d with
    | .join, .code .. => False
    | .join, _ => True
    | .ret, .frame .. => False
    | .ret, _ => True
    | .tailCall, .frame .. => False
    | .tailCall, _ => True
    | _, _ => False

end Secd

end Meevax
