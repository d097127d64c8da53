import Verif.Spec.Scheme

/-!
What can be observed of a run: how each form of a program ends, and what its value looks like when
printed, to every depth; and the size of the control stack.
-/

namespace Meevax

open Secd (Form)

/-- What is seen of a value: `more` stands where the printer stops. -/
inductive Tree where
  | datum (d : Form)
  | pair (a d : Tree)
  | procedure
  | more
  deriving DecidableEq, Repr

/-- How a program ends: all forms have values, an object was raised, or it runs forever. -/
inductive Ending where
  | finished
  | raised (t : Nat → Tree)
  | forever

/-- What global variables and registers may hold at the beginning. -/
inductive Base where
  | datum (d : Form)
  | prim (p : Nat)

namespace Scheme

/-- A value, down to depth `n`. -/
def view (p : Pairs) : Nat → Val → Tree
  | 0, _ => .more
  | _ + 1, .datum d => .datum d
  | n + 1, .pair l => .pair (view p n (p.pair l).1) (view p n (p.pair l).2)
  | _ + 1, _ => .procedure

def ofBase : Base → Val
  | .datum d => .datum d
  | .prim p => .prim p

/-- The store at the beginning. -/
def initial (g r : Nat → Base) : Store :=
  { vars := fun _ => none, nvars := 0, pairs := ⟨fun _ => (.datum .nil, .datum .nil), 0⟩,
    globals := fun i => ofBase (g i), regs := fun i => ofBase (r i), pending := fun _ => false,
    nid := 0 }

/-- An expression at the outermost level. -/
def toplevel (e : Expr) (σ : Store) : State := ⟨.eval e [], .halt, σ⟩

/-- What a program, a sequence of expressions, does: the views of the values, and the ending. -/
inductive Behaves (free : Secd.Name → Nat) (P : Prims) :
    Store → List Expr → List (Nat → Tree) → Ending → Prop where
  | nil (σ : Store) : Behaves free P σ [] [] .finished
  | cons {σ σ' : Store} {e : Expr} {es : List Expr} {v : Val} {outs : List (Nat → Tree)}
      {x : Ending} (n : Nat) (h : run free P n (toplevel e σ) = .done v σ')
      (ht : Behaves free P σ' es outs x) :
      Behaves free P σ (e :: es) ((fun n => view σ'.pairs n v) :: outs) x
  | raise {σ σ' : Store} {e : Expr} {es : List Expr} {v : Val} (n : Nat)
      (h : run free P n (toplevel e σ) = .raise v σ') :
      Behaves free P σ (e :: es) [] (.raised fun n => view σ'.pairs n v)
  | forever {σ : Store} {e : Expr} {es : List Expr}
      (h : ∀ n, ∃ st, run free P n (toplevel e σ) = .running st) :
      Behaves free P σ (e :: es) [] .forever

/-- The program is in error, or uses the continuation of an operand twice. -/
inductive Faulty (free : Secd.Name → Nat) (P : Prims) : Store → List Expr → Prop where
  | here {σ : Store} {e : Expr} {es : List Expr} (n : Nat)
      (h : run free P n (toplevel e σ) = .wrong ∨ run free P n (toplevel e σ) = .reentered) :
      Faulty free P σ (e :: es)
  | later {σ σ' : Store} {e : Expr} {es : List Expr} {v : Val} (n : Nat)
      (h : run free P n (toplevel e σ) = .done v σ') (ht : Faulty free P σ' es) :
      Faulty free P σ (e :: es)

/-- The program is in error. -/
inductive InError (free : Secd.Name → Nat) (P : Prims) : Store → List Expr → Prop where
  | here {σ : Store} {e : Expr} {es : List Expr} (n : Nat)
      (h : run free P n (toplevel e σ) = .wrong) : InError free P σ (e :: es)
  | later {σ σ' : Store} {e : Expr} {es : List Expr} {v : Val} (n : Nat)
      (h : run free P n (toplevel e σ) = .done v σ') (ht : InError free P σ' es) :
      InError free P σ (e :: es)

/-- `n` steps in which tickets are valid for ever: continuations as R7RS has them, which may be used
any number of times. -/
def runAgain (free : Secd.Name → Nat) (P : Prims) : Nat → State → Outcome
  | 0, st => .running st
  | n + 1, st =>
    match step free P { st with σ := { st.σ with pending := fun _ => true } } with
    | .next st => runAgain free P n st
    | .done v σ => .done v σ
    | .raise v σ => .raise v σ
    | .wrong => .wrong
    | .reentered => .reentered

/-- What programs do by `runAgain`, when all forms have values: the values and the final pairs. -/
def evaluate (free : Secd.Name → Nat) (P : Prims) (n : Nat) : List Expr → Store → Option (List Val × Store)
  | [], σ => some ([], σ)
  | e :: es, σ =>
    match runAgain free P n (toplevel e σ) with
    | .done v σ => (evaluate free P n es σ).map fun (vs, σ) => (v :: vs, σ)
    | _ => none

/-- The states that a program goes through. -/
inductive Reaches (free : Secd.Name → Nat) (P : Prims) : Store → List Expr → State → Prop where
  | here {σ : Store} {e : Expr} {es : List Expr} {st : State} (n : Nat)
      (h : run free P n (toplevel e σ) = .running st) : Reaches free P σ (e :: es) st
  | later {σ σ' : Store} {e : Expr} {es : List Expr} {v : Val} {st : State} (n : Nat)
      (h : run free P n (toplevel e σ) = .done v σ') (ht : Reaches free P σ' es st) :
      Reaches free P σ (e :: es) st

/-- How deep a continuation is. -/
def Kont.depth : Kont → Nat
  | .halt => 0
  | .ite _ _ _ κ => κ.depth + 1
  | .seq _ _ κ => κ.depth + 1
  | .set _ _ κ => κ.depth + 1
  | .install _ κ => κ.depth + 1
  | .arg _ _ _ _ _ κ => κ.depth + 1
  | .fn _ _ κ => κ.depth + 1
  | .init _ _ _ _ _ _ κ => κ.depth + 1
  | .callcc _ κ => κ.depth + 1

end Scheme

namespace Secd

/-- An object, down to depth `n`. -/
def view (c : Cells) : Nat → Value → Tree
  | 0, _ => .more
  | _ + 1, .datum d => .datum d
  | n + 1, .pair l => .pair (view c n (c.cell l).1) (view c n (c.cell l).2)
  | _ + 1, _ => .procedure

def ofBase : Base → Value
  | .datum d => .datum d
  | .prim p => .prim p

/-- The store at the beginning. -/
def initial (g r : Nat → Base) : Heap :=
  { cells := ⟨fun _ => (.nil, .nil), 0⟩, globals := fun i => ofBase (g i),
    regs := fun i => ofBase (r i) }

/-- What a sequence of compiled forms does. -/
inductive Behaves (Q : Prims) : Heap → List Code → List (Nat → Tree) → Ending → Prop where
  | nil (h : Heap) : Behaves Q h [] [] .finished
  | cons {h h' : Heap} {c : Code} {cs : List Code} {v : Value} {outs : List (Nat → Tree)}
      {x : Ending} (n : Nat) (hr : run Q n (start c h) = .halt v h')
      (ht : Behaves Q h' cs outs x) :
      Behaves Q h (c :: cs) ((fun n => view h'.cells n v) :: outs) x
  | raise {h h' : Heap} {c : Code} {cs : List Code} {v : Value} (n : Nat)
      (hr : run Q n (start c h) = .raise v h') :
      Behaves Q h (c :: cs) [] (.raised fun n => view h'.cells n v)
  | forever {h : Heap} {c : Code} {cs : List Code}
      (hr : ∀ n, ∃ st, run Q n (start c h) = .running st) :
      Behaves Q h (c :: cs) [] .forever

/-- What compiled forms do, when all have values. -/
def evaluate (Q : Prims) (n : Nat) : List Code → Heap → Option (List Value × Heap)
  | [], h => some ([], h)
  | c :: cs, h =>
    match run Q n (start c h) with
    | .halt v h => (evaluate Q n cs h).map fun (vs, h) => (v :: vs, h)
    | _ => none

/-- The states that compiled forms go through. -/
inductive Reaches (Q : Prims) : Heap → List Code → State → Prop where
  | here {h : Heap} {c : Code} {cs : List Code} {m : State} (n : Nat)
      (hr : run Q n (start c h) = .running m) : Reaches Q h (c :: cs) m
  | later {h h' : Heap} {c : Code} {cs : List Code} {v : Value} {m : State} (n : Nat)
      (hr : run Q n (start c h) = .halt v h') (ht : Reaches Q h' cs m) : Reaches Q h (c :: cs) m

/-- Some form runs into undefined behaviour. -/
inductive Stuck (Q : Prims) : Heap → List Code → Prop where
  | here {h : Heap} {c : Code} {cs : List Code} (n : Nat) (hr : run Q n (start c h) = .stuck) :
      Stuck Q h (c :: cs)
  | later {h h' : Heap} {c : Code} {cs : List Code} {v : Value} (n : Nat)
      (hr : run Q n (start c h) = .halt v h') (ht : Stuck Q h' cs) : Stuck Q h (c :: cs)

/-- Calls that have not returned. -/
def Dump.frames : Dump → Nat
  | .nil => 0
  | .code _ d => d.frames
  | .frame _ _ _ d => d.frames + 1

end Secd

end Meevax
