import Verif.Spec.Observe

/-!
What programs with derived expression types mean (R7RS 4.2): `or`, `cond` with `=>`, `let`, named `let`
and `do`, each with a rule of its own.  (`and`, `let*`, `case`-less `cond` clauses and `when` need no rule:
they are chains of conditionals and of `let`.)  Otherwise as Spec/Scheme.lean, without
`call-with-current-continuation!` and the registers.
-/

namespace Meevax.Surface

open Secd (Name Form)

/-- Expressions. -/
inductive Expr where
  | const (d : Form)
  | var (x : Name)
  | lam (fs : List Name) (rest : Option Name) (body : Expr)
  | app (f : Expr) (args : List Expr)
  | ite (c t e : Expr)
  | set (x : Name) (e : Expr)
  | letrec (xs : List Name) (inits : List Expr) (body : Expr)
  | seq (a b : Expr)
  /-- `(or a b)`, `(cond (a) b ...)` -/
  | orElse (a b : Expr)
  /-- `(cond (a => f) b ...)` -/
  | arrow (a f b : Expr)
  /-- `(let ((x e) ...) body)` -/
  | let_ (xs : List Name) (es : List Expr) (body : Expr)
  /-- `(let f ((x e) ...) body)` -/
  | named (f : Name) (xs : List Name) (es : List Expr) (body : Expr)
  /-- `(do ((x e step) ...) (test res ...) command ...)` -/
  | loop (xs : List Name) (es steps : List Expr) (test : Expr) (res commands : List Expr)

mutual

/-- No name of `H` occurs in the expression, and the name of a named `let` does not occur in its initial
values. -/
def Expr.Avoids : Expr → (Name → Prop) → Prop
  | .const _, _ => True
  | .var x, H => ¬ H x
  | .lam fs rest body, H => (∀ x ∈ fs ++ rest.toList, ¬ H x) ∧ body.Avoids H
  | .app f args, H => f.Avoids H ∧ Avoid args H
  | .ite a b c, H => a.Avoids H ∧ b.Avoids H ∧ c.Avoids H
  | .set x e, H => ¬ H x ∧ e.Avoids H
  | .letrec xs es body, H => (∀ x ∈ xs, ¬ H x) ∧ Avoid es H ∧ body.Avoids H
  | .seq a b, H => a.Avoids H ∧ b.Avoids H
  | .orElse a b, H => a.Avoids H ∧ b.Avoids H
  | .arrow a f b, H => a.Avoids H ∧ f.Avoids H ∧ b.Avoids H
  | .let_ xs es body, H => (∀ x ∈ xs, ¬ H x) ∧ Avoid es H ∧ body.Avoids H
  | .named f xs es body, H =>
    ¬ H f ∧ (∀ x ∈ xs, ¬ H x) ∧ Avoid es (fun x => H x ∨ x = f) ∧ body.Avoids H
  | .loop xs es steps test res commands, H =>
    (∀ x ∈ xs, ¬ H x) ∧ Avoid es H ∧ Avoid steps H ∧ test.Avoids H ∧ Avoid res H ∧ Avoid commands H

def Avoid : List Expr → (Name → Prop) → Prop
  | [], _ => True
  | e :: es, H => e.Avoids H ∧ Avoid es H

end

/-- Environments: the location of each variable in scope, innermost first. -/
abbrev Env := List (Name × Nat)

/-- Values. -/
inductive Val where
  | datum (d : Form)
  | pair (l : Nat)
  | prim (p : Nat)
  | closure (fs : List Name) (rest : Option Name) (body : Expr) (ρ : Env)

/-- A `do` expression: variables, steps, test, results, commands, and the environment around it. -/
structure Loop where
  xs : List Name
  steps : List Expr
  test : Expr
  res : List Expr
  commands : List Expr
  ρ : Env

/-- Continuations: what remains to be done with a value. -/
inductive Kont where
  | halt
  | ite (t e : Expr) (ρ : Env) (κ : Kont)
  | seq (b : Expr) (ρ : Env) (κ : Kont)
  | set (x : Name) (ρ : Env) (κ : Kont)
  | arg (todo : List Expr) (done : List Val) (f : Expr) (ρ : Env) (κ : Kont)
  | fn (args : List Val) (κ : Kont)
  | init (todo : List Expr) (done : List Val) (locs : List Nat) (body : Expr) (ρ : Env) (κ : Kont)
  | orElse (b : Expr) (ρ : Env) (κ : Kont)
  | arrow (f b : Expr) (ρ : Env) (κ : Kont)
  | let_ (todo : List Expr) (done : List Val) (xs : List Name) (body : Expr) (ρ : Env) (κ : Kont)
  | named (todo : List Expr) (done : List Val) (f : Name) (xs : List Name) (body : Expr) (ρ : Env) (κ : Kont)
  /-- the initial values or the steps, evaluated in `ρ` -/
  | loop (todo : List Expr) (done : List Val) (L : Loop) (ρ : Env) (κ : Kont)
  | test (L : Loop) (ρ : Env) (κ : Kont)
  /-- the commands that follow, and then the steps -/
  | command (todo : List Expr) (L : Loop) (ρ : Env) (κ : Kont)

/-- The pairs. -/
structure Pairs where
  pair : Nat → Val × Val
  next : Nat

/-- A new pair, at `p.next`. -/
def Pairs.cons (p : Pairs) (a d : Val) : Pairs :=
  { pair := fun l => if l = p.next then (a, d) else p.pair l, next := p.next + 1 }

/-- A new list. -/
def Pairs.list (p : Pairs) : List Val → Val × Pairs
  | [] => (.datum .nil, p)
  | v :: vs =>
    let (t, p) := p.list vs
    (.pair p.next, p.cons v t)

/-- The store. -/
structure Store where
  vars : Nat → Option Val
  nvars : Nat
  pairs : Pairs
  globals : Nat → Val

/-- What a primitive procedure does; `wrong` is for arguments that are an error. -/
inductive PrimResult where
  | ok (v : Val) (p : Pairs)
  | throw (v : Val) (p : Pairs)
  | wrong

abbrev Prims := Nat → List Val → Pairs → PrimResult

/-- New locations for `vs`. -/
def Store.bind (σ : Store) (vs : List (Option Val)) : List Nat × Store :=
  (List.range' σ.nvars vs.length,
   { σ with vars := fun l => if σ.nvars ≤ l ∧ l < σ.nvars + vs.length
                             then (vs[l - σ.nvars]?).join else σ.vars l,
            nvars := σ.nvars + vs.length })

/-- Give locations their values. -/
def Store.assign (σ : Store) : List Nat → List Val → Store
  | l :: ls, v :: vs => ({ σ with vars := Secd.update σ.vars l (some v) } : Store).assign ls vs
  | _, _ => σ

/-- What is going on: an expression is to be evaluated, or there is a value to continue with. -/
inductive Control where
  | eval (e : Expr) (ρ : Env)
  | value (v : Val)

structure State where
  ctl : Control
  κ : Kont
  σ : Store

/-- What one step does; `wrong` is for what R7RS calls an error. -/
inductive Result where
  | next (st : State)
  | done (v : Val) (σ : Store)
  | raise (v : Val) (σ : Store)
  | wrong

/-- `#f` is the only false value. -/
def Val.truthy : Val → Bool
  | .datum (.bool false) => false
  | _ => true

/-- The variables of a procedure with their locations. -/
def bindings (fs : List Name) (rest : Option Name) (locs : List Nat) : Env :=
  (fs ++ rest.toList).zip locs

/-- A sequence of expressions. -/
def sequence : List Expr → Expr
  | [] => .const .nil
  | [e] => e
  | e :: es => .seq e (sequence es)

/-- Evaluate the operands `todo`, then the operator `f`. -/
def operands (todo : List Expr) (vs : List Val) (f : Expr) (ρ : Env) (κ : Kont) (σ : Store) : State :=
  match todo with
  | [] => ⟨.eval f ρ, .fn vs κ, σ⟩
  | a :: todo => ⟨.eval a ρ, .arg todo vs f ρ κ, σ⟩

/-- Evaluate the initial values of `letrec`, then give the variables their values and evaluate the
body. -/
def inits (todo : List Expr) (vs : List Val) (locs : List Nat) (body : Expr) (ρ : Env) (κ : Kont)
    (σ : Store) : State :=
  match todo with
  | [] => ⟨.eval body ρ, κ, σ.assign locs vs⟩
  | a :: todo => ⟨.eval a ρ, .init todo vs locs body ρ κ, σ⟩

/-- Evaluate the initial values of `let` in the environment of the `let` expression, then bind the
variables to new locations that hold them, and evaluate the body. -/
def lets (todo : List Expr) (vs : List Val) (xs : List Name) (body : Expr) (ρ : Env) (κ : Kont)
    (σ : Store) : Result :=
  match todo with
  | [] =>
    if vs.length = xs.length then
      let (locs, σ) := σ.bind (vs.map some)
      .next ⟨.eval body (bindings xs none locs ++ ρ), κ, σ⟩
    else .wrong
  | a :: todo => .next ⟨.eval a ρ, .let_ todo vs xs body ρ κ, σ⟩

/-- Evaluate the initial values of a named `let` in the environment of the expression, then bind the
name to a procedure that has the variables as its parameters, and call it. -/
def nameds (todo : List Expr) (vs : List Val) (f : Name) (xs : List Name) (body : Expr) (ρ : Env)
    (κ : Kont) (σ : Store) : Result :=
  match todo with
  | [] =>
    if vs.length = xs.length then
      let ρ := (f, σ.nvars) :: ρ
      let σ := (σ.bind [some (.closure xs none body ρ)]).2
      let (locs, σ) := σ.bind (vs.map some)
      .next ⟨.eval body (bindings xs none locs ++ ρ), κ, σ⟩
    else .wrong
  | a :: todo => .next ⟨.eval a ρ, .named todo vs f xs body ρ κ, σ⟩

/-- Evaluate the initial values or the steps of `do` in the environment `ρ`, then bind the variables to
new locations that hold them, and evaluate the test. -/
def loops (todo : List Expr) (vs : List Val) (L : Loop) (ρ : Env) (κ : Kont) (σ : Store) : Result :=
  match todo with
  | [] =>
    if vs.length = L.xs.length then
      let (locs, σ) := σ.bind (vs.map some)
      let ρ := bindings L.xs none locs ++ L.ρ
      .next ⟨.eval L.test ρ, .test L ρ κ, σ⟩
    else .wrong
  | a :: todo => .next ⟨.eval a ρ, .loop todo vs L ρ κ, σ⟩

/-- Evaluate the commands of `do` in order, then the steps. -/
def commands (todo : List Expr) (L : Loop) (ρ : Env) (κ : Kont) (σ : Store) : Result :=
  match todo with
  | [] => loops L.steps.reverse [] L ρ κ σ
  | c :: todo => .next ⟨.eval c ρ, .command todo L ρ κ, σ⟩

/-- Apply a procedure. -/
def apply (P : Prims) (f : Val) (vs : List Val) (κ : Kont) (σ : Store) : Result :=
  match f with
  | .closure fs none body ρ =>
    if vs.length = fs.length then
      let (locs, σ) := σ.bind (vs.map some)
      .next ⟨.eval body (bindings fs none locs ++ ρ), κ, σ⟩
    else .wrong
  | .closure fs (some r) body ρ =>
    if fs.length ≤ vs.length then
      let (t, pairs) := σ.pairs.list (vs.drop fs.length)
      let (locs, σ) := ({ σ with pairs } : Store).bind ((vs.take fs.length ++ [t]).map some)
      .next ⟨.eval body (bindings fs (some r) locs ++ ρ), κ, σ⟩
    else .wrong
  | .prim p =>
    match P p vs σ.pairs with
    | .ok v pairs => .next ⟨.value v, κ, { σ with pairs }⟩
    | .throw v pairs => .raise v { σ with pairs }
    | .wrong => .wrong
  | f => .raise f σ

/-- One step.  `free` gives the identity of a global variable. -/
def step (free : Name → Nat) (P : Prims) : State → Result
  | ⟨.eval e ρ, κ, σ⟩ =>
    match e with
    | .const d => .next ⟨.value (.datum d), κ, σ⟩
    | .var x =>
      match ρ.lookup x with
      | none => .next ⟨.value (σ.globals (free x)), κ, σ⟩
      | some l =>
        match σ.vars l with
        | some v => .next ⟨.value v, κ, σ⟩
        | none => .wrong
    | .lam fs rest body => .next ⟨.value (.closure fs rest body ρ), κ, σ⟩
    | .app f args => .next (operands args.reverse [] f ρ κ σ)
    | .ite c t e => .next ⟨.eval c ρ, .ite t e ρ κ, σ⟩
    | .set x e => .next ⟨.eval e ρ, .set x ρ κ, σ⟩
    | .letrec xs es body =>
      let (locs, σ) := σ.bind (xs.map fun _ => none)
      .next (inits es.reverse [] locs body (bindings xs none locs ++ ρ) κ σ)
    | .seq a b => .next ⟨.eval a ρ, .seq b ρ κ, σ⟩
    | .orElse a b => .next ⟨.eval a ρ, .orElse b ρ κ, σ⟩
    | .arrow a f b => .next ⟨.eval a ρ, .arrow f b ρ κ, σ⟩
    | .let_ xs es body => lets es.reverse [] xs body ρ κ σ
    | .named f xs es body => nameds es.reverse [] f xs body ρ κ σ
    | .loop xs es steps test res commands =>
      loops es.reverse [] ⟨xs, steps, test, res, commands, ρ⟩ ρ κ σ
  | ⟨.value v, κ, σ⟩ =>
    match κ with
    | .halt => .done v σ
    | .ite t e ρ κ => .next ⟨.eval (if v.truthy then t else e) ρ, κ, σ⟩
    | .seq b ρ κ => .next ⟨.eval b ρ, κ, σ⟩
    | .set x ρ κ =>
      match ρ.lookup x with
      | none => .next ⟨.value v, κ, { σ with globals := Secd.update σ.globals (free x) v }⟩
      | some l =>
        match σ.vars l with
        | some _ => .next ⟨.value v, κ, { σ with vars := Secd.update σ.vars l (some v) }⟩
        | none => .wrong
    | .arg todo vs f ρ κ => .next (operands todo (v :: vs) f ρ κ σ)
    | .fn vs κ => apply P v vs κ σ
    | .init todo vs locs body ρ κ => .next (inits todo (v :: vs) locs body ρ κ σ)
    | .orElse b ρ κ => if v.truthy then .next ⟨.value v, κ, σ⟩ else .next ⟨.eval b ρ, κ, σ⟩
    | .arrow f b ρ κ => if v.truthy then .next ⟨.eval f ρ, .fn [v] κ, σ⟩ else .next ⟨.eval b ρ, κ, σ⟩
    | .let_ todo vs xs body ρ κ => lets todo (v :: vs) xs body ρ κ σ
    | .named todo vs f xs body ρ κ => nameds todo (v :: vs) f xs body ρ κ σ
    | .loop todo vs L ρ κ => loops todo (v :: vs) L ρ κ σ
    | .test L ρ κ =>
      if v.truthy then
        if L.res = [] then .next ⟨.value v, κ, σ⟩ else .next ⟨.eval (sequence L.res) ρ, κ, σ⟩
      else commands L.commands L ρ κ σ
    | .command todo L ρ κ => commands todo L ρ κ σ

/-- How a run that is cut off after a number of steps stands. -/
inductive Outcome where
  | running (st : State)
  | done (v : Val) (σ : Store)
  | raise (v : Val) (σ : Store)
  | wrong

/-- `n` steps. -/
def run (free : Name → Nat) (P : Prims) : Nat → State → Outcome
  | 0, st => .running st
  | n + 1, st =>
    match step free P st with
    | .next st => run free P n st
    | .done v σ => .done v σ
    | .raise v σ => .raise v σ
    | .wrong => .wrong

/-- A value, down to depth `n`. -/
def view (p : Pairs) : Nat → Val → Tree
  | 0, _ => .more
  | _ + 1, .datum d => .datum d
  | n + 1, .pair l => .pair (view p n (p.pair l).1) (view p n (p.pair l).2)
  | _ + 1, _ => .procedure

def ofBase : Base → Val
  | .datum d => .datum d
  | .prim p => .prim p

/-- The store at the beginning. -/
def initial (g : Nat → Base) : Store :=
  { vars := fun _ => none, nvars := 0, pairs := ⟨fun _ => (.datum .nil, .datum .nil), 0⟩,
    globals := fun i => ofBase (g i) }

/-- An expression at the outermost level. -/
def toplevel (e : Expr) (σ : Store) : State := ⟨.eval e [], .halt, σ⟩

/-- What a program does: the views of the values, and the ending. -/
inductive Behaves (free : Name → Nat) (P : Prims) : Store → List Expr → List (Nat → Tree) → Ending → Prop where
  | nil (σ : Store) : Behaves free P σ [] [] .finished
  | cons {σ σ' : Store} {e : Expr} {es : List Expr} {v : Val} {outs : List (Nat → Tree)}
      {x : Ending} (n : Nat) (h : run free P n (toplevel e σ) = .done v σ')
      (ht : Behaves free P σ' es outs x) :
      Behaves free P σ (e :: es) ((fun n => view σ'.pairs n v) :: outs) x
  | raise {σ σ' : Store} {e : Expr} {es : List Expr} {v : Val} (n : Nat)
      (h : run free P n (toplevel e σ) = .raise v σ') :
      Behaves free P σ (e :: es) [] (.raised fun n => view σ'.pairs n v)
  | forever {σ : Store} {e : Expr} {es : List Expr}
      (h : ∀ n, ∃ st, run free P n (toplevel e σ) = .running st) :
      Behaves free P σ (e :: es) [] .forever

/-- The program is in error. -/
inductive InError (free : Name → Nat) (P : Prims) : Store → List Expr → Prop where
  | here {σ : Store} {e : Expr} {es : List Expr} (n : Nat)
      (h : run free P n (toplevel e σ) = .wrong) : InError free P σ (e :: es)
  | later {σ σ' : Store} {e : Expr} {es : List Expr} {v : Val} (n : Nat)
      (h : run free P n (toplevel e σ) = .done v σ') (ht : InError free P σ' es) :
      InError free P σ (e :: es)

/-- The states that a program goes through. -/
inductive Reaches (free : Name → Nat) (P : Prims) : Store → List Expr → State → Prop where
  | here {σ : Store} {e : Expr} {es : List Expr} {st : State} (n : Nat)
      (h : run free P n (toplevel e σ) = .running st) : Reaches free P σ (e :: es) st
  | later {σ σ' : Store} {e : Expr} {es : List Expr} {v : Val} {st : State} (n : Nat)
      (h : run free P n (toplevel e σ) = .done v σ') (ht : Reaches free P σ' es st) :
      Reaches free P σ (e :: es) st

/-- How deep a continuation is.  An expression in a tail position is evaluated with the continuation of the
expression it is in, so it adds nothing. -/
def Kont.depth : Kont → Nat
  | .halt => 0
  | .ite _ _ _ κ => κ.depth + 1
  | .seq _ _ κ => κ.depth + 1
  | .set _ _ κ => κ.depth + 1
  | .arg _ _ _ _ κ => κ.depth + 1
  | .fn _ κ => κ.depth + 1
  | .init _ _ _ _ _ κ => κ.depth + 1
  | .orElse _ _ κ => κ.depth + 1
  | .arrow _ _ _ κ => κ.depth + 1
  | .let_ _ _ _ _ _ κ => κ.depth + 1
  | .named _ _ _ _ _ _ κ => κ.depth + 1
  | .loop _ _ _ _ κ => κ.depth + 1
  | .test _ _ κ => κ.depth + 1
  | .command _ _ _ κ => κ.depth + 1

def Val.bool (b : Bool) : Val := .datum (.bool b)

/-- The car of a pair. -/
def Pairs.car (p : Pairs) : Val → Option Val
  | .pair l => some (p.pair l).1
  | .datum (.cons a _) => some (.datum a)
  | _ => none

/-- The cdr of a pair. -/
def Pairs.cdr (p : Pairs) : Val → Option Val
  | .pair l => some (p.pair l).2
  | .datum (.cons _ d) => some (.datum d)
  | _ => none

def Val.isPair : Val → Bool
  | .pair _ => true
  | .datum (.cons _ _) => true
  | _ => false

def Val.isNull : Val → Bool
  | .datum .nil => true
  | _ => false

/-- The procedures of Spec/Builtins.lean. -/
def core : Prims := fun n vs p =>
  match n, vs with
  | 0, [a, d] => .ok (.pair p.next) (p.cons a d)
  | 1, [x] => match p.car x with | some v => .ok v p | none => .wrong
  | 2, [x] => match p.cdr x with | some v => .ok v p | none => .wrong
  | 3, [.pair l, v] =>
    .ok v { p with pair := fun l' => if l' = l then (v, (p.pair l).2) else p.pair l' }
  | 4, [.pair l, v] =>
    .ok v { p with pair := fun l' => if l' = l then ((p.pair l).1, v) else p.pair l' }
  | 5, vs => .ok (p.list vs).1 (p.list vs).2
  | 6, [x] => .ok (.bool x.isPair) p
  | 7, [x] => .ok (.bool x.isNull) p
  | 8, [x] => .ok (.bool (!x.truthy)) p
  | 9, [.datum (.sym a), .datum (.sym b)] => .ok (.bool (a = b)) p
  | 9, [.datum (.bool a), .datum (.bool b)] => .ok (.bool (a = b)) p
  | 9, [.datum .nil, .datum .nil] => .ok (.bool true) p
  | 9, [.pair a, .pair b] => .ok (.bool (a = b)) p
  | 9, [.prim a, .prim b] => .ok (.bool (a = b)) p
  | 9, [.pair _, .datum .nil] => .ok (.bool false) p
  | 9, [.datum .nil, .pair _] => .ok (.bool false) p
  | 9, [.pair _, .datum (.sym _)] => .ok (.bool false) p
  | 9, [.datum (.sym _), .pair _] => .ok (.bool false) p
  | 10, [x] => .throw x p
  | _, _ => .wrong

end Meevax.Surface
