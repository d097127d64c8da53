import Verif.Model.Generator

/-!
What programs mean: the core of Scheme, as in R7RS, given by an abstract machine over expressions
with named variables.  Every binding has a location of its own, operands are evaluated from the
last to the first and then the operator, and a call in tail position leaves the continuation as it
is.  Nothing here mentions code, stacks, dumps or addresses.

`Parse` says which form of the source is which expression.
-/

namespace Meevax.Scheme

open Secd (Name Form Globals Syntax)

/-- Expressions. -/
inductive Expr where
  | const (d : Form)
  | var (x : Name)
  | lam (fs : List Name) (rest : Option Name) (body : Expr)
  | app (f : Expr) (args : List Expr)
  | ite (c t e : Expr)
  | set (x : Name) (e : Expr)
  | letrec (xs : List Name) (inits : List Expr) (body : Expr)
  | seq (a b : Expr)
  | callcc (f : Expr)
  | current (i : Nat)
  | install (i : Nat) (e : Expr)

/-- Environments: the location of each variable in scope, innermost first. -/
abbrev Env := List (Name × Nat)

mutual

/-- Values. -/
inductive Val where
  | datum (d : Form)
  | pair (l : Nat)
  | prim (p : Nat)
  | closure (fs : List Name) (rest : Option Name) (body : Expr) (ρ : Env)
  | cont (κ : Kont)

/-- Continuations: what remains to be done with a value.  Those that hold values of operands carry
a ticket `id`, which is valid once. -/
inductive Kont where
  | halt
  | ite (t e : Expr) (ρ : Env) (κ : Kont)
  | seq (b : Expr) (ρ : Env) (κ : Kont)
  | set (x : Name) (ρ : Env) (κ : Kont)
  | install (i : Nat) (κ : Kont)
  | arg (id : Nat) (todo : List Expr) (done : List Val) (f : Expr) (ρ : Env) (κ : Kont)
  | fn (id : Nat) (args : List Val) (κ : Kont)
  | init (id : Nat) (todo : List Expr) (done : List Val) (locs : List Nat) (body : Expr) (ρ : Env)
      (κ : Kont)
  | callcc (id : Nat) (κ : Kont)

end

/-- The pairs. -/
structure Pairs where
  pair : Nat → Val × Val
  next : Nat

/-- A new pair, at `p.next`. -/
def Pairs.cons (p : Pairs) (a d : Val) : Pairs :=
  { pair := fun l => if l = p.next then (a, d) else p.pair l, next := p.next + 1 }

/-- A new list. -/
def Pairs.list (p : Pairs) : List Val → Val × Pairs
  | [] => (.datum .nil, p)
  | v :: vs =>
    let (t, p) := p.list vs
    (.pair p.next, p.cons v t)

/-- The store.  A variable without a value is bound but not initialised.  `pending` are the tickets
that have been issued and not used. -/
structure Store where
  vars : Nat → Option Val
  nvars : Nat
  pairs : Pairs
  globals : Nat → Val
  regs : Nat → Val
  pending : Nat → Bool
  nid : Nat

/-- What a primitive procedure does; `wrong` is for arguments that are an error. -/
inductive PrimResult where
  | ok (v : Val) (p : Pairs)
  | throw (v : Val) (p : Pairs)
  | wrong

abbrev Prims := Nat → List Val → Pairs → PrimResult

/-- New locations for `vs`. -/
def Store.bind (σ : Store) (vs : List (Option Val)) : List Nat × Store :=
  (List.range' σ.nvars vs.length,
   { σ with vars := fun l => if σ.nvars ≤ l ∧ l < σ.nvars + vs.length
                             then (vs[l - σ.nvars]?).join else σ.vars l,
            nvars := σ.nvars + vs.length })

/-- Give locations their values. -/
def Store.assign (σ : Store) : List Nat → List Val → Store
  | l :: ls, v :: vs => ({ σ with vars := Secd.update σ.vars l (some v) } : Store).assign ls vs
  | _, _ => σ

/-- Issue a ticket. -/
def Store.issue (σ : Store) : Store :=
  { σ with pending := Secd.update σ.pending σ.nid true, nid := σ.nid + 1 }

/-- Use a ticket. -/
def Store.redeem (σ : Store) (id : Nat) : Store :=
  { σ with pending := Secd.update σ.pending id false }

/-- What is going on: an expression is to be evaluated, or there is a value to continue with. -/
inductive Control where
  | eval (e : Expr) (ρ : Env)
  | value (v : Val)

structure State where
  ctl : Control
  κ : Kont
  σ : Store

/-- What one step does.  `wrong` is for what R7RS calls an error without saying that it is
signalled: a wrong number of arguments, the use of a variable that is not initialised.  `reentered`
is for the second use of the continuation of an operand. -/
inductive Result where
  | next (st : State)
  | done (v : Val) (σ : Store)
  | raise (v : Val) (σ : Store)
  | wrong
  | reentered

/-- `#f` is the only false value. -/
def Val.truthy : Val → Bool
  | .datum (.bool false) => false
  | _ => true

/-- Evaluate the operands `todo`, then the operator `f`. -/
def operands (todo : List Expr) (vs : List Val) (f : Expr) (ρ : Env) (κ : Kont) (σ : Store) :
    State :=
  match todo with
  | [] => ⟨.eval f ρ, .fn σ.nid vs κ, σ.issue⟩
  | a :: todo => ⟨.eval a ρ, .arg σ.nid todo vs f ρ κ, σ.issue⟩

/-- Evaluate the initial values `todo`, then give the variables their values and evaluate the
body. -/
def inits (todo : List Expr) (vs : List Val) (locs : List Nat) (body : Expr) (ρ : Env) (κ : Kont)
    (σ : Store) : State :=
  match todo with
  | [] => ⟨.eval body ρ, κ, σ.assign locs vs⟩
  | a :: todo => ⟨.eval a ρ, .init σ.nid todo vs locs body ρ κ, σ.issue⟩

/-- The variables of a procedure with their locations. -/
def bindings (fs : List Name) (rest : Option Name) (locs : List Nat) : Env :=
  (fs ++ rest.toList).zip locs

/-- Apply a procedure. -/
def apply (P : Prims) (f : Val) (vs : List Val) (κ : Kont) (σ : Store) : Result :=
  match f with
  | .closure fs none body ρ =>
    if vs.length = fs.length then
      let (locs, σ) := σ.bind (vs.map some)
      .next ⟨.eval body (bindings fs none locs ++ ρ), κ, σ⟩
    else .wrong
  | .closure fs (some r) body ρ =>
    if fs.length ≤ vs.length then
      let (t, pairs) := σ.pairs.list (vs.drop fs.length)
      let (locs, σ) := ({ σ with pairs } : Store).bind ((vs.take fs.length ++ [t]).map some)
      .next ⟨.eval body (bindings fs (some r) locs ++ ρ), κ, σ⟩
    else .wrong
  | .prim p =>
    match P p vs σ.pairs with
    | .ok v pairs => .next ⟨.value v, κ, { σ with pairs }⟩
    | .throw v pairs => .raise v { σ with pairs }
    | .wrong => .wrong
  | .cont κ' =>
    match vs with
    | [v] => .next ⟨.value v, κ', σ⟩
    | _ => .wrong
  | f => .raise f σ

/-- One step.  `free` gives the identity of a global variable. -/
def step (free : Name → Nat) (P : Prims) : State → Result
  | ⟨.eval e ρ, κ, σ⟩ =>
    match e with
    | .const d => .next ⟨.value (.datum d), κ, σ⟩
    | .var x =>
      match ρ.lookup x with
      | none => .next ⟨.value (σ.globals (free x)), κ, σ⟩
      | some l =>
        match σ.vars l with
        | some v => .next ⟨.value v, κ, σ⟩
        | none => .wrong
    | .lam fs rest body => .next ⟨.value (.closure fs rest body ρ), κ, σ⟩
    | .app f args => .next (operands args.reverse [] f ρ κ σ)
    | .ite c t e => .next ⟨.eval c ρ, .ite t e ρ κ, σ⟩
    | .set x e => .next ⟨.eval e ρ, .set x ρ κ, σ⟩
    | .letrec xs es body =>
      let (locs, σ) := σ.bind (xs.map fun _ => none)
      .next (inits es.reverse [] locs body (bindings xs none locs ++ ρ) κ σ)
    | .seq a b => .next ⟨.eval a ρ, .seq b ρ κ, σ⟩
    | .callcc f => .next ⟨.eval f ρ, .callcc σ.nid κ, σ.issue⟩
    | .current i => .next ⟨.value (σ.regs i), κ, σ⟩
    | .install i e => .next ⟨.eval e ρ, .install i κ, σ⟩
  | ⟨.value v, κ, σ⟩ =>
    match κ with
    | .halt => .done v σ
    | .ite t e ρ κ => .next ⟨.eval (if v.truthy then t else e) ρ, κ, σ⟩
    | .seq b ρ κ => .next ⟨.eval b ρ, κ, σ⟩
    | .set x ρ κ =>
      match ρ.lookup x with
      | none => .next ⟨.value v, κ, { σ with globals := Secd.update σ.globals (free x) v }⟩
      | some l =>
        match σ.vars l with
        | some _ => .next ⟨.value v, κ, { σ with vars := Secd.update σ.vars l (some v) }⟩
        | none => .wrong
    | .install i κ => .next ⟨.value v, κ, { σ with regs := Secd.update σ.regs i v }⟩
    | .arg id todo vs f ρ κ =>
      if σ.pending id then .next (operands todo (v :: vs) f ρ κ (σ.redeem id)) else .reentered
    | .fn id vs κ =>
      if σ.pending id then apply P v vs κ (σ.redeem id) else .reentered
    | .init id todo vs locs body ρ κ =>
      if σ.pending id then .next (inits todo (v :: vs) locs body ρ κ (σ.redeem id))
      else .reentered
    | .callcc id κ =>
      if σ.pending id then apply P v [.cont κ] κ (σ.redeem id) else .reentered

/-- How a run that is cut off after a number of steps stands. -/
inductive Outcome where
  | running (st : State)
  | done (v : Val) (σ : Store)
  | raise (v : Val) (σ : Store)
  | wrong
  | reentered

/-- `n` steps. -/
def run (free : Name → Nat) (P : Prims) : Nat → State → Outcome
  | 0, st => .running st
  | n + 1, st =>
    match step free P st with
    | .next st => run free P n st
    | .done v σ => .done v σ
    | .raise v σ => .raise v σ
    | .wrong => .wrong
    | .reentered => .reentered

/-- The formals of a lambda expression. -/
inductive ParseFormals : Form → List Name → Option Name → Prop where
  | nil : ParseFormals .nil [] none
  | rest (r : Name) : ParseFormals (.sym r) [] (some r)
  | cons {d : Form} {fs : List Name} {rest : Option Name} (x : Name) (h : ParseFormals d fs rest) :
      ParseFormals (.cons (.sym x) d) (x :: fs) rest

/-- The formals of the enclosing procedures, innermost first. -/
abbrev Scopes := List (List Name × Option Name)

/-- All variables of the scopes. -/
def names : Scopes → List Name
  | [] => []
  | (fs, rest) :: sc => fs ++ rest.toList ++ names sc

/-- `x` stands for the keyword `s`: it is not bound by the program, and globally it is syntax. -/
def IsKeyword (G : Globals) (sc : Scopes) (x : Name) (s : Syntax) : Prop :=
  x ∉ names sc ∧ G.syn (G.free x) = some s

/-- The form `a` is no keyword. -/
def NotKeyword (G : Globals) (sc : Scopes) (a : Form) : Prop :=
  ∀ x, a = .sym x → x ∈ names sc ∨ G.syn (G.free x) = none

/-- What kind of thing a form is read as: an expression, the operands of a call, the bindings of
`letrec`, or the expressions of a body. -/
inductive Item where
  | expr (e : Expr)
  | args (es : List Expr)
  | binds (xs : List Name) (es : List Expr)
  | body (e : Expr)

/-- Which form is what, inside procedures with the formals `sc`. -/
inductive Parse (G : Globals) : Scopes → Form → Item → Prop where
  | var (sc : Scopes) (x : Name) : Parse G sc (.sym x) (.expr (.var x))
  | self {sc : Scopes} {d : Form} (h₁ : ∀ x, d ≠ .sym x) (h₂ : ∀ a b, d ≠ .cons a b) :
      Parse G sc d (.expr (.const d))
  | quote {sc : Scopes} {q : Name} (d : Form) (hq : IsKeyword G sc q .quote) :
      Parse G sc (.cons (.sym q) (.cons d .nil)) (.expr (.const d))
  | lambda {sc : Scopes} {q : Name} {formals body : Form} {fs : List Name}
      {rest : Option Name} {e : Expr} (hq : IsKeyword G sc q .lambda)
      (hf : ParseFormals formals fs rest) (hb : Parse G ((fs, rest) :: sc) body (.body e)) :
      Parse G sc (.cons (.sym q) (.cons formals body)) (.expr (.lam fs rest e))
  | app {sc : Scopes} {a args : Form} {f : Expr} {es : List Expr} (hk : NotKeyword G sc a)
      (hf : Parse G sc a (.expr f)) (ha : Parse G sc args (.args es)) :
      Parse G sc (.cons a args) (.expr (.app f es))
  | cond {sc : Scopes} {q : Name} {c t e : Form} {c' t' e' : Expr}
      (hq : IsKeyword G sc q .cond) (hc : Parse G sc c (.expr c'))
      (ht : Parse G sc t (.expr t')) (he : Parse G sc e (.expr e')) :
      Parse G sc (.cons (.sym q) (.cons c (.cons t (.cons e .nil)))) (.expr (.ite c' t' e'))
  | cond₁ {sc : Scopes} {q : Name} {c t : Form} {c' t' : Expr}
      (hq : IsKeyword G sc q .cond) (hc : Parse G sc c (.expr c'))
      (ht : Parse G sc t (.expr t')) :
      Parse G sc (.cons (.sym q) (.cons c (.cons t .nil)))
        (.expr (.ite c' t' (.const .unspecified)))
  | set {sc : Scopes} {q x : Name} {e : Form} {e' : Expr} (hq : IsKeyword G sc q .set)
      (he : Parse G sc e (.expr e')) :
      Parse G sc (.cons (.sym q) (.cons (.sym x) (.cons e .nil))) (.expr (.set x e'))
  | define {q x : Name} {e : Form} {e' : Expr} (hq : IsKeyword G [] q .define)
      (he : Parse G [] e (.expr e')) :
      Parse G [] (.cons (.sym q) (.cons (.sym x) (.cons e .nil))) (.expr (.set x e'))
  | letrec {sc : Scopes} {q : Name} {bs body : Form} {xs : List Name} {es : List Expr}
      {e : Expr} (hq : IsKeyword G sc q .letrec) (hbs : Parse G ((xs, none) :: sc) bs (.binds xs es))
      (hb : Parse G ((xs, none) :: sc) body (.body e)) :
      Parse G sc (.cons (.sym q) (.cons bs body)) (.expr (.letrec xs es e))
  | begin {sc : Scopes} {q : Name} {body : Form} {e : Expr}
      (hq : IsKeyword G sc q .begin) (hb : Parse G sc body (.body e)) :
      Parse G sc (.cons (.sym q) body) (.expr e)
  | callcc {sc : Scopes} {q : Name} {f : Form} {f' : Expr}
      (hq : IsKeyword G sc q .callCC) (hf : Parse G sc f (.expr f')) :
      Parse G sc (.cons (.sym q) (.cons f .nil)) (.expr (.callcc f'))
  | current {sc : Scopes} {q : Name} (n : Nat) (hq : IsKeyword G sc q .current) :
      Parse G sc (.cons (.sym q) (.cons (.atom n) .nil)) (.expr (.current n))
  | install {sc : Scopes} {q : Name} {e : Form} {e' : Expr} (n : Nat)
      (hq : IsKeyword G sc q .install) (he : Parse G sc e (.expr e')) :
      Parse G sc (.cons (.sym q) (.cons (.atom n) (.cons e .nil))) (.expr (.install n e'))
  | noArgs {sc : Scopes} : Parse G sc .nil (.args [])
  | arg {sc : Scopes} {a d : Form} {e : Expr} {es : List Expr}
      (ha : Parse G sc a (.expr e)) (hd : Parse G sc d (.args es)) :
      Parse G sc (.cons a d) (.args (e :: es))
  | noBinds {sc : Scopes} : Parse G sc .nil (.binds [] [])
  | bind {sc : Scopes} {a d : Form} {x : Name} {e : Expr} {xs : List Name} {es : List Expr}
      (ha : Parse G sc a (.expr e)) (hd : Parse G sc d (.binds xs es)) :
      Parse G sc (.cons (.cons (.sym x) (.cons a .nil)) d) (.binds (x :: xs) (e :: es))
  | last {sc : Scopes} {a : Form} {e : Expr} (ha : Parse G sc a (.expr e)) :
      Parse G sc (.cons a .nil) (.body e)
  | more {sc : Scopes} {a d : Form} {e es : Expr} (ha : Parse G sc a (.expr e))
      (hd : Parse G sc d (.body es)) :
      Parse G sc (.cons a d) (.body (.seq e es))

/-- Where `call-with-current-continuation!` may stand: in tail position, and applied to a variable or
a lambda expression.  (The library uses it in no other way: library/meevax.ss L85, library/srfi-1.ss
L838, L857, L873.)  The flag tells whether the expression is in tail position of a procedure body. -/
inductive Placed : Bool → Expr → Prop where
  | const (t : Bool) (d : Form) : Placed t (.const d)
  | var (t : Bool) (x : Name) : Placed t (.var x)
  | lam {body : Expr} (t : Bool) (fs : List Name) (rest : Option Name) (h : Placed true body) :
      Placed t (.lam fs rest body)
  | app {f : Expr} {args : List Expr} (t : Bool) (hf : Placed false f)
      (ha : ∀ a ∈ args, Placed false a) : Placed t (.app f args)
  | ite {t : Bool} {a b c : Expr} (ha : Placed false a) (hb : Placed t b) (hc : Placed t c) :
      Placed t (.ite a b c)
  | set {e : Expr} (t : Bool) (x : Name) (h : Placed false e) : Placed t (.set x e)
  | letrec {es : List Expr} {body : Expr} (t : Bool) (xs : List Name) (hl : xs.length = es.length)
      (hes : ∀ e ∈ es, Placed false e) (hb : Placed true body) : Placed t (.letrec xs es body)
  | seq {t : Bool} {a b : Expr} (ha : Placed false a) (hb : Placed t b) : Placed t (.seq a b)
  | callccVar (x : Name) : Placed true (.callcc (.var x))
  | callccLam {body : Expr} (fs : List Name) (rest : Option Name) (h : Placed true body) :
      Placed true (.callcc (.lam fs rest body))
  | current (t : Bool) (i : Nat) : Placed t (.current i)
  | install {e : Expr} (t : Bool) (i : Nat) (h : Placed false e) : Placed t (.install i e)

/-- Expressions without `call-with-current-continuation!`. -/
inductive Plain : Expr → Prop where
  | const (d : Form) : Plain (.const d)
  | var (x : Name) : Plain (.var x)
  | lam {body : Expr} (fs : List Name) (rest : Option Name) (h : Plain body) :
      Plain (.lam fs rest body)
  | app {f : Expr} {args : List Expr} (hf : Plain f) (ha : ∀ a ∈ args, Plain a) :
      Plain (.app f args)
  | ite {a b c : Expr} (ha : Plain a) (hb : Plain b) (hc : Plain c) : Plain (.ite a b c)
  | set {e : Expr} (x : Name) (h : Plain e) : Plain (.set x e)
  | letrec {es : List Expr} {body : Expr} (xs : List Name) (hes : ∀ e ∈ es, Plain e)
      (hb : Plain body) : Plain (.letrec xs es body)
  | seq {a b : Expr} (ha : Plain a) (hb : Plain b) : Plain (.seq a b)
  | current (i : Nat) : Plain (.current i)
  | install {e : Expr} (i : Nat) (h : Plain e) : Plain (.install i e)

end Meevax.Scheme
