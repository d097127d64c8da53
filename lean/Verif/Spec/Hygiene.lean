import Verif.Model.Expander

/-!
What hygienic expansion means, independently of how the expander works.

An identifier is a symbol or the object a macro got from `rename`.  An identifier refers to the
innermost enclosing binding *of that very identifier*; if there is none, a symbol refers to the
global binding the program sees, and a renamed identifier to the global binding that the place of
the macro definition sees.  Nothing is ever renamed here: the scope is the list of the formals as
they stand in the (macro expanded) source.

`Den` gives a form its meaning: a term, in which every variable is an address.  `emit` is the code of
a term.  The side conditions of the rules say where the expander does not do this; each of them is
shown to be needed in Props/HygieneFails.lean.
-/

namespace Meevax.Expand.Spec

open Secd (Name Code)

/-- Where a variable lives: argument `j` of frame `i`, the rest argument of frame `i` (which has `j`
other arguments), or a global binding. -/
inductive Address where
  | loc (i j : Nat)
  | rest (i j : Nat)
  | glob (g : Nat)
  deriving DecidableEq, Repr

/-- Programs in which every variable is an address.  A procedure has `n` fixed parameters and perhaps a
rest parameter. -/
inductive Term where
  | const (c : Secd.Form)
  | ref (a : Address)
  | lam (n : Nat) (rest : Bool) (body : List Term)
  | when (t c : Term)
  | ite (t c a : Term)
  | set (a : Address) (t : Term)
  | app (f : Term) (args : List Term)
  | seq (ts : List Term)
  | letrec (inits body : List Term)

/-- Read a variable. -/
def Address.load : Address → Secd.Instr
  | .loc i j => .loadRelative i j
  | .rest i j => .loadVariadic i j
  | .glob g => .loadAbsolute g

/-- Assign a variable. -/
def Address.store : Address → Secd.Instr
  | .loc i j => .storeRelative i j
  | .rest i j => .storeVariadic i j
  | .glob g => .storeAbsolute g

mutual

/-- The code of a term before the code `k`; a tail call does not come back. -/
def emit : Term → Code → Bool → Code
  | .const c, k, _ => .loadConstant c :: k
  | .ref a, k, _ => a.load :: k
  | .lam _ _ body, k, _ => .loadClosure (emitBody body) :: k
  | .when t c, k, tail =>
    if tail then
      emit t [.tailSelect (emit c k true) [.loadConstant .unspecified, .ret]] false
    else
      emit t (.select (emit c [.join] false) [.loadConstant .unspecified, .join] :: k) false
  | .ite t c a, k, tail =>
    if tail then emit t [.tailSelect (emit c k true) (emit a k true)] false
    else emit t (.select (emit c [.join] false) (emit a [.join] false) :: k) false
  | .set a t, k, _ => emit t (a.store :: k) false
  | .app f args, k, tail =>
    emitArgs args (emit f (if tail then [.tailCall] else .call :: k) false)
  | .seq ts, k, tail => emitSeq ts k tail
  | .letrec inits body, k, tail =>
    .dummy :: emitArgs inits
      (.loadClosure (emitBody body) :: if tail then [.tailLetrec] else .letrec :: k)

/-- Arguments: the last one is evaluated first. -/
def emitArgs : List Term → Code → Code
  | [], k => .loadConstant .nil :: k
  | t :: ts, k => emitArgs ts (emit t (.cons :: k) false)

/-- The body of a procedure. -/
def emitBody : List Term → Code
  | [] => []
  | [t] => emit t [.ret] true
  | t :: ts => emit t (.drop :: emitBody ts) false

/-- A sequence. -/
def emitSeq : List Term → Code → Bool → Code
  | [], k, _ => k
  | [t], k, tail => emit t k tail
  | t :: ts, k, tail => emit t (.drop :: emitSeq ts k tail) false

end

/-- The formals of one binding construct. -/
structure Frame where
  fixed : List Form
  rest : Option Form
  deriving DecidableEq, Repr

/-- All identifiers bound by a frame. -/
def Frame.ids (f : Frame) : List Form := f.fixed ++ f.rest.toList

/-- Formals as written: a list of identifiers, which may end in an identifier. -/
def parse : Form → Option Frame
  | .nil => some ⟨[], none⟩
  | .cons a d => if a.isIdentifier then (parse d).map fun f => ⟨a :: f.fixed, f.rest⟩ else none
  | v => if v.isIdentifier then some ⟨[], some v⟩ else none

/-- The position of an identifier in one frame. -/
def Frame.find (f : Frame) (v : Form) (i : Nat) : Option Address :=
  match f.fixed.findIdx? (· = v) with
  | some j => some (.loc i j)
  | none => if f.rest = some v then some (.rest i f.fixed.length) else none

/-- The innermost binding of an identifier; `i` frames lie further in. -/
def lookup : List Frame → Form → Nat → Option Address
  | [], _, _ => none
  | f :: ρ, v, i =>
    match f.find v i with
    | some a => some a
    | none => lookup ρ v (i + 1)

/-- What a program is expanded with. -/
structure Ctx where
  /-- global bindings that are keywords -/
  value : Nat → Option Keyword
  /-- the global bindings of the program -/
  globals : Name → Option Nat
  /-- the binding of a global name that has none yet -/
  fresh : Name → Nat
  /-- the global bindings of the places where macros are defined -/
  env : Nat → Name → Option Nat
  /-- the explicit renaming macros: what they build from a form, and where they were defined -/
  template : Nat → Form → Template
  home : Nat → Nat

/-- The global binding a renamed identifier stands for: that of the symbol which was renamed, where
the macro was defined. -/
def Ctx.origin (C : Ctx) : Nat → Form → Option Nat
  | e, .sym x => C.env e x
  | _, .closure _ e _ v => C.origin e v
  | _, _ => none

/-- The global binding of an identifier that has no lexical one. -/
def Ctx.global (C : Ctx) : Form → Option Nat
  | .sym x => some ((C.globals x).getD (C.fresh x))
  | .closure _ e _ v => C.origin e v
  | _ => none

/-- What an identifier refers to. -/
def Ctx.refers (C : Ctx) (ρ : List Frame) (v : Form) : Option Address :=
  match lookup ρ v 0 with
  | some a => some a
  | none => (C.global v).map .glob

/-- The keyword an identifier is, where it has no lexical binding. -/
def Ctx.keyword (C : Ctx) : Form → Option Keyword
  | .sym x => (C.globals x).bind C.value
  | .closure _ e _ v => (C.origin e v).bind C.value
  | _ => none

/-- The keyword a form starts with. -/
def Ctx.head (C : Ctx) (ρ : List Frame) (v : Form) : Option Keyword :=
  if lookup ρ v 0 = none then C.keyword v else none

/-- The symbol is a fixed parameter of some enclosing procedure. -/
def bound (x : Name) (ρ : List Frame) : Prop := ∃ f ∈ ρ, Form.sym x ∈ f.fixed

/-- The symbol is a parameter, and a fixed parameter further out. -/
def rebound (x : Name) : List Frame → Prop
  | [] => False
  | f :: ρ => (Form.sym x ∈ f.ids ∧ bound x ρ) ∨ rebound x ρ

/-- Formals the expander binds properly: they are different, and an identifier that is a keyword
globally is bound only by a symbol that does not shadow another parameter. -/
def Ctx.Bindable (C : Ctx) (ρ : List Frame) (f : Frame) : Prop :=
  f.ids.Nodup ∧
    ∀ v ∈ f.ids, C.keyword v ≠ none → ∃ x, v = .sym x ∧ ¬ bound x ρ

/-- Names the expander binds properly in `letrec` and by internal definitions: they are different, not
keywords, and do not shadow a parameter. -/
def Ctx.Definable (C : Ctx) (ρ : List Frame) (vs : List Form) : Prop :=
  vs.Nodup ∧ ∀ v ∈ vs, v.isIdentifier ∧ C.keyword v = none ∧ ∀ x, v = .sym x → ¬ bound x ρ

/-- The forms are `ds` and then `es`, after some of the `begin` forms at the front have been replaced by what
is in them: in a body, this is evaluated exactly as if the `begin` were not present (R7RS 4.2.3). -/
inductive Ctx.Flattens (C : Ctx) (ρ : List Frame) : List Form → List Form → List Form → Prop where
  | stop {es} : Ctx.Flattens C ρ es [] es
  | form {d fs ds es} : Ctx.Flattens C ρ fs ds es → Ctx.Flattens C ρ (d :: fs) (d :: ds) es
  | begin {q ys zs ds es} : C.head ρ q = some (.syn .begin) → q.isIdentifier = true →
    Ctx.Flattens C ρ (ys ++ zs) ds es → Ctx.Flattens C ρ (.cons q (.ofList ys) :: zs) ds es

/-- The datum a quotation yields: a datum without renamed identifiers, or a single renamed symbol. -/
inductive Quotable : Form → Secd.Form → Prop where
  | datum {d : Form} {c : Secd.Form} : toDatum d = some c → Quotable d c
  | renamed {i : Stamp} {e : Nat} {free : List Name} {x : Name} :
    Quotable (.closure i e free (.sym x)) (.sym x)

/-- The variable an internal definition defines. -/
def defined : Form → Option Form
  | .cons _ (.cons (.cons v _) _) => some v
  | .cons _ (.cons v _) => some v
  | _ => none

/-- The assignments made for internal definitions. -/
def sets : Nat → List Term → List Term
  | _, [] => []
  | j, t :: ts => .set (.loc 0 j) t :: sets (j + 1) ts

/-- The kinds of things that have a meaning: an expression, a list of expressions, the body of a
procedure, a list of internal definitions. -/
inductive Kind where
  | expr
  | list
  | body
  | defs
  deriving DecidableEq, Repr

/-- `Den C kind ρ form m ts m'`: in the scope `ρ`, the form stands for the terms `ts` (one for an
expression).  `m` and `m'` count the objects that the macros make, before and after. -/
inductive Den (C : Ctx) : Kind → List Frame → Form → Nat → List Term → Nat → Prop where
  /-- a variable -/
  | var {ρ v m a} : v.isIdentifier = true → C.refers ρ v = some a →
    Den C .expr ρ v m [.ref a] m
  /-- a constant -/
  | const {ρ d m c} : d.isIdentifier = false → (∀ a b, d ≠ .cons a b) → toDatum d = some c →
    Den C .expr ρ d m [.const c] m
  /-- `(quote d)` -/
  | quote {ρ q d m c} : C.head ρ q = some (.syn .quote) → q.isIdentifier = true → Quotable d c →
    Den C .expr ρ (.cons q (.cons d .nil)) m [.const c] m
  /-- `(if t c)` -/
  | when {ρ q t c m m' tt tc} : C.head ρ q = some (.syn .cond) → q.isIdentifier = true →
    Den C .list ρ (.ofList [t, c]) m [tt, tc] m' →
    Den C .expr ρ (.cons q (.ofList [t, c])) m [.when tt tc] m'
  /-- `(if t c a)` -/
  | ite {ρ q t c a m m' tt tc ta} : C.head ρ q = some (.syn .cond) → q.isIdentifier = true →
    Den C .list ρ (.ofList [t, c, a]) m [tt, tc, ta] m' →
    Den C .expr ρ (.cons q (.ofList [t, c, a])) m [.ite tt tc ta] m'
  /-- `(set! v e)` -/
  | set {ρ q v e m m' a t} : C.head ρ q = some (.syn .set) → q.isIdentifier = true →
    v.isIdentifier = true → C.refers ρ v = some a →
    Den C .list ρ (.ofList [v, e]) m [.ref a, t] m' →
    Den C .expr ρ (.cons q (.ofList [v, e])) m [.set a t] m'
  /-- `(begin e ...)` -/
  | seq {ρ q es m m' ts} : C.head ρ q = some (.syn .begin) → q.isIdentifier = true →
    ts ≠ [] → Den C .list ρ es m ts m' →
    Den C .expr ρ (.cons q es) m [.seq ts] m'
  /-- `(lambda formals body ...)` -/
  | lam {ρ q formals f forms m m' ts} : C.head ρ q = some (.syn .lambda) → q.isIdentifier = true →
    parse formals = some f → C.Bindable ρ f →
    Den C .body (f :: ρ) forms m ts m' →
    Den C .expr ρ (.cons q (.cons formals forms)) m [.lam f.fixed.length f.rest.isSome ts] m'
  /-- `(letrec ((v e) ...) body ...)` -/
  | letrec {ρ q vs es forms m m₁ m₂ ts₁ ts₂} :
    C.head ρ q = some (.syn .letrec) → q.isIdentifier = true →
    C.Definable ρ vs → vs.length = es.length →
    Den C .list (⟨vs, none⟩ :: ρ) (.ofList es) m ts₁ m₁ →
    Den C .body (⟨vs, none⟩ :: ρ) forms m₁ ts₂ m₂ →
    Den C .expr ρ
      (.cons q (.cons (.ofList (List.zipWith (fun v e => Form.ofList [v, e]) vs es)) forms)) m
      [.letrec ts₁ ts₂] m₂
  /-- `(f e ...)` -/
  | app {ρ f es m m' tf ts} : (f.isIdentifier = true → C.head ρ f = none) →
    (∀ g, tf = .ref (.glob g) → C.value g = none) →
    Den C .list ρ (.cons f es) m (tf :: ts) m' →
    Den C .expr ρ (.cons f es) m [.app tf ts] m'
  /-- a use of a macro: the meaning of what it expands to -/
  | use {ρ q d m out renames m₁ m' t tr} : C.head ρ q = some (.transformer t) →
    q.isIdentifier = true →
    instantiate (C.home t) (C.template t (.cons q d)) [] m = (out, renames, m₁) →
    (∀ x, out = .sym x → ¬ rebound x ρ) →
    Den C .expr ρ out (m₁ + 1) [tr] m' →
    Den C .expr ρ (.cons q d) m [tr] m'
  /-- no expressions -/
  | nil {ρ m} : Den C .list ρ .nil m [] m
  /-- an expression and more -/
  | cons {ρ a d m m₁ m₂ t ts} : Den C .expr ρ a m [t] m₁ → Den C .list ρ d m₁ ts m₂ →
    Den C .list ρ (.cons a d) m (t :: ts) m₂
  /-- a body without definitions -/
  | exprs {ρ es m m' ts} : ts ≠ [] → Den C .list ρ es m ts m' → Den C .body ρ es m ts m'
  /-- a body with definitions whose first expression, after `begin` forms are unwrapped, is neither `begin`
  nor a use of a macro: one frame for the defined variables, which are assigned in order -/
  | define {ρ fs ds vs e es m m₁ m₂ ts₁ ts₂} : C.Flattens (⟨vs, none⟩ :: ρ) fs ds (e :: es) → ds ≠ [] → ds.map defined = vs.map some →
    C.Definable ρ vs →
    (∀ q d, e = .cons q d → q.isIdentifier = true → C.head (⟨vs, none⟩ :: ρ) q ≠ some (.syn .begin) ∧
      ∀ t, C.head (⟨vs, none⟩ :: ρ) q ≠ some (.transformer t)) →
    Den C .defs (⟨vs, none⟩ :: ρ) (.ofList ds) m ts₁ m₁ →
    Den C .list (⟨vs, none⟩ :: ρ) (.ofList (e :: es)) m₁ ts₂ m₂ →
    Den C .body ρ (.ofList fs) m
      [.app (.lam vs.length false (sets 0 ts₁ ++ ts₂)) (List.replicate vs.length (.const .nil))] m₂
  /-- the same when the first expression is a use of a macro; this use is expanded first -/
  | defineUse {ρ fs ds vs q d es m m₁ m₂ m₃ t t₀ ts₁ ts₂} :
    C.Flattens (⟨vs, none⟩ :: ρ) fs ds (.cons q d :: es) → ds ≠ [] → ds.map defined = vs.map some →
    C.Definable ρ vs →
    q.isIdentifier = true → C.head (⟨vs, none⟩ :: ρ) q = some (.transformer t) →
    Den C .expr (⟨vs, none⟩ :: ρ) (.cons q d) m [t₀] m₁ →
    Den C .defs (⟨vs, none⟩ :: ρ) (.ofList ds) m₁ ts₁ m₂ →
    Den C .list (⟨vs, none⟩ :: ρ) (.ofList es) m₂ ts₂ m₃ →
    Den C .body ρ (.ofList fs) m
      [.app (.lam vs.length false (sets 0 ts₁ ++ t₀ :: ts₂)) (List.replicate vs.length (.const .nil))] m₃
  /-- no definitions -/
  | defsNil {ρ m} : Den C .defs ρ .nil m [] m
  /-- `(define v e)` -/
  | defsVar {ρ q v e d m m₁ m₂ t ts} : C.head ρ q = some (.syn .define) → q.isIdentifier = true →
    v.isIdentifier = true →
    Den C .expr ρ e m [t] m₁ → Den C .defs ρ d m₁ ts m₂ →
    Den C .defs ρ (.cons (.ofList [q, v, e]) d) m (t :: ts) m₂
  /-- `(define (v . formals) body ...)` -/
  | defsFun {ρ q v formals f forms d m m₁ m₂ ts₀ ts} :
    C.head ρ q = some (.syn .define) → q.isIdentifier = true →
    parse formals = some f → C.Bindable ρ f →
    Den C .body (f :: ρ) forms m ts₀ m₁ → Den C .defs ρ d m₁ ts m₂ →
    Den C .defs ρ (.cons (.cons q (.cons (.cons v formals) forms)) d) m
      (.lam f.fixed.length f.rest.isSome ts₀ :: ts) m₂

end Meevax.Expand.Spec
