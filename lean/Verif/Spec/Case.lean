import Verif.Model.Case

/-!
What `case`, `when`, `unless` and `letrec*` are to do (R7RS 4.2.1, 4.2.2, 4.2.6), for expressions that are functions
of the environment and the store.
-/

namespace Meevax.Case.Spec

open Meevax.Rules Meevax.Case
open Meevax.LibraryMacros (idsOf)

abbrev Form := Meevax.Rules.Form

/-- The user wrote the form: nothing in it was made by renaming. -/
def User (Γ : Ctx) (f : Form) : Prop := ∀ x ∈ idsOf f, ¬Γ.made x

/-- An expression of the user: not a definition, and not the keyword `define`. -/
def Expr (Γ : Ctx) (f : Form) : Prop :=
  User Γ f ∧ (∀ k args, f = .cons (.id k) args → Γ.kw k = none) ∧ ∀ k, f = .id k → Γ.kw k = none

/-- Only `#f` is false, and the unspecified object evaluates to itself. -/
structure Lawful {V S} (O : Objects V S) (H : Host V S) : Prop where
  truth : ∀ f, O.truth (O.datum f) = (f != .bool false)
  unspecified : ∀ ρ σ, H .undefined ρ σ = some (O.unspecified, σ)

/-- There are always new identifiers. -/
def Supply (Γ : Ctx) : Prop := ∃ U : Use, Fresh Γ U

/-- Expressions in order; the last one gives the value. -/
def seq {V S} (H : Host V S) : List Form → (Nat → Option Nat) → State V S → Option (V × State V S)
  | [], _, _ => none
  | [e], ρ, σ => H e ρ σ
  | e :: es, ρ, σ => do
    let (_, σ) ← H e ρ σ
    seq H es ρ σ

/-- What follows the data of a clause: expressions, or `=>` and the expression of a procedure. -/
inductive Body where
  | exprs (es : List Form)
  | arrow (f : Form)

/-- A clause; without data: `else`. -/
structure Clause where
  data : Option (List Form)
  body : Body

/-- The text of what follows the data. -/
inductive ReadsBody (U : Use) : Form → Body → Prop
  | exprs {es : List Form} : (∀ e, es.head? = some e → is U 10 e = false) → ReadsBody U (.ofList es) (.exprs es)
  | arrow {a f : Form} : is U 10 a = true → ReadsBody U (.ofList [a, f]) (.arrow f)

/-- The text of a clause. -/
inductive ReadsClause (U : Use) : Form → Clause → Prop
  | els {e b : Form} {body : Body} : is U 9 e = true → ReadsBody U b body → ReadsClause U (.cons e b) ⟨none, body⟩
  | data {ds : List Form} {b : Form} {body : Body} : ReadsBody U b body →
      ReadsClause U (.cons (.ofList ds) b) ⟨some ds, body⟩

/-- The text of the clauses. -/
inductive Reads (U : Use) : Form → List Clause → Prop
  | nil : Reads U .nil []
  | cons {c cs : Form} {clause : Clause} {clauses : List Clause} : ReadsClause U c clause → Reads U cs clauses →
      Reads U (.cons c cs) (clause :: clauses)

/-- The expressions of a body. -/
def Body.parts : Body → List Form
  | .exprs es => es
  | .arrow f => [f]

/-- The user wrote the clauses. -/
def Written (Γ : Ctx) (clauses : List Clause) : Prop :=
  ∀ c ∈ clauses, (∀ ds, c.data = some ds → ∀ d ∈ ds, User Γ d) ∧ ∀ e ∈ c.body.parts, Expr Γ e

/-- The clause is chosen for this key: `else`, or one of the data is the same as the key in the sense of `eqv?`. -/
def Clause.accepts {V S} (O : Objects V S) (key : V) (c : Clause) : Bool :=
  match c.data with
  | none => true
  | some ds => ds.any fun d => O.eqv key (O.datum d)

/-- The value of a clause.  A clause without expressions (an extension) returns the key. -/
def Body.run {V S} (O : Objects V S) (H : Host V S) (key : V) :
    Body → (Nat → Option Nat) → State V S → Option (V × State V S)
  | .exprs [], _, σ => some (key, σ)
  | .exprs es, ρ, σ => seq H es ρ σ
  | .arrow f, ρ, σ => do
    let (f, σ) ← H f ρ σ
    O.apply f [key] σ

/-- `case`: the key is evaluated, once; the first clause that accepts it is evaluated, and no other. -/
def case {V S} (O : Objects V S) (H : Host V S) (key : Form) (clauses : List Clause) (ρ : Nat → Option Nat)
    (σ : State V S) : Option (V × State V S) := do
  let (v, σ) ← H key ρ σ
  match clauses.find? (Clause.accepts O v) with
  | some c => c.body.run O H v ρ σ
  | none => some (O.unspecified, σ)

/-- `when` (`wanted = true`) and `unless` (`wanted = false`): the test is evaluated, once; if it is as wanted, the
expressions are evaluated in order. -/
def when {V S} (O : Objects V S) (H : Host V S) (wanted : Bool) (test : Form) (es : List Form) (ρ : Nat → Option Nat)
    (σ : State V S) : Option (V × State V S) := do
  let (v, σ) ← H test ρ σ
  if O.truth v = wanted then seq H es ρ σ else some (O.unspecified, σ)

/-- The environment and the store extend the old ones by new locations for the variables. -/
structure Extends {V S} (xs : List Nat) (ρ ρ' : Nat → Option Nat) (σ σ' : State V S) : Prop where
  same : ∀ y, y ∉ xs → ρ' y = ρ y
  fresh : ∀ x ∈ xs, ∃ l, ρ' x = some l ∧ σ.next ≤ l ∧ l < σ'.next
  distinct : ∀ x ∈ xs, ∀ y ∈ xs, ρ' x = ρ' y → x = y
  kept : ∀ l, l < σ.next → σ'.locs l = σ.locs l
  rest : σ'.rest = σ.rest

/-- The store in which the location of a variable holds another value, and nothing else is different. -/
def Assigned {V S} (ρ : Nat → Option Nat) (x : Nat) (v : V) (σ σ' : State V S) : Prop :=
  ∃ l, ρ x = some l ∧ σ'.locs l = v ∧ (∀ k, k ≠ l → σ'.locs k = σ.locs k) ∧ σ'.next = σ.next ∧ σ'.rest = σ.rest

/-- The initial values of `letrec*`: each is evaluated in the new environment, after the assignments of those
before. -/
inductive Inits {V S} (H : Host V S) (ρ : Nat → Option Nat) :
    List (Nat × Form) → State V S → State V S → Prop
  | nil {σ} : Inits H ρ [] σ σ
  | cons {x e bs v σ₁ σ₂ σ₃ σ₄} : H e ρ σ₁ = some (v, σ₂) → Assigned ρ x v σ₂ σ₃ → Inits H ρ bs σ₃ σ₄ →
      Inits H ρ ((x, e) :: bs) σ₁ σ₄

/-- `letrec*`, in an environment and a store with the new locations. -/
def LetrecStar {V S} (H : Host V S) (bs : List (Nat × Form)) (es : List Form) (ρ : Nat → Option Nat) (σ : State V S)
    (r : V × State V S) : Prop :=
  ∃ σ', Inits H ρ bs σ σ' ∧ seq H es ρ σ' = some r

/-- The text of the bindings. -/
def bindings (bs : List (Nat × Form)) : Form := .ofList (bs.map fun b => .ofList [.id b.1, b.2])

end Meevax.Case.Spec
