import Mathlib.Data.List.Basic

/-!
Model of `syntax-rules` (library/srfi-149.ss).

`syntax-rules` is itself an explicit renaming macro: from the literals and the rules it makes the text of
a procedure, and that procedure is run on each use of the macro.  Both halves are modelled: the functions
that make the text (`lp`, `template`, …), and the texts they make (`Exp`) with their evaluation (`eval`).

Simplifications.
* Forms are finite trees; the elements of a vector are kept as a list.  Strings and characters are `atom`s,
  the same `atom` for objects that are `equal?`.
* An identifier is a number; what `compare` and `rename` (library/meevax.ss L31-L40) do with identifiers is
  a parameter, at the place of the definition (`Def`) and at the place of the use (`Use`).  `compare` of
  something that is not an identifier is `#f` (src/kernel/syntactic_closure.cpp L157-L158).
* A text `Exp` has one constructor for each kind of expression the generator makes, and `eval` gives it the
  meaning the report gives it.  The keywords and procedures in it are renamed, so that nothing the user
  binds can capture them.
* The identifiers made by `next-symbol` (L96-L98) carry a count that is never used twice; they are
  `Var.gen`.  The renamed `len`, `ls`, `i`, `res`, `expr` (L80-L87) are variables of their own, and the
  user's pattern variables are `Var.pat`.
* An error or undefined behaviour is `none`; so is running out of fuel.
-/

namespace Meevax.Rules

/-- Forms (library/srfi-149.ss L70-L99). -/
inductive Form where
  | nil
  | bool (b : Bool)
  | num (n : Int)
  | atom (n : Nat)
  | undefined
  | id (x : Nat)
  | cons (a d : Form)
  | vec (xs : Form)
  deriving DecidableEq, Repr

/-- The number of nodes; only bounds the depth of calls (auxiliary to library/srfi-149.ss L100). -/
def Form.size : Form → Nat
  | .cons a d => a.size + d.size + 1
  | .vec xs => xs.size + 1
  | _ => 1

/-- A list of forms as a form (auxiliary to library/srfi-149.ss L99). -/
def Form.ofList : List Form → Form
  | [] => .nil
  | a :: d => .cons a (Form.ofList d)

/-- The elements of a proper list (auxiliary to library/srfi-149.ss L99). -/
def Form.toList : Form → Option (List Form)
  | .nil => some []
  | .cons a d => (d.toList).map (a :: ·)
  | _ => none

/-- Variables in the text of the procedure: pattern variables, the identifiers of `next-symbol` (L96-L98),
and the renamed `expr`, `len`, `ls`, `i`, `res` (L80-L87). -/
inductive Var where
  | pat (x : Nat)
  | gen (n : Nat)
  | expr
  | len
  | ls
  | i
  | res
  deriving DecidableEq, Repr

/-- Procedures of one argument that occur in the text (library/srfi-149.ss L74-L92). -/
inductive Prim1 where
  | isPair | isNull | isList | isVector | car | cdr | vectorToList | listToVector | reverse | length
  deriving DecidableEq, Repr

/-- Procedures of two arguments that occur in the text.  `cons-source` is `cons` (L51); the third argument
it is given is not looked at. -/
inductive Prim2 where
  | cons | ge | sub | compare | equal | append
  deriving DecidableEq, Repr

/-- The texts the generator makes (library/srfi-149.ss L70-L92). -/
inductive Exp where
  /-- a variable -/
  | var (v : Var)
  /-- `(quote-syntax f)`, or a constant -/
  | const (f : Form)
  /-- `(rename (quote-syntax x))` -/
  | rename (x : Nat)
  /-- `(let ((v e) ...) body)` -/
  | bind (bs : List (Var × Exp)) (body : Exp)
  /-- `(let name ((v e) ...) body)` -/
  | loop (name : Var) (bs : List (Var × Exp)) (body : Exp)
  /-- `(name e ...)` for the name of a loop -/
  | call (name : Var) (args : List Exp)
  /-- `(and a b)` -/
  | and (a b : Exp)
  /-- `(if c t e)` -/
  | ite (c t e : Exp)
  | prim1 (p : Prim1) (a : Exp)
  | prim2 (p : Prim2) (a b : Exp)
  /-- `(apply append e)` -/
  | applyAppend (e : Exp)
  /-- `(map (lambda (v ...) body) e ...)` -/
  | map (params : List Var) (body : Exp) (args : List Exp)

/-- What the identifiers mean where the macro is defined: `compare`, the ellipsis (L93), the renamed `_`
(L92) and the literals (L94).  `inserted` are the identifiers that are syntactic closures, that is those a
macro has inserted whose expansion the definition is (syntactic_closure.hpp L25). -/
structure Def where
  compare : Nat → Nat → Bool
  ellipsis : Nat
  under : Nat
  lits : List Nat
  inserted : Nat → Bool := fun _ => false

/-- What the identifiers mean where the macro is used (library/meevax.ss L31-L40). -/
structure Use where
  compare : Nat → Nat → Bool
  rename : Nat → Nat

/-! ### The generator -/

/-- `vars`: pattern variables and their ellipsis depth (library/srfi-149.ss L100-L101). -/
abbrev Vars := List (Nat × Nat)

/-- `(any (lambda (l) (compare p l)) lits)` (L111, L212). -/
def Def.isLit (D : Def) (p : Nat) : Bool := D.lits.any fun l => D.compare p l

/-- `ellipsis?` (L199-L200). -/
def Def.isEllipsis (D : Def) : Form → Bool
  | .cons _ (.cons (.id e) _) => D.compare D.ellipsis e
  | _ => false

/-- `ellipsis-escape?` (L198). -/
def Def.isEscape (D : Def) : Form → Bool
  | .cons (.id e) _ => D.compare D.ellipsis e
  | _ => false

/-- `ellipsis-depth` (L201-L204). -/
def Def.ellipsisDepth (D : Def) : Form → Nat
  | .cons a d => if D.isEllipsis (.cons a d) then D.ellipsisDepth d + 1 else 0
  | _ => 0

/-- `ellipsis-tail` (L205-L208). -/
def Def.ellipsisTail (D : Def) : Form → Form
  | .cons a d => if D.isEllipsis (.cons a d) then D.ellipsisTail d else d
  | x => x

/-- The loop of `length*` (L39-L49).  `(eq? ls1 ls2)` is false of a tree. -/
def lengthLoop : Form → Nat → Nat
  | .cons _ (.cons _ d), res => lengthLoop d (res + 2)
  | .cons _ _, res => res + 1
  | _, res => res

/-- `length*` (L36-L49). -/
def lengthStar : Form → Nat
  | .cons _ d => lengthLoop d 1
  | _ => 0

/-- `(any (lambda (x) (and (identifier? x) (compare x ellipsis))) xs)` (L122-L123). -/
def Def.anyEllipsis (D : Def) : Form → Bool
  | .cons (.id x) d => D.compare x D.ellipsis || D.anyEllipsis d
  | .cons _ d => D.anyEllipsis d
  | _ => false

/-- `all-vars` (L209-L218). -/
def Def.allVars (D : Def) : Form → Nat → Vars → Vars
  | .id x, dim, vars => if D.isLit x then vars else (x, dim) :: vars
  | .cons a (.cons b d), dim, vars =>
    if D.isEllipsis (.cons a (.cons b d)) then D.allVars a (dim + 1) (D.allVars d dim vars)
    else D.allVars a dim (D.allVars (.cons b d) dim vars)
  | .cons a d, dim, vars => D.allVars a dim (D.allVars d dim vars)
  | .vec xs, dim, vars => D.allVars xs dim vars
  | _, _, vars => vars

/-- `(assq x vars)` (library/srfi-149.ss L224). -/
def Vars.depth (vars : Vars) (x : Nat) : Option Nat := (vars.find? fun v => v.1 = x).map Prod.snd

/-- `free-vars` (L219-L230). -/
def freeVars (vars : Vars) (dim : Nat) : Form → List Nat → List Nat
  | .id x, free =>
    if x ∈ free then free
    else
      match Vars.depth vars x with
      | some d => if dim ≤ d then x :: free else free
      | none => free
  | .cons a d, free => freeVars vars dim a (freeVars vars dim d free)
  | .vec xs, free => freeVars vars dim xs free
  | _, free => free

/-- `(apply append (apply append … nest))`, for an ellipsis depth of `n + 1` (L269-L272). -/
def applyAppends : Nat → Exp → Exp
  | 0, e => e
  | n + 1, e => applyAppends n (.applyAppend e)

/-- The loop of `expand-template` (L232-L279).  The shortcut of L262-L265 is never taken: it compares an
identifier with an element of `vars`, which is a pair. -/
def Def.template (D : Def) (vars : Vars) : Nat → Form → Nat → Option Exp
  | 0, _, _ => none
  | _ + 1, .id x, dim =>
    match Vars.depth vars x with
    | some d => if d ≤ dim then some (.var (.pat x)) else none
    | none => some (.rename x)
  | f + 1, .cons a d, dim =>
    if D.isEscape (.cons a d) then
      some (.const
        (match d with
         | .cons _ (.cons c e) => .cons c e
         | .cons b _ => b
         | d => d))
    else if D.isEllipsis (.cons a d) then
      let depth := D.ellipsisDepth (.cons a d)
      let tail := D.ellipsisTail (.cons a d)
      match freeVars vars (dim + depth) a [] with
      | [] => none
      | ellVars =>
        match a, d with
        | .id x, .cons _ .nil => D.template vars f (.id x) (dim + depth)
        | a, _ => do
          let once ← D.template vars f a (dim + depth)
          let many := applyAppends (depth - 1) (.map (ellVars.map .pat) once (ellVars.map fun x => .var (.pat x)))
          if tail = .nil then some many
          else do
            let rest ← D.template vars f tail dim
            some (.prim2 .append many rest)
    else do
      let e₁ ← D.template vars f a dim
      let e₂ ← D.template vars f d dim
      some (.prim2 .cons e₁ e₂)
  | f + 1, .vec xs, dim => (D.template vars f xs dim).map (.prim1 .listToVector)
  | _ + 1, t, _ => some (.const t)

/-- `expand-template` (L231). -/
def Def.expandTemplate (D : Def) (t : Form) (vars : Vars) : Option Exp := D.template vars t.size t 0

/-- The rest of the text, given the variables bound so far and the count of `next-symbol`
(auxiliary to library/srfi-149.ss L100-L197). -/
abbrev Cont := Vars → Nat → Option (Exp × Nat)

/-- The loop of `expand-pattern` (L100-L197) for the pattern `p`, the expression `x` for the form to be
matched, the ellipsis depth `dim`, the variables `vars` bound before, and the continuation `k`; `c` is the
count of `next-symbol`.  The first argument bounds the depth of calls.  For a pattern before an ellipsis that
is not an identifier, `identifier->symbol` is called on its variables (L155-L160): undefined behaviour if one
of them is a syntactic closure (boot.cpp L374; Model/Types.lean). -/
def Def.lp (D : Def) : Nat → Form → Exp → Nat → Vars → Cont → Nat → Option (Exp × Nat)
  | 0, _, _, _, _, _, _ => none
  | f + 1, p, x, dim, vars, k, c =>
    let v := Var.gen (c + 1)
    let c := c + 1
    Option.map (fun r => (Exp.bind [(v, x)] r.1, r.2)) <|
      match p with
      | .id y =>
        if D.isLit y then
          (k vars c).map fun r => (.and (.prim2 .compare (.var v) (.rename y)) r.1, r.2)
        else if D.compare y D.under then k vars c
        else (k ((y, dim) :: vars) c).map fun r => (.bind [(.pat y, .var v)] r.1, r.2)
      | .cons a d =>
        if D.isEllipsis (.cons a d) then
          match d with
          | .cons e tail =>
            if tail ≠ .nil then
              if D.anyEllipsis tail then none
              else
                let n : Int := lengthStar tail
                let name := Var.gen (c + 1)
                (D.lp f (.cons tail (.cons (.cons a (.cons e .nil)) .nil))
                    (.prim2 .cons (.var .ls) (.prim2 .cons (.prim1 .reverse (.var .res)) (.const .nil)))
                    dim vars k (c + 1)).map fun r =>
                  (.bind [(.len, .prim1 .length (.var v))]
                    (.and (.prim2 .ge (.var .len) (.const (.num n)))
                      (.loop name
                        [(.ls, .var v), (.i, .prim2 .sub (.var .len) (.const (.num n))), (.res, .const .nil)]
                        (.ite (.prim2 .ge (.const (.num 0)) (.var .i)) r.1
                          (.call name
                            [.prim1 .cdr (.var .ls), .prim2 .sub (.var .i) (.const (.num 1)),
                             .prim2 .cons (.prim1 .car (.var .ls)) (.var .res)])))), r.2)
            else
              match a with
              | .id y =>
                (k ((y, dim + 1) :: vars) c).map fun r =>
                  (.and (.prim1 .isList (.var v)) (.bind [(.pat y, .var v)] r.1), r.2)
              | a =>
                let w := Var.gen (c + 1)
                let name := Var.gen (c + 2)
                let newVars := D.allVars a (dim + 1) []
                let lsVars := (List.range newVars.length).map fun j => Var.gen (c + 3 + j)
                if newVars.any fun y => D.inserted y.1 then none
                else
                match
                  D.lp f a (.prim1 .car (.var w)) (dim + 1) []
                    (fun _ c => some
                      (.call name (.prim1 .cdr (.var w) ::
                        List.zipWith (fun y l => .prim2 .cons (.var (.pat y.1)) (.var l)) newVars lsVars), c))
                    (c + 2 + newVars.length) with
                | none => none
                | some (once, c) =>
                  (k (newVars ++ vars) c).map fun r =>
                    (.loop name ((w, .var v) :: lsVars.map fun l => (l, .const .nil))
                      (.ite (.prim1 .isNull (.var w))
                        (.bind (List.zipWith (fun y l => (.pat y.1, .prim1 .reverse (.var l))) newVars lsVars)
                          r.1)
                        (.and (.prim1 .isPair (.var w)) once)), r.2)
          | _ => none
        else
          (D.lp f a (.prim1 .car (.var v)) dim vars
              (fun vars c => D.lp f d (.prim1 .cdr (.var v)) dim vars k c) c).map fun r =>
            (.and (.prim1 .isPair (.var v)) r.1, r.2)
      | .vec xs =>
        (D.lp f xs (.prim1 .vectorToList (.var v)) dim vars k c).map fun r =>
          (.and (.prim1 .isVector (.var v)) r.1, r.2)
      | .nil => (k vars c).map fun r => (.and (.prim1 .isNull (.var v)) r.1, r.2)
      | p => (k vars c).map fun r => (.and (.prim2 .equal (.var v) (.const p)) r.1, r.2)

/-- `expand-pattern` (L99-L105). -/
def Def.expandPattern (D : Def) (pat tmpl : Form) (c : Nat) : Option (Exp × Nat) :=
  match pat with
  | .cons _ p =>
    D.lp (4 * p.size) p (.prim1 .cdr (.var .expr)) 0 []
      (fun vars c => (D.expandTemplate tmpl vars).map fun e => (.prim2 .cons e (.const (.bool false)), c)) c
  | _ => none

/-- The rules, one after the other (L288-L290).  A rule is its pattern and its template. -/
def Def.compile (D : Def) : List (Form × Form) → Nat → Option (List Exp)
  | [], _ => some []
  | (pat, tmpl) :: rules, c =>
    match D.expandPattern pat tmpl c with
    | some (e, c) => (D.compile rules c).map (e :: ·)
    | none => none

/-! ### Running the text -/

/-- Values of variables: forms, and the procedures made by named `let`
(auxiliary to library/srfi-149.ss L126-L184). -/
inductive Val where
  | form (f : Form)
  | loop (params : List Var) (body : Exp) (env : List (Var × Val))

/-- Environments, innermost binding first (auxiliary to library/srfi-149.ss L126-L184). -/
abbrev Env := List (Var × Val)

/-- The binding of a variable (auxiliary to library/srfi-149.ss L126-L184). -/
def Env.get : Env → Var → Option Val
  | [], _ => none
  | (w, x) :: ρ, v => if w = v then some x else Env.get ρ v

/-- Bind variables to forms (auxiliary to library/srfi-149.ss L126-L184). -/
def Env.bind (ρ : Env) (vs : List Var) (fs : List Form) : Env :=
  List.zipWith (fun v f => (v, Val.form f)) vs fs ++ ρ

/-- `append(x, y)` (src/kernel/boot.cpp L151, include/meevax/kernel/list.hpp). -/
def appendForm (a b : Form) : Option Form := a.toList.map fun xs => xs.foldr .cons b

/-- The procedures of one argument (src/kernel/boot.cpp L139-L155, L394-L395; `length*` L36-L49). -/
def Prim1.apply : Prim1 → Form → Option Form
  | .isPair, f => some (.bool (match f with | .cons _ _ => true | _ => false))
  | .isNull, f => some (.bool (match f with | .nil => true | _ => false))
  | .isList, f => some (.bool f.toList.isSome)
  | .isVector, f => some (.bool (match f with | .vec _ => true | _ => false))
  | .car, f => match f with | .cons a _ => some a | _ => none
  | .cdr, f => match f with | .cons _ d => some d | _ => none
  | .vectorToList, f => match f with | .vec xs => some xs | _ => none
  | .listToVector, f => f.toList.map fun _ => .vec f
  | .reverse, f => f.toList.map fun xs => .ofList xs.reverse
  | .length, f => some (.num (lengthStar f))

/-- The procedures of two arguments (library/srfi-149.ss L74-L92). -/
def Prim2.apply (U : Use) : Prim2 → Form → Form → Option Form
  | .cons, a, b => some (.cons a b)
  | .ge, a, b => match a, b with | .num m, .num n => some (.bool (n ≤ m)) | _, _ => none
  | .sub, a, b => match a, b with | .num m, .num n => some (.num (m - n)) | _, _ => none
  | .compare, a, b => some (.bool (match a, b with | .id x, .id y => U.compare x y | _, _ => false))
  | .equal, a, b => some (.bool (a = b))
  | .append, a, b => appendForm a b

/-- `(apply append f)`: `fold_left` of `append` (src/kernel/boot.cpp L151). -/
def appendAll (f : Form) : Option Form := f.toList.bind fun xs => xs.foldlM appendForm .nil

/-- The arguments of the successive calls of `map` (library/meevax.ss L121-L142): it stops at the end of the
shortest list. -/
def rows : Form → List Form → Option (List (List Form))
  | .nil, _ => some []
  | .cons a d, ls =>
    if ls.any (· = .nil) then some []
    else do
      let cars ← ls.mapM Prim1.car.apply
      let cdrs ← ls.mapM Prim1.cdr.apply
      let rs ← rows d cdrs
      some ((a :: cars) :: rs)
  | _, ls => if ls.any (· = .nil) then some [] else none

/-- The value of a text.  A variable that is not bound is a global variable without a value.  Named `let`
is `letrec` (library/r4rs.ss). -/
def eval (U : Use) : Nat → Env → Exp → Option Form
  | 0, _, _ => none
  | f + 1, ρ, e =>
    match e with
    | .var v =>
      match ρ.get v with
      | some (.form x) => some x
      | some (.loop ..) => none
      | none => some .undefined
    | .const x => some x
    | .rename x => some (.id (U.rename x))
    | .bind bs body => do
      let xs ← bs.mapM fun b => eval U f ρ b.2
      eval U f (ρ.bind (bs.map Prod.fst) xs) body
    | .loop name bs body => do
      let ρ' : Env := (name, .loop (bs.map Prod.fst) body ρ) :: ρ
      let xs ← bs.mapM fun b => eval U f ρ' b.2
      eval U f (Env.bind ρ' (bs.map Prod.fst) xs) body
    | .call name args =>
      match ρ.get name with
      | some (.loop params body ρ₀) => do
        let xs ← args.mapM fun a => eval U f ρ a
        eval U f (Env.bind ((name, .loop params body ρ₀) :: ρ₀) params xs) body
      | _ => none
    | .and a b => do
      let x ← eval U f ρ a
      if x = .bool false then some (.bool false) else eval U f ρ b
    | .ite c t e => do
      let x ← eval U f ρ c
      if x = .bool false then eval U f ρ e else eval U f ρ t
    | .prim1 p a => do
      let x ← eval U f ρ a
      p.apply x
    | .prim2 p a b => do
      let x ← eval U f ρ a
      let y ← eval U f ρ b
      p.apply U x y
    | .applyAppend e => do
      let x ← eval U f ρ e
      appendAll x
    | .map params body args => do
      let ls ← args.mapM fun a => eval U f ρ a
      match ls with
      | [] => none
      | l :: ls => do
        let rs ← rows l ls
        let xs ← rs.mapM fun r => eval U f (ρ.bind params r) body
        some (.ofList xs)

/-- What the use of a macro gives (library/srfi-149.ss L285-L295). -/
inductive Outcome where
  | expansion (f : Form)
  | noExpansion
  deriving DecidableEq, Repr

/-- `(car (or rule … (cons (error "no expansion for" expr) #f)))` (L284-L295). -/
def runRules (U : Use) (fuel : Nat) (ρ : Env) : List Exp → Option Outcome
  | [] => some .noExpansion
  | e :: es => do
    let x ← eval U fuel ρ e
    if x = .bool false then runRules U fuel ρ es
    else
      let y ← Prim1.car.apply x
      some (.expansion y)

/-- A macro made by `syntax-rules` (L70-L300), applied to a form. -/
def transform (D : Def) (U : Use) (rules : List (Form × Form)) (form : Form) (fuel : Nat) : Option Outcome := do
  let es ← D.compile rules 0
  runRules U fuel [(.expr, .form form)] es

end Meevax.Rules
