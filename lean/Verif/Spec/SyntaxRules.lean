import Verif.Model.SyntaxRules

/-!
What a `syntax-rules` macro means (R7RS 4.3.2; SRFI 149 for variables followed by more ellipses than in the
pattern), independently of the text srfi-149.ss makes of it.

What a pattern variable matches is a `Tree`: a form, or, for a variable under an ellipsis, the sequence of
what it matches in the repetitions.  `Match` says when a pattern matches a form and with which bindings,
`Inst` what a template becomes under given bindings.  `PatternOk` and `TemplateOk` are the conditions the
report puts on patterns and templates, and the further ones without which the library does something else;
each of the further ones is shown to be needed in Props/SyntaxRulesFails.lean.
-/

namespace Meevax.Rules.Spec

/-- What a pattern variable matches. -/
inductive Tree where
  | one (f : Form)
  | many (ts : List Tree)

/-- Bindings of pattern variables. -/
abbrev Binds := List (Nat × Tree)

/-- The binding of a pattern variable. -/
def Binds.get (σ : Binds) (x : Nat) : Option Tree := (σ.find? fun b => b.1 = x).map Prod.snd

/-- The identifier is one of the literals. -/
def IsLit (D : Def) (x : Nat) : Prop := ∃ l ∈ D.lits, D.compare x l = true

/-- The identifier is the underscore (unless it is a literal). -/
def IsUnder (D : Def) (x : Nat) : Prop := D.compare x D.under = true ∧ ¬IsLit D x

/-- The identifier is the ellipsis (unless it is a literal). -/
def IsEllipsis (D : Def) (x : Nat) : Prop := D.compare D.ellipsis x = true ∧ ¬IsLit D x

/-- The identifier is a pattern variable where it occurs in a pattern. -/
def IsVar (D : Def) (x : Nat) : Prop := ¬IsLit D x ∧ ¬IsUnder D x ∧ ¬IsEllipsis D x

/-- Data that stand for themselves. -/
def Datum : Form → Prop
  | .bool _ | .num _ | .atom _ | .undefined => True
  | _ => False

/-- The identifiers that occur in a form. -/
def ids : Form → List Nat
  | .id x => [x]
  | .cons a d => ids a ++ ids d
  | .vec xs => ids xs
  | _ => []

/-- The number of pairs of a list or improper list. -/
def pairs : Form → Nat
  | .cons _ d => pairs d + 1
  | _ => 0

/-- The form does not begin with an ellipsis. -/
def NoEllipsis (ell : Nat → Prop) : Form → Prop
  | .cons (.id e) _ => ¬ell e
  | _ => True

/-- `x` occurs as a pattern variable in `p`; `k` ellipses follow subpatterns of `p` it lies in. -/
inductive VarAt (D : Def) : Form → Nat → Nat → Prop
  | id {x} : IsVar D x → VarAt D (.id x) x 0
  | car {a d x k} : NoEllipsis (IsEllipsis D) d → VarAt D a x k → VarAt D (.cons a d) x k
  | cdr {a d x k} : NoEllipsis (IsEllipsis D) d → VarAt D d x k → VarAt D (.cons a d) x k
  | more {a e d x k} : IsEllipsis D e → VarAt D a x k → VarAt D (.cons a (.cons (.id e) d)) x (k + 1)
  | tail {a e d x k} : IsEllipsis D e → VarAt D d x k → VarAt D (.cons a (.cons (.id e) d)) x k
  | vec {p x k} : VarAt D p x k → VarAt D (.vec p) x k

/-- The bindings of a pattern followed by an ellipsis: `τ` has for each variable of the pattern the sequence
of what it matches in the repetitions. -/
def Collect (D : Def) (p : Form) (σs : List Binds) (τ : Binds) : Prop :=
  ∀ x t, Binds.get τ x = some t ↔
    (∃ k, VarAt D p x k) ∧ ∃ ts, t = .many ts ∧ List.Forall₂ (fun σ t => Binds.get σ x = some t) σs ts

mutual

/-- The pattern matches the form with these bindings. -/
inductive Match (D : Def) (U : Use) : Form → Form → Binds → Prop
  | lit {x y} : IsLit D x → U.compare y (U.rename x) = true → Match D U (.id x) (.id y) []
  | under {x f} : IsUnder D x → Match D U (.id x) f []
  | var {x f} : IsVar D x → Match D U (.id x) f [(x, .one f)]
  | nil : Match D U .nil .nil []
  | datum {p} : Datum p → Match D U p p []
  | vec {p f σ} : Match D U p f σ → Match D U (.vec p) (.vec f) σ
  | pair {p q f g σ τ} : NoEllipsis (IsEllipsis D) q → Match D U p f σ → Match D U q g τ →
      Match D U (.cons p q) (.cons f g) (σ ++ τ)
  | more {p e q fs g σs σ τ} : IsEllipsis D e → MatchAll D U p fs σs → Collect D p σs σ →
      pairs g = pairs q → Match D U q g τ →
      Match D U (.cons p (.cons (.id e) q)) (fs.foldr .cons g) (σ ++ τ)

/-- The pattern matches each of the forms. -/
inductive MatchAll (D : Def) (U : Use) : Form → List Form → List Binds → Prop
  | nil {p} : MatchAll D U p [] []
  | cons {p f fs σ σs} : Match D U p f σ → MatchAll D U p fs σs → MatchAll D U p (f :: fs) (σ :: σs)

end

/-- The number of ellipses a form begins with, and what follows them. -/
inductive Ellipses (ell : Nat → Prop) : Form → Nat → Form → Prop
  | none {d} : NoEllipsis ell d → Ellipses ell d 0 d
  | some {e d k r} : ell e → Ellipses ell d k r → Ellipses ell (.cons (.id e) d) (k + 1) r

/-- Repetition `i` of a variable. -/
def Tree.at (i : Nat) : Tree → Tree
  | .one f => .one f
  | .many ts => ts.getD i (.one .nil)

/-- The bindings in repetition `i` of a template: of the variables that occur in it. -/
def slice (V : List Nat) (σ : Binds) (i : Nat) : Binds :=
  σ.map fun b => (b.1, if b.1 ∈ V then b.2.at i else b.2)

/-- The template repeats `n` times: at least one of its variables has repetitions, and those that have
repetitions have `n` of them. -/
def Repeats (V : List Nat) (σ : Binds) (n : Nat) : Prop :=
  (∃ x ∈ V, ∃ ts, Binds.get σ x = some (.many ts)) ∧
    ∀ x ∈ V, ∀ ts, Binds.get σ x = some (.many ts) → ts.length = n

mutual

/-- The template becomes the form under the bindings.  `ell` says which identifiers are ellipses. -/
inductive Inst (U : Use) : (Nat → Prop) → Binds → Form → Form → Prop
  | var {ell σ x f} : Binds.get σ x = some (.one f) → Inst U ell σ (.id x) f
  | insert {ell σ x} : Binds.get σ x = none → Inst U ell σ (.id x) (.id (U.rename x))
  | nil {ell σ} : Inst U ell σ .nil .nil
  | datum {ell σ t} : Datum t → Inst U ell σ t t
  | vec {ell σ t f} : Inst U ell σ t f → Inst U ell σ (.vec t) (.vec f)
  | escape {ell σ e t f} : ell e → Inst U (fun _ => False) σ t f →
      Inst U ell σ (.cons (.id e) (.cons t .nil)) f
  | pair {ell σ a d f g} : NoEllipsis ell (.cons a d) → NoEllipsis ell d → Inst U ell σ a f →
      Inst U ell σ d g → Inst U ell σ (.cons a d) (.cons f g)
  | more {ell σ a d k r fs g} : NoEllipsis ell (.cons a d) → Ellipses ell d (k + 1) r →
      Expands U ell (k + 1) σ a fs → Inst U ell σ r g → Inst U ell σ (.cons a d) (fs.foldr .cons g)

/-- The forms a template followed by `k` ellipses becomes. -/
inductive Expands (U : Use) : (Nat → Prop) → Nat → Binds → Form → List Form → Prop
  | here {ell σ t f} : Inst U ell σ t f → Expands U ell 0 σ t [f]
  | step {ell k σ t n fss} : Repeats (ids t) σ n →
      ExpandsAll U ell k ((List.range n).map (slice (ids t) σ)) t fss → Expands U ell (k + 1) σ t fss.flatten

/-- `Expands` for each of the bindings. -/
inductive ExpandsAll (U : Use) : (Nat → Prop) → Nat → List Binds → Form → List (List Form) → Prop
  | nil {ell k t} : ExpandsAll U ell k [] t []
  | cons {ell k σ σs t fs fss} : Expands U ell k σ t fs → ExpandsAll U ell k σs t fss →
      ExpandsAll U ell k (σ :: σs) t (fs :: fss)

end

/-- No element of the list is an ellipsis. -/
def Tail (D : Def) : Form → Prop
  | .cons a d => (∀ x, a = .id x → ¬IsEllipsis D x) ∧ Tail D d
  | _ => True

/-- The pattern is well formed: an ellipsis follows a pattern, and there is at most one in a list or vector.
The element before an ellipsis is not a literal; if it is not an identifier, its variables (and
underscores) are not identifiers inserted by another macro. -/
inductive PatternOk (D : Def) : Form → Prop
  | id {x} : ¬IsEllipsis D x → PatternOk D (.id x)
  | nil : PatternOk D .nil
  | datum {p} : Datum p → PatternOk D p
  | vec {p} : PatternOk D p → PatternOk D (.vec p)
  | pair {p q} : NoEllipsis (IsEllipsis D) q → PatternOk D p → PatternOk D q → PatternOk D (.cons p q)
  | more {p e q} : IsEllipsis D e → PatternOk D p → (∀ x, p = .id x → ¬IsLit D x) →
      ((∀ x, p ≠ .id x) → ∀ x ∈ ids p, ¬IsLit D x → ¬IsEllipsis D x → D.inserted x = false) → Tail D q →
      PatternOk D q → PatternOk D (.cons p (.cons (.id e) q))

/-- The pattern variables of a pattern, as often as they occur. -/
noncomputable def vars (D : Def) : Form → List Nat
  | .id x => open Classical in if IsVar D x then [x] else []
  | .cons a d => vars D a ++ vars D d
  | .vec xs => vars D xs
  | _ => []

/-- The form is a list. -/
def Proper : Form → Prop
  | .nil => True
  | .cons _ d => Proper d
  | _ => False

/-- The template is well formed for the pattern `p`: a variable is followed by at least as many ellipses as
in the pattern (`dim` of them already count), and each ellipsis follows a template with a variable to repeat.
There is no escaped ellipsis, and only a variable is followed by more than one. -/
inductive TemplateOk (D : Def) (p : Form) : Nat → Form → Prop
  | var {dim x k} : VarAt D p x k → k ≤ dim → TemplateOk D p dim (.id x)
  | insert {dim x} : (x ∈ ids p → IsLit D x) → TemplateOk D p dim (.id x)
  | nil {dim} : TemplateOk D p dim .nil
  | datum {dim t} : Datum t → TemplateOk D p dim t
  | vec {dim t} : Proper t → TemplateOk D p dim t → TemplateOk D p dim (.vec t)
  | pair {dim a d} : NoEllipsis (IsEllipsis D) (.cons a d) → NoEllipsis (IsEllipsis D) d →
      TemplateOk D p dim a → TemplateOk D p dim d → TemplateOk D p dim (.cons a d)
  | more {dim a d k r x j} : NoEllipsis (IsEllipsis D) (.cons a d) → Ellipses (IsEllipsis D) d (k + 1) r →
      x ∈ ids a → VarAt D p x j → dim + (k + 1) ≤ j → (k = 0 ∨ a = .id x) →
      TemplateOk D p (dim + (k + 1)) a → TemplateOk D p dim r → TemplateOk D p dim (.cons a d)

/-- A rule is well formed: pattern, template, and no variable twice in the pattern. -/
inductive RuleOk (D : Def) : Form → Form → Prop
  | mk {k p t} : PatternOk D p → (vars D p).Nodup → TemplateOk D p 0 t → RuleOk D (.cons k p) t

/-- A rule applies to a form: the pattern after the keyword matches the form after the keyword. -/
def Applies (D : Def) (U : Use) (pat form : Form) (σ : Binds) : Prop :=
  ∃ k p l f, pat = .cons k p ∧ form = .cons l f ∧ Match D U p f σ

/-- What the definition of the macro must give: no literal is the ellipsis, the ellipsis is not the underscore,
and comparing identifiers does not depend on the order. -/
structure DefOk (D : Def) : Prop where
  distinct : ∀ x, D.compare D.ellipsis x = true → D.compare x D.under = false
  literals : ∀ x, D.compare D.ellipsis x = true → ¬IsLit D x
  symmetric : ∀ x y, D.compare x y = D.compare y x

/-- What a use of the macro becomes: the template of the first rule that applies, or an error. -/
inductive Rewrites (D : Def) (U : Use) : List (Form × Form) → Form → Outcome → Prop
  | none {form} : Rewrites D U [] form .noExpansion
  | here {pat t rules form σ out} : Applies D U pat form σ → Inst U (IsEllipsis D) σ t out →
      Rewrites D U ((pat, t) :: rules) form (.expansion out)
  | next {pat t rules form o} : (∀ σ, ¬Applies D U pat form σ) → Rewrites D U rules form o →
      Rewrites D U ((pat, t) :: rules) form o

/-- A variable of the pattern `p` occurs in the template with fewer ellipses than in the pattern (`dim` of
them already count). -/
inductive TooFew (D : Def) (p : Form) : Nat → Form → Prop
  | var {dim x k} : VarAt D p x k → dim < k → TooFew D p dim (.id x)
  | vec {dim t} : TooFew D p dim t → TooFew D p dim (.vec t)
  | car {dim a d} : NoEllipsis (IsEllipsis D) (.cons a d) → NoEllipsis (IsEllipsis D) d → TooFew D p dim a →
      TooFew D p dim (.cons a d)
  | cdr {dim a d} : NoEllipsis (IsEllipsis D) (.cons a d) → NoEllipsis (IsEllipsis D) d → TooFew D p dim d →
      TooFew D p dim (.cons a d)
  | more {dim a d k r} : NoEllipsis (IsEllipsis D) (.cons a d) → Ellipses (IsEllipsis D) d (k + 1) r →
      TooFew D p (dim + (k + 1)) a → TooFew D p dim (.cons a d)
  | tail {dim a d k r} : NoEllipsis (IsEllipsis D) (.cons a d) → Ellipses (IsEllipsis D) d (k + 1) r →
      r ≠ .nil → TooFew D p dim r → TooFew D p dim (.cons a d)

/-- `x` is an element of the list, or of the part of an improper list before its end. -/
inductive Element (x : Form) : Form → Prop
  | head {d} : Element x (.cons x d)
  | tail {a d} : Element x d → Element x (.cons a d)

/-- Somewhere in the pattern there is a list with two ellipses. -/
inductive TwoEllipses (D : Def) : Form → Prop
  | here {a e d y} : IsEllipsis D e → Element (.id y) d → IsEllipsis D y → TwoEllipses D (.cons a (.cons (.id e) d))
  | car {a d} : TwoEllipses D a → TwoEllipses D (.cons a d)
  | cdr {a d} : TwoEllipses D d → TwoEllipses D (.cons a d)
  | vec {xs} : TwoEllipses D xs → TwoEllipses D (.vec xs)

end Meevax.Rules.Spec
