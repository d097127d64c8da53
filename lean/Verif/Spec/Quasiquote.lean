import Verif.Model.Quasiquote

/-!
What R7RS 4.2.8 and 7.1.4 say of quasiquotation.

`Reads K D f o v`: at the nesting level `D`, the template `f` stands for the value `v`, where `o` lists the
unquoted expressions of level one from left to right, each with its value.  The positions of the three
keywords are those of the report; "unpredictable behavior can result" elsewhere, and no value is given.
-/

namespace Meevax.Quasi

open Rules (Form)

/-- `f` is one of the three keywords. -/
def Keyword (K : Keys) (f : Form) : Prop :=
  ∃ x, f = .id x ∧ (K.isUnquote x = true ∨ K.isSplicing x = true ∨ K.isQuasi x = true)

/-- Data without components. -/
inductive Simple : Form → Prop
  | nil : Simple .nil
  | bool (b) : Simple (.bool b)
  | num (n) : Simple (.num n)
  | atom (n) : Simple (.atom n)
  | undefined : Simple .undefined
  | id (x) : Simple (.id x)

/-- `(a b)`. -/
def two (a b : Form) : Form := .cons a (.cons b .nil)

/-- The elements `vs` in front of `w`. -/
def prepend (vs : List Form) (w : Form) : Form := vs.foldr .cons w

/-- The meaning of templates. -/
inductive Reads (K : Keys) : Nat → Form → List (Form × Form) → Form → Prop
  /-- simple data stand for themselves -/
  | simple {D f} : Simple f → Reads K (D + 1) f [] (K.strip f)
  /-- `,e` of the outermost level stands for the value of `e` -/
  | unquote {u e v} : K.isUnquote u = true → Reads K 1 (two (.id u) e) [(e, v)] v
  /-- an inner `,t` stays, and `t` is one level further out -/
  | inner {D u t o v} : K.isUnquote u = true → Reads K (D + 1) t o v →
    Reads K (D + 2) (two (.id u) t) o (two (.id (K.symbol u)) v)
  /-- an inner `,@t` stays, and `t` is one level further out -/
  | innerSplicing {D u t o v} : K.isSplicing u = true → Reads K (D + 1) t o v →
    Reads K (D + 2) (two (.id u) t) o (two (.id (K.symbol u)) v)
  /-- an inner quasiquotation stays, and `t` is one level further in -/
  | quasi {D u t o v} : K.isQuasi u = true → Reads K (D + 2) t o v →
    Reads K (D + 1) (two (.id u) t) o (two (.id (K.symbol u)) v)
  /-- a pair -/
  | pair {D a d o o' v w} : ¬ Keyword K a → (∀ u e, D = 0 → a = two (.id u) e → K.isSplicing u = false) →
    Reads K (D + 1) a o v → Reads K (D + 1) d o' w → Reads K (D + 1) (.cons a d) (o ++ o') (.cons v w)
  /-- the elements of the list that `,@e` gives are put in its place -/
  | splice {u e d vs o w} : K.isSplicing u = true → Reads K 1 d o w →
    Reads K 1 (.cons (two (.id u) e) d) ((e, prepend vs .nil) :: o) (prepend vs w)
  /-- a vector -/
  | vec {D xs o v} : (∀ x ∈ xs.toList.getD [], ¬ Keyword K x) → xs.toList.isSome →
    Reads K (D + 1) xs o v → Reads K (D + 1) (.vec xs) o (.vec v)

/-- An import gives no other name to a keyword, and no identifier is two of them. -/
structure Keys.Plain (K : Keys) : Prop where
  unquote : ∀ x, K.isUnquote x = true → K.symbol x = K.unquote
  splicing : ∀ x, K.isSplicing x = true → K.symbol x = K.splicing
  quasi : ∀ x, K.isQuasi x = true → K.symbol x = K.quasi
  one : ∀ x, K.isUnquote x = true → K.isSplicing x = false ∧ K.isQuasi x = false
  two : ∀ x, K.isSplicing x = true → K.isQuasi x = false

/-- The expressions are evaluated from right to left, and give the values listed. -/
inductive Runs {σ : Type} (ev : Form → σ → Option (Form × σ)) : List (Form × Form) → σ → σ → Prop
  | nil {s} : Runs ev [] s s
  | cons {e v o s s' s''} : Runs ev o s s' → ev e s' = some (v, s'') → Runs ev ((e, v) :: o) s s''

end Meevax.Quasi
