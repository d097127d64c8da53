import Verif.Model.Compare

/-!
What an identifier means, for C100: the innermost binding of its name, or the global variable, or
nothing.
-/

namespace Meevax.Expand.Spec

open Secd (Name)

/-- The first of the formals that binds `v`: a variable (`none`) or a keyword with its transformer. -/
inductive Binds (v : Form) : Form → Option Nat → Prop
  | loc (d : Form) : Binds v (.cons v d) none
  | keyword (t : Nat) (d : Form) : Binds v (.cons (.macro v t) d) (some t)
  | later {a d : Form} {r : Option Nat} (h : a ≠ v) (hk : ∀ t, a ≠ .macro v t) (hd : Binds v d r) :
      Binds v (.cons a d) r
  | rest : Binds v v none

/-- No formal binds `v`. -/
def Skips (v formals : Form) : Prop := ∀ r, ¬ Binds v formals r

/-- What a symbol means: a local variable, a local keyword, a global variable, or nothing. -/
inductive Meaning where
  | loc
  | keyword (t : Nat)
  | global (g : Nat)
  | unbound (x : Name)

/-- What the symbol `x` means within the frames `bv` over the global names `s`. -/
inductive Means (x : Name) (s : Name → Option Nat) : List Form → Meaning → Prop
  | loc {fs : Form} {bv : List Form} (h : Binds (.sym x) fs none) : Means x s (fs :: bv) .loc
  | keyword {fs : Form} {bv : List Form} {t : Nat} (h : Binds (.sym x) fs (some t)) :
      Means x s (fs :: bv) (.keyword t)
  | outer {fs : Form} {bv : List Form} {M : Meaning} (h : Skips (.sym x) fs) (hm : Means x s bv M) :
      Means x s (fs :: bv) M
  | global {g : Nat} (h : s x = some g) : Means x s [] (.global g)
  | unbound (h : s x = none) : Means x s [] (.unbound x)

/-- What a symbol means in an environment. -/
def MeansIn (T : Table) (e : Nat) (x : Name) (M : Meaning) : Prop :=
  Means x (T.envs e).second (frames (T.envs e).first) M

/-- The environment and the symbol an identifier stands for: a symbol stands for itself where the
macro is used, a renamed symbol for itself where the macro is defined. -/
inductive Stands (useEnv : Nat) : Form → Nat → Name → Prop
  | symbol (x : Name) : Stands useEnv (.sym x) useEnv x
  | renamed (i : Stamp) (e : Nat) (free : List Name) (x : Name) :
      Stands useEnv (.closure i e free (.sym x)) e x

/-- The same keyword, the same global variable, or the same name without any binding. -/
inductive Same : Meaning → Meaning → Prop
  | keyword (t : Nat) : Same (.keyword t) (.keyword t)
  | global (g : Nat) : Same (.global g) (.global g)
  | unbound (x : Name) : Same (.unbound x) (.unbound x)

/-- The tables a program can reach: a global variable is found under its own name. -/
structure Proper (T : Table) : Prop where
  old : ∀ e x g, (T.envs e).second x = some g → g < T.next
  name : ∀ e x g, (T.envs e).second x = some g → (T.cells g).name = .sym x

/-- No two global variables have both the same name and the same value, and all of them have a
value. -/
structure Separate (T : Table) : Prop where
  distinct : ∀ e x g f y h, (T.envs e).second x = some g → (T.envs f).second y = some h →
    T.cells g = T.cells h → g = h
  defined : ∀ e x g, (T.envs e).second x = some g → (T.cells g).value ≠ none

end Meevax.Expand.Spec
