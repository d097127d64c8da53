import Verif.Spec.Scheme

/-!
Where variables are: an environment is a chain of frames, and a frame is the list of the arguments
of a call.  A fixed parameter is the car of a cell of that list, and a rest parameter is what is left
of the list.
-/

namespace Meevax.Secd

open Scheme (Scopes)

/-- A place that holds an object: a field of a pair. -/
inductive Slot where
  | car (l : Nat)
  | cdr (l : Nat)
  deriving DecidableEq

/-- What is in a place. -/
def Cells.read (h : Cells) : Slot → Value
  | .car l => (h.cell l).1
  | .cdr l => (h.cell l).2

/-- `t` is the place of `x` in the frame that is in the place `s`. -/
inductive InFrame (h : Cells) (x : Name) : Slot → List Name → Option Name → Slot → Prop where
  | here {s : Slot} {l : Nat} {fs : List Name} {rest : Option Name} (hs : h.read s = .pair l) :
      InFrame h x s (x :: fs) rest (.car l)
  | there {s t : Slot} {l : Nat} {y : Name} {fs : List Name} {rest : Option Name}
      (hs : h.read s = .pair l) (hy : y ≠ x) (ht : InFrame h x (.cdr l) fs rest t) :
      InFrame h x s (y :: fs) rest t
  | rest {s : Slot} : InFrame h x s [] (some x) s

/-- `t` is the place of the innermost binding of `x` in the environment. -/
inductive InEnv (h : Cells) (x : Name) : Value → Scopes → Slot → Prop where
  | here {l : Nat} {fs : List Name} {rest : Option Name} {sc : Scopes} {t : Slot}
      (ht : InFrame h x (.car l) fs rest t) : InEnv h x (.pair l) ((fs, rest) :: sc) t
  | outer {l : Nat} {fs : List Name} {rest : Option Name} {sc : Scopes} {t : Slot}
      (hx : x ∉ fs ∧ rest ≠ some x) (ht : InEnv h x (h.cell l).2 sc t) :
      InEnv h x (.pair l) ((fs, rest) :: sc) t

/-- A frame has at least `n` cells. -/
inductive LongFrame (h : Cells) : Nat → Value → Prop where
  | zero (v : Value) : LongFrame h 0 v
  | succ {n l : Nat} (ht : LongFrame h n (h.cell l).2) : LongFrame h (n + 1) (.pair l)

/-- The environment has a frame for each scope, and the frames are long enough. -/
inductive EnvFor (h : Cells) : Value → Scopes → Prop where
  | nil (e : Value) : EnvFor h e []
  | cons {l : Nat} {fs : List Name} {rest : Option Name} {sc : Scopes}
      (hf : LongFrame h fs.length (h.cell l).1) (hd : EnvFor h (h.cell l).2 sc) :
      EnvFor h (.pair l) ((fs, rest) :: sc)

/-- The scopes that the code generator has at hand, from the formals. -/
inductive Formals : List Form → Scopes → Prop where
  | nil : Formals [] []
  | cons {f : Form} {bv : List Form} {fs : List Name} {rest : Option Name} {sc : Scopes}
      (hf : Scheme.ParseFormals f fs rest) (h : Formals bv sc) : Formals (f :: bv) ((fs, rest) :: sc)

/-- A list of the machine, with its elements and the locations of its cells. -/
inductive IsList (h : Cells) : Value → List Value → List Nat → Prop where
  | nil : IsList h .nil [] []
  | cons {l : Nat} {xs : List Value} {ls : List Nat} (ht : IsList h (h.cell l).2 xs ls) :
      IsList h (.pair l) ((h.cell l).1 :: xs) (l :: ls)

/-- A list as a form. -/
def Form.list : List Form → Form
  | [] => .nil
  | x :: xs => .cons x (Form.list xs)

/-- From any state, the code `c` pushes `v` and goes on. -/
def Yields (Q : Prims) (e : Value) (h : Heap) (c : Code) (v : Value) (h' : Heap) : Prop :=
  ∀ (s : List Value) (k : Code) (d : Dump), ∃ n,
    run Q n ⟨s, e, c ++ k, d, h⟩ = .running ⟨v :: s, e, k, d, h'⟩

/-- Evaluation of operands, the last one first.  Each value goes into a new cell.  No evaluation
touches the cells that hold the values so far. -/
inductive Operands (Q : Prims) (e : Value) (h : Heap) : List Code → List Value → Value → Heap → Prop where
  | nil : Operands Q e h [] [] .nil h
  | cons {c : Code} {cs : List Code} {v xs : Value} {vs : List Value} {h₁ h₂ : Heap}
      (hs : Operands Q e h cs vs xs h₁) (hc : Yields Q e h₁ c v h₂)
      (hn : h₁.cells.next ≤ h₂.cells.next)
      (hk : ∀ l, h.cells.next ≤ l → l < h₁.cells.next →
        (∀ vs ls, IsList h₁.cells xs vs ls → l ∈ ls → h₂.cells.cell l = h₁.cells.cell l)) :
      Operands Q e h (c :: cs) (v :: vs) (.pair h₂.cells.next)
        { h₂ with cells := h₂.cells.cons v xs }

end Meevax.Secd
