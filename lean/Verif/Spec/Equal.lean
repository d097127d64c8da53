import Verif.Model.Equal
import Mathlib.Data.List.Forall2

/-!
What `eq?`, `eqv?` and `equal?` are supposed to decide, stated on the heap alone.
-/

namespace Meevax.Equal

/-- `x` denotes the exact integer `n`. -/
inductive Denotes (h : Heap) : Val → Int → Prop
  | fix (n : Int) : Denotes h (.fix n) n
  | big {a : Nat} {n : Int} : h a = .integer n → Denotes h (.ref a) n

/-- Two objects that no selector takes apart and that count as the same: identical words, equal
exact integers, strings or byte sequences with the same contents, and so on. -/
inductive LeafEq (numEq : Val → Val → Bool) (h : Heap) : Val → Val → Prop
  | same (x : Val) : LeafEq numEq h x x
  | integer {x y : Val} {n : Int} : Denotes h x n → Denotes h y n → LeafEq numEq h x y
  | string {a b : Nat} {s : List Nat} : h a = .string s → h b = .string s →
      LeafEq numEq h (.ref a) (.ref b)
  | bytes {a b : Nat} {s : List Nat} : h a = .bytes s → h b = .bytes s →
      LeafEq numEq h (.ref a) (.ref b)
  | ratio {a b : Nat} {n : Int} {d : Nat} : h a = .ratio n d → h b = .ratio n d →
      LeafEq numEq h (.ref a) (.ref b)
  | complex {a b : Nat} {r i r' i' : Val} : h a = .complex r i → h b = .complex r' i' →
      numEq r r' = true → numEq i i' = true → LeafEq numEq h (.ref a) (.ref b)
  | structural {a b k : Nat} {c d : Val} : h a = .structural k c d → h b = .structural k c d →
      LeafEq numEq h (.ref a) (.ref b)

/-- A way to take an object apart. -/
inductive Selector where
  | car
  | cdr
  | index (i : Nat)

/-- One selection: car, cdr or vector-ref. -/
def select (h : Heap) (s : Selector) (x : Val) : Option Val :=
  match x with
  | .ref a =>
    match h a, s with
    | .pair c _, .car => some c
    | .pair _ d, .cdr => some d
    | .vector xs, .index i => xs[i]?
    | _, _ => none
  | _ => none

/-- A finite sequence of selections. -/
def follow (h : Heap) : List Selector → Val → Option Val
  | [], x => some x
  | s :: path, x => (select h s x).bind (follow h path)

/-- Both are pairs. -/
def BothPairs (h : Heap) (x y : Val) : Prop :=
  ∃ a b c d c' d', x = .ref a ∧ y = .ref b ∧ h a = .pair c d ∧ h b = .pair c' d'

/-- Both are vectors of one length. -/
def BothVectors (h : Heap) (x y : Val) : Prop :=
  ∃ a b xs ys, x = .ref a ∧ y = .ref b ∧ h a = .vector xs ∧ h b = .vector ys ∧
    xs.length = ys.length

/-- `x` and `y` cannot be told apart without taking them apart. -/
def HeadAgree (numEq : Val → Val → Bool) (h : Heap) (x y : Val) : Prop :=
  LeafEq numEq h x y ∨ BothPairs h x y ∨ BothVectors h x y

/-- No finite sequence of car/cdr/vector-ref selections leads to objects that can be told apart:
`x` and `y` unfold to the same, possibly infinite, tree. -/
def Indistinguishable (numEq : Val → Val → Bool) (h : Heap) (x y : Val) : Prop :=
  ∀ path, (∃ u v, follow h path x = some u ∧ follow h path y = some v ∧ HeadAgree numEq h u v) ∨
    (follow h path x = none ∧ follow h path y = none)

/-- Two objects that `eqv?` is to identify: leaves, or vectors with indistinguishable elements
(meevax's `eqv?` compares vectors by contents). -/
def EqvSpec (numEq : Val → Val → Bool) (h : Heap) (x y : Val) : Prop :=
  LeafEq numEq h x y ∨ ∃ a b xs ys, x = .ref a ∧ y = .ref b ∧ h a = .vector xs ∧
    h b = .vector ys ∧ List.Forall₂ (Indistinguishable numEq h) xs ys

/-- A word refers to memory below `N`. -/
def Within (N : Nat) : Val → Prop
  | .ref a => a < N
  | _ => True

/-- A finite heap: data below `N` refer only to data below `N`. -/
structure Finite (h : Heap) (N : Nat) : Prop where
  pair : ∀ a c d, a < N → h a = .pair c d → Within N c ∧ Within N d
  vector : ∀ a xs, a < N → h a = .vector xs → ∀ v ∈ xs, Within N v

/-- The rank of a word. -/
def rankVal (rank : Nat → Nat) : Val → Nat
  | .ref a => rank a
  | _ => 0

/-- No cycle passes through a vector: there is a rank that strictly decreases from a vector to its
elements and does not increase from a pair to its fields. -/
structure VectorsAcyclic (h : Heap) (rank : Nat → Nat) : Prop where
  pair : ∀ a c d, h a = .pair c d → rankVal rank c ≤ rank a ∧ rankVal rank d ≤ rank a
  vector : ∀ a xs, h a = .vector xs → ∀ v ∈ xs, rankVal rank v < rank a

/-- All homogeneous vectors have one length (comparing different lengths is undefined). -/
def UniformBytes (h : Heap) : Prop :=
  ∀ a b s t, h a = .bytes s → h b = .bytes t → s.length = t.length

end Meevax.Equal
