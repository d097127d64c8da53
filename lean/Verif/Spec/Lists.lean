import Verif.Model.Lists

/-!
What list procedures are supposed to do, stated on the heap alone (fields `car`, `cdr`, `next`).
-/

namespace Meevax.Lists

/-- `Seg h x as t`: starting at `x`, following cdr visits exactly the pairs at addresses `as`, in
order, and then arrives at `t`. -/
inductive Seg (h : Heap) : Obj → List Nat → Obj → Prop
  | nil (x : Obj) : Seg h x [] x
  | cons {a : Nat} {as : List Nat} {t : Obj} :
      a < h.next → Seg h (h.cdr a) as t → Seg h (.pair a) (a :: as) t

/-- `x` is the proper list of the elements `xs`. -/
def ListIs (h : Heap) (x : Obj) (xs : List Obj) : Prop :=
  ∃ as, Seg h x as .null ∧ as.map h.car = xs

/-- A proper list: following cdr reaches `()`. -/
def Proper (h : Heap) (x : Obj) : Prop := ∃ as, Seg h x as .null

/-- A dotted list: following cdr reaches something that is neither a pair nor `()`. -/
def Dotted (h : Heap) (x : Obj) : Prop := ∃ as n, Seg h x as (.atom n)

/-- A circular list: following cdr never leaves the pairs. -/
def Circular (h : Heap) (x : Obj) : Prop := ∀ n, ∃ as a, as.length = n ∧ Seg h x as (.pair a)

/-- Every pair reachable by cdr is allocated: the heap and the object contain no dangling
reference. -/
structure Closed (h : Heap) (x : Obj) : Prop where
  object : ∀ a, x = .pair a → a < h.next
  cdr : ∀ a b, a < h.next → h.cdr a = .pair b → b < h.next

/-- No pair that existed before has been changed. -/
structure Extends (h h' : Heap) : Prop where
  next : h.next ≤ h'.next
  car : ∀ a, a < h.next → h'.car a = h.car a
  cdr : ∀ a, a < h.next → h'.cdr a = h.cdr a

/-- No pair that existed before has been changed, except those at the addresses `as`, of which at
most the cdr has changed. -/
structure OnlyCdrs (h h' : Heap) (as : List Nat) : Prop where
  next : h.next ≤ h'.next
  car : ∀ a, a < h.next → h'.car a = h.car a
  cdr : ∀ a, a < h.next → a ∉ as → h'.cdr a = h.cdr a

/-- `r` consists of freshly allocated pairs holding `xs`, followed by the shared object `t`. -/
def FreshThen (h h' : Heap) (r : Obj) (xs : List Obj) (t : Obj) : Prop :=
  ∃ as, Seg h' r as t ∧ as.map h'.car = xs ∧ as.Nodup ∧ ∀ a ∈ as, h.next ≤ a

end Meevax.Lists
