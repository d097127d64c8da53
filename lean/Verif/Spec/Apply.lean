import Verif.Model.Apply
import Verif.Spec.Lexical

/-!
What `apply` is to do: call the procedure with an operand list of the given arguments.
-/

namespace Meevax.Secd.Apply

/-- A chain of pairs with these elements that ends with `t`; the locations of the pairs. -/
inductive Chain (h : Cells) : Value → List Value → Value → List Nat → Prop where
  | nil (t : Value) : Chain h t [] t []
  | cons {l : Nat} {xs : List Value} {t : Value} {ls : List Nat} (ht : Chain h (h.cell l).2 xs t ls) :
      Chain h (.pair l) ((h.cell l).1 :: xs) t (l :: ls)

/-- All locations are allocated. -/
def Allocated (h : Cells) (ls : List Nat) : Prop := ∀ l ∈ ls, l < h.next

/-- Pairs are only added. -/
def Extends (h h' : Cells) : Prop := h.next ≤ h'.next ∧ ∀ l, l < h.next → h'.cell l = h.cell l

/-- The primitive procedures, by what they do for the arguments `apply` gives them. -/
structure Library (P : Prims) : Prop where
  null : ∀ {h : Cells} {xs v : Value}, h.car xs = some v →
    P nNull xs h = .ok (.datum (.bool (isNull v))) h
  car : ∀ {h : Cells} {xs v w : Value}, h.car xs = some v → h.car v = some w → P nCar xs h = .ok w h
  cdr : ∀ {h : Cells} {xs v w : Value}, h.car xs = some v → h.cdr v = some w → P nCdr xs h = .ok w h
  cons : ∀ {h : Cells} {xs ys v w : Value}, h.car xs = some v → h.cdr xs = some ys → h.car ys = some w →
    P nCons xs h = .ok (.pair h.next) (h.cons v w)
  reverse : ∀ {h : Cells} {xs v : Value} {vs : List Value} {ls : List Nat}, h.car xs = some v → IsList h v vs ls →
    P nReverse xs h = .ok (push vs .nil h).1 (push vs .nil h).2
  append : ∀ {h : Cells} {xs ys v w : Value} {vs : List Value} {ls : List Nat}, h.car xs = some v →
    IsList h v vs ls → h.cdr xs = some ys → h.car ys = some w → P nAppend xs h = .ok (copy vs w h).1 (copy vs w h).2

/-- The variables of the library hold the primitive procedures. -/
def Bound (h : Heap) : Prop := ∀ p ∈ [nNull, nAppend, nReverse, nCdr, nCar, nCons], h.globals p = .prim p

end Meevax.Secd.Apply
