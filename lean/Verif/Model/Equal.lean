/-
Model of `eq?`, `eqv?` and `equal?`: `include/meevax/kernel/comparator.hpp`,
`src/kernel/comparator.cpp`, `object::eqv` (src/kernel/collector.cpp L81-L84) and
`binder::eqv` (include/meevax/kernel/collector.hpp L100-L117).

`none` stands for "does not terminate" or "undefined behaviour".
-/

namespace Meevax.Equal

/-- An `object` word (object.hpp L54): the empty list, a fixnum, another immediate (bool, float,
double, character, instruction, identified by its 64-bit pattern), or a reference to heap data. -/
inductive Val where
  | null
  | fix (value : Int)
  | imm (bits : Nat)
  | ref (address : Nat)
  deriving DecidableEq, Repr

/-- Heap data, grouped by how `binder<Bound>::eqv` compares it.
* `pair`: `pair::eqv` (pair.cpp L23-L26).
* `string`: `operator==` on code points (string.cpp L48).
* `vector`: element-wise `equal` (vector.cpp L24-L27).
* `bytes`: homogeneous vectors, `std::valarray` comparison (homogeneous_vector.hpp L96-L105).
* `integer`: `large_integer` (number.cpp L80).
* `ratio`: normalised numerator and denominator (number.cpp L159).
* `complex`: `number::equals` on both parts (number.cpp L298).
* `structural`: classes derived from `virtual pair` without an `operator==` of their own (box,
  closure, continuation, …), which therefore use that of `std::pair<object, object>`, i.e. word
  equality of both fields. `kind` is the C++ class; simplified: no class inherits from another.
* `opaque`: classes without `operator==` (symbols, ports, …). -/
inductive Cell where
  | pair (car cdr : Val)
  | string (chars : List Nat)
  | vector (elements : List Val)
  | bytes (values : List Nat)
  | integer (value : Int)
  | ratio (numerator : Int) (denominator : Nat)
  | complex (real imag : Val)
  | structural (kind : Nat) (car cdr : Val)
  | opaque
  deriving DecidableEq, Repr

/-- Memory: which datum each address holds (include/meevax/kernel/object.hpp L50-L60). -/
abbrev Heap := Nat → Cell

/-- `eq(x, y)`: comparison of words (comparator.hpp L24-L27). -/
def eq (x y : Val) : Bool := decide (x = y)

/-- The exact integer a word denotes, if any: `small_integer` or `large_integer`
(include/meevax/kernel/small_integer.hpp; include/meevax/kernel/large_integer.hpp). -/
def exactInteger (h : Heap) : Val → Option Int
  | .fix i => some i
  | .ref a =>
    match h a with
    | .integer n => some n
    | _ => none
  | _ => none

/-- `number::exact_integer_equals` (number.cpp L504-L507): false unless both are exact integers. -/
def exactIntegerEquals (h : Heap) (x y : Val) : Bool :=
  match exactInteger h x, exactInteger h y with
  | some m, some n => decide (m = n)
  | _, _ => false

/-- One box of the union-find forest (comparator.cpp L23-L33): its car is either another box or the
rank. Simplified: the rank is a natural number rather than a 32-bit integer (it only steers which
root survives). -/
inductive Node where
  | link (box : Nat)
  | rank (value : Nat)
  deriving DecidableEq, Repr

/-- The forest of one call of `equal?` (comparator.cpp L94-L98): `std::unordered_map<object, object>`
from objects to boxes, and the boxes, of which the first `count` have been made. -/
structure Forest where
  map : Val → Option Nat
  node : Nat → Node
  count : Nat

/-- The forest at the start of a call (src/kernel/comparator.cpp L97). -/
def Forest.empty : Forest := ⟨fun _ => none, fun _ => .rank 0, 0⟩

/-- `car(box) = node` (src/kernel/comparator.cpp L53-L59). -/
def setNode (node : Nat → Node) (b : Nat) (n : Node) : Nat → Node :=
  fun c => if c = b then n else node c

/-- `find` (comparator.cpp L23-L33) with path compression: the root of box `b`. -/
def find (node : Nat → Node) (b : Nat) : Option (Nat × (Nat → Node)) :=
  match node b with
  | .link c => do
    let (r, node') ← find node c
    some (r, setNode node' b (.link r))
  | .rank _ => some (b, node)
partial_fixpoint

/-- `car(root).as<small_integer>()` (src/kernel/comparator.cpp L50-L51). -/
def rankOf : Node → Nat
  | .rank n => n
  | .link _ => 0

/-- `union_find` (comparator.cpp L35-L83): true when `x` and `y` are already in one class, otherwise
merges their classes and returns false. -/
def unionFind (f : Forest) (x y : Val) : Option (Bool × Forest) :=
  match f.map x with
  | some bx =>
    match f.map y with
    | some by' => do
      let (rx, n1) ← find f.node bx
      let (ry, n2) ← find n1 by'
      if rx = ry then some (true, { f with node := n2 })
      else
        let kx := rankOf (n2 rx)
        let ky := rankOf (n2 ry)
        if kx > ky then
          some (false, { f with node := setNode (setNode n2 rx (.rank (kx + ky))) ry (.link rx) })
        else
          some (false, { f with node := setNode (setNode n2 rx (.link ry)) ry (.rank (kx + ky)) })
    | none => do
      let (rx, n1) ← find f.node bx
      some (false, { f with node := n1, map := fun v => if v = y then some rx else f.map v })
  | none =>
    match f.map y with
    | some by' => do
      let (ry, n1) ← find f.node by'
      some (false, { f with node := n1, map := fun v => if v = x then some ry else f.map v })
    | none =>
      some (false,
        { map := fun v => if v = x then some f.count else if v = y then some f.count else f.map v
          node := setNode f.node f.count (.rank 1)
          count := f.count + 1 })

mutual

/-- `x.eqv(y)` (collector.cpp L81-L84, collector.hpp L100-L117, pair.cpp L23-L26) for two references;
`numEq` is `number::equals` (number.cpp L499-L502). -/
def cellEqv (numEq : Val → Val → Bool) (h : Heap) (a b : Nat) : Option Bool :=
  match h a, h b with
  | .pair _ _, _ => some (decide (a = b))
  | .string s, .string t => some (decide (s = t))
  | .vector xs, .vector ys =>
    if xs.length = ys.length then elementsEqual numEq h xs ys else some false
  | .bytes xs, .bytes ys => if xs.length = ys.length then some (decide (xs = ys)) else none
  | .integer m, .integer n => some (decide (m = n))
  | .ratio m d, .ratio n e => some (decide (m = n ∧ d = e))
  | .complex r i, .complex r' i' => some (numEq r r' && numEq i i')
  | .structural k c d, .structural k' c' d' => some (decide (k = k' ∧ c = c' ∧ d = d'))
  | _, _ => some false
partial_fixpoint

/-- `eqv` (comparator.hpp L29-L32): `eq`, or `object::eqv`, or equal exact integers. `object::eqv`
of a word that is not a reference is word equality (already covered by `eq`). -/
def eqv (numEq : Val → Val → Bool) (h : Heap) (x y : Val) : Option Bool :=
  if eq x y then some true
  else do
    let b ← match x, y with
      | .ref a, .ref b => cellEqv numEq h a b
      | _, _ => some false
    some (b || exactIntegerEquals h x y)
partial_fixpoint

/-- `std::equal` over the elements with `equal` as predicate (vector.cpp L24-L27). -/
def elementsEqual (numEq : Val → Val → Bool) (h : Heap) (xs ys : List Val) : Option Bool :=
  match xs, ys with
  | x :: xs, y :: ys => do
    let (b, _) ← equalIn numEq h Forest.empty x y
    if b then elementsEqual numEq h xs ys else some false
  | [], [] => some true
  | _, _ => some false
partial_fixpoint

/-- `equal(x, y, forest)` (comparator.cpp L88-L93). -/
def equalIn (numEq : Val → Val → Bool) (h : Heap) (f : Forest) (x y : Val) :
    Option (Bool × Forest) := do
  let e ← eqv numEq h x y
  if e then some (true, f)
  else
    match x, y with
    | .ref a, .ref b =>
      match h a, h b with
      | .pair a1 a2, .pair b1 b2 => do
        let (u, f1) ← unionFind f x y
        if u then some (true, f1)
        else
          let (r1, f2) ← equalIn numEq h f1 a1 b1
          if r1 then equalIn numEq h f2 a2 b2 else some (false, f2)
      | _, _ => some (false, f)
    | _, _ => some (false, f)
partial_fixpoint

end

/-- `equal(x, y)` (comparator.cpp L94-L98); builtin `equal?` (boot.cpp L117). -/
def equal (numEq : Val → Val → Bool) (h : Heap) (x y : Val) : Option Bool := do
  let (b, _) ← equalIn numEq h Forest.empty x y
  some b

end Meevax.Equal
