/-!
# Model of `include/meevax/memory/pointer_set.hpp`

The collector keeps the addresses of all heap data and of all reference slots in a
`pointer_set`: a tree of bitmaps.  The primary template (pointer_set.hpp:40-360) is a node
whose children are sets of the same template with one bit-width fewer; the partial
specialisation (pointer_set.hpp:362-558) is the leaf, a flat bitmap.

Conventions.
* `std::size_t`/`std::uintptr_t` values are `Nat`; decrements that may wrap use `dec64`.
* `std::array`s are functions from the index; an index outside the array is out of bounds.
* Undefined behaviour (null dereference, out-of-bounds child access, a loop that does not
  end) is the outcome `none`.
* The one out-of-bounds access that does happen on ordinary paths — `seek(N)` reads
  `occupancy[Q]`, one word past the array (pointer_set.hpp:126) — returns an arbitrary word
  `g`; every theorem is proved for all `g`.
* A `const_iterator` holds a pointer to its set; here the set is passed to each operation
  and the iterator records only whether its pointer is non-null.
-/

namespace Meevax.PointerSet

/-- An element of a bitmap (pointer_set.hpp:362-558). -/
abbrev Word := BitVec 64

/-- `--x` on an unsigned 64-bit value (pointer_set.hpp:169, 223, 433). -/
def dec64 (x : Nat) : Nat := if x = 0 then 2 ^ 64 - 1 else x - 1

/-- `x - y` on unsigned 64-bit values (pointer_set.hpp:165, 173). -/
def sub64 (x y : Nat) : Nat := (x + 2 ^ 64 - y) % 2 ^ 64

/-- `std::countr_zero` on a 64-bit word (64 for zero) (pointer_set.hpp:128, 136, 397, 406). -/
def ctz (w : Word) : Nat := ((List.range 64).find? (fun i => w.getLsbD i)).getD 64

/-- `std::countl_zero` on a 64-bit word (64 for zero) (pointer_set.hpp:165, 173, 426, 435). -/
def clz (w : Word) : Nat := ((List.range 64).find? (fun i => w.getLsbD (63 - i))).getD 64

/-- Array read: `a[q]` for `q < Q`; the word `g` when the index is out of bounds (pointer_set.hpp:397-440). -/
def rd (a : Nat → Word) (Q : Nat) (g : Word) (q : Nat) : Word := if q < Q then a q else g

/-- `while (++q < Q) if (word = a[q]; word) return q * 64 + countr_zero(word);` —
pointer_set.hpp:132-138 (node) and 404-412 (leaf).  The first word looked at is `a[q]`
(the caller passes the already incremented `q`); `none` when the loop falls through. -/
def scanUpFrom (a : Nat → Word) (Q q : Nat) : Option Nat :=
  if q < Q then
    if a q ≠ 0#64 then some (q * 64 + ctz (a q)) else scanUpFrom a Q (q + 1)
  else none
termination_by Q - q

/-- The forward search: masked first word, then the following words —
pointer_set.hpp:124-140 (`seek` in the node) and 395-412 (leaf). -/
def scanUp (a : Nat → Word) (Q : Nat) (g : Word) (i : Nat) : Option Nat :=
  let q := i / 64
  let r := i % 64
  let word := rd a Q g q &&& (BitVec.allOnes 64 <<< r)
  if word ≠ 0#64 then some (q * 64 + ctz word) else scanUpFrom a Q (q + 1)

/-- `while (--q < Q) if (word = a[q]; word) return q * 64 + 63 - countl_zero(word);` —
pointer_set.hpp:169-175 and 433-441.  `q` is the value before the decrement; the wrap-around
of `0 - 1` ends the loop. -/
def scanDownFrom (a : Nat → Word) : Nat → Option Nat
  | 0 => none
  | q + 1 => if a q ≠ 0#64 then some (q * 64 + 63 - clz (a q)) else scanDownFrom a q

/-- The backward search — pointer_set.hpp:161-178 (`seek` in the node) and 424-441 (leaf). -/
def scanDown (a : Nat → Word) (i : Nat) : Option Nat :=
  let q := i / 64
  let r := i % 64
  let word := a q &&& (BitVec.allOnes 64 >>> (63 - r))
  if word ≠ 0#64 then some (q * 64 + 63 - clz word) else scanDownFrom a q

/-- Array write `a[q] = v` (auxiliary to pointer_set.hpp:500-530). -/
def upd {α : Type} (a : Nat → α) (q : Nat) (v : α) : Nat → α := fun k => if k = q then v else a k

/-- What a node uses of its child set type (pointer_set.hpp:53), and what a client uses of
the outermost set. `I` is the `const_iterator` type. -/
structure Impl where
  S : Type
  I : Type
  /-- a freshly constructed set -/
  new : S
  insert : S → Nat → Option S
  erase : S → Nat → Option S
  contains : S → Nat → Option Bool
  size : S → Nat
  /-- `begin()` -/
  first : S → Option I
  /-- `end()` -/
  stop : I
  /-- `const_iterator(p)`: last element -/
  last : S → Option I
  lowerBound : S → Nat → Option I
  /-- a default constructed iterator, `{}` -/
  default : I
  /-- `operator bool` -/
  valid : I → Bool
  /-- `operator ++` -/
  inc : S → I → Option I
  /-- `operator --` -/
  dec : S → I → Option I
  /-- `operator *` -/
  deref : I → Nat
  /-- `operator ==` -/
  same : I → I → Bool

/-! ## Leaf: `pointer_set<T, E>` (pointer_set.hpp:362-558), with `T = std::uintptr_t` -/

namespace Leaf

/-- pointer_set.hpp:371-373 -/
structure State where
  n : Nat := 0
  data : Nat → Word := fun _ => 0#64

/-- pointer_set.hpp:387-389; `p` records whether the set pointer is non-null. -/
structure Iter where
  p : Bool
  i : Nat
deriving DecidableEq, Repr

variable (E : Nat) (g : Word)

/-- pointer_set.hpp:365 -/
def N : Nat := 2 ^ E
/-- pointer_set.hpp:367 -/
def Q : Nat := N E / 64

/-- `index` — pointer_set.hpp:506-510 (`T` is an integer, so no compression). -/
def index (x : Nat) : Nat := x % 2 ^ E

/-- pointer_set.hpp:512-518 -/
def insert (s : State) (v : Nat) : State :=
  let q := index E v / 64
  let r := index E v % 64
  { n := s.n + 1, data := upd s.data q (s.data q ||| (1#64 <<< r)) }

/-- pointer_set.hpp:520-526 -/
def erase (s : State) (v : Nat) : State :=
  let q := index E v / 64
  let r := index E v % 64
  { n := dec64 s.n, data := upd s.data q (s.data q &&& ~~~(1#64 <<< r)) }

/-- pointer_set.hpp:528-532 -/
def contains (s : State) (v : Nat) : Bool :=
  let q := index E v / 64
  let r := index E v % 64
  (s.data q &&& (1#64 <<< r)) != 0#64

/-- `operator bool` — pointer_set.hpp:490-493 -/
def valid (it : Iter) : Bool := it.i < N E

/-- `increment_unless_truthy` — pointer_set.hpp:391-418; a null `p` is dereferenced. -/
def incrementUnlessTruthy (s : State) (it : Iter) : Option Iter :=
  if valid E it then
    if it.p then
      match scanUp s.data (Q E) g it.i with
      | some k => some { it with i := k }
      | none => some { it with i := N E }
    else none
  else some { it with i := N E }

/-- `decrement_unless_truthy` — pointer_set.hpp:420-447 -/
def decrementUnlessTruthy (s : State) (it : Iter) : Option Iter :=
  if valid E it then
    if it.p then
      match scanDown s.data it.i with
      | some k => some { it with i := k }
      | none => some { it with i := N E }
    else none
  else some { it with i := N E }

/-- `begin()` — pointer_set.hpp:534-537 with the constructor l. 451-456. -/
def first (s : State) : Option Iter := incrementUnlessTruthy E g s { p := true, i := 0 }
/-- `end()` — pointer_set.hpp:539-542 -/
def stop : Iter := { p := true, i := N E }
/-- `const_iterator(p)` — pointer_set.hpp:463-468 -/
def last (s : State) : Option Iter := decrementUnlessTruthy E s { p := true, i := N E - 1 }
/-- `lower_bound` — pointer_set.hpp:544-547 -/
def lowerBound (s : State) (v : Nat) : Option Iter :=
  incrementUnlessTruthy E g s { p := true, i := index E v }
/-- `operator ++` — pointer_set.hpp:470-475 -/
def inc (s : State) (it : Iter) : Option Iter :=
  incrementUnlessTruthy E g s { it with i := it.i + 1 }
/-- `operator --` — pointer_set.hpp:477-482 -/
def dec (s : State) (it : Iter) : Option Iter :=
  decrementUnlessTruthy E s { it with i := dec64 it.i }

/-- `operator ==` — pointer_set.hpp:495-498 -/
def same (a b : Iter) : Bool := if valid E b then a.i == b.i else !valid E a

/-- The leaf as a set (pointer_set.hpp:362-558). -/
def impl : Impl where
  S := State
  I := Iter
  new := {}
  insert s v := some (insert E s v)
  erase s v := some (erase E s v)
  contains s v := some (contains E s v)
  size s := s.n
  first := first E g
  stop := stop E
  last := last E
  lowerBound := lowerBound E g
  default := { p := false, i := N E }
  valid := valid E
  inc := inc E g
  dec := dec E
  deref it := it.i
  same := same E

end Leaf

/-! ## Node: `pointer_set<T, E, Es...>` (pointer_set.hpp:40-360) -/

namespace Node

/-- Template parameters: `E`, the sum of `Es...`, `compressible_bitwidth_of<T>`
(pointer_set.hpp:33; 3 for pointers to 8-byte aligned types, 0 for integers). -/
structure Params where
  E : Nat
  Es : Nat
  c : Nat

variable (P : Params) (g : Word) (M : Impl)

/-- pointer_set.hpp:47 -/
def N : Nat := 2 ^ (P.E - P.c)
/-- pointer_set.hpp:49 -/
def Q : Nat := (N P + 63) / 64

/-- pointer_set.hpp:55-62.  `data i = none` is a null child pointer. -/
structure State where
  data : Nat → Option M.S := fun _ => none
  occupancy : Nat → Word := fun _ => 0#64
  n : Nat := 0
  iMin : Nat
  iMax : Nat := 0

/-- pointer_set.hpp:76-80 -/
structure Iter where
  p : Bool
  i : Nat
  sub : M.I

/-- `split` — pointer_set.hpp:261-274 -/
def split (v : Nat) : Nat × Nat :=
  let x := v / 2 ^ P.c
  ((x / 2 ^ P.Es) % 2 ^ P.E, x % 2 ^ P.Es)

/-- `insert` — pointer_set.hpp:276-300.  `i` outside the child array is undefined. -/
def insert (s : State M) (v : Nat) : Option (State M) :=
  let (i, j) := split P v
  if i < N P then
    let s := match s.data i with
      | none => { s with iMin := min s.iMin i, iMax := max s.iMax i, data := upd s.data i (some M.new) }
      | some _ => s
    match s.data i with
    | none => none
    | some t =>
      let s := if M.size t = 0 then
          { s with occupancy := upd s.occupancy (i / 64) (s.occupancy (i / 64) ||| (1#64 <<< (i % 64))) }
        else s
      match M.insert t j with
      | none => none
      | some t' => some { s with data := upd s.data i (some t'), n := s.n + 1 }
  else none

/-- `erase` — pointer_set.hpp:302-318.  A null child is dereferenced. -/
def erase (s : State M) (v : Nat) : Option (State M) :=
  let (i, j) := split P v
  if i < N P then
    match s.data i with
    | none => none
    | some t =>
      match M.erase t j with
      | none => none
      | some t' =>
        let s := { s with data := upd s.data i (some t'), n := dec64 s.n }
        some (if M.size t' = 0 then
            { s with occupancy := upd s.occupancy (i / 64) (s.occupancy (i / 64) &&& ~~~(1#64 <<< (i % 64))) }
          else s)
  else none

/-- `contains` — pointer_set.hpp:320-324 -/
def contains (s : State M) (v : Nat) : Option Bool :=
  let (i, j) := split P v
  if i < N P then
    match s.data i with
    | none => some false
    | some t => M.contains t j
  else none

/-- `operator bool` — pointer_set.hpp:237-240 -/
def valid (it : Iter M) : Bool := it.i < N P

/-- `invalidate` — pointer_set.hpp:192-208 -/
def invalidate (it : Iter M) : Iter M := { it with i := N P, sub := M.default }

/-- `seek` of `increment_unless_truthy` — pointer_set.hpp:122-142 -/
def seekUp (s : State M) (i : Nat) : Nat := (scanUp s.occupancy (Q P) g i).getD (N P)

/-- The loop pointer_set.hpp:144-152.  `none` when the fuel runs out. -/
def incrementLoop (s : State M) (it : Iter M) : Nat → Nat → Option (Iter M)
  | 0, _ => none
  | fuel + 1, i =>
    if i ≤ s.iMax then
      -- `p->data[i] and (sub = p->data[i]->begin())`
      if i < N P then
        match s.data i with
        | none => incrementLoop s it fuel (seekUp P g M s (i + 1))
        | some t =>
          match M.first t with
          | none => none
          | some sub =>
            if M.valid sub then some { it with i := i, sub := sub }
            else incrementLoop s { it with sub := sub } fuel (seekUp P g M s (i + 1))
      else none
    else some (invalidate P M it)

/-- `increment_unless_truthy` — pointer_set.hpp:118-153 -/
def incrementUnlessTruthy (s : State M) (it : Iter M) : Option (Iter M) :=
  if it.p then incrementLoop P g M s it (N P + 2) (seekUp P g M s it.i) else none

/-- `seek` of `decrement_unless_truthy` — pointer_set.hpp:159-179; the first index is read
without a bound check, so `i / 64` outside the array is undefined. -/
def seekDown (s : State M) (i : Nat) : Option Nat :=
  if i / 64 < Q P then some ((scanDown s.occupancy i).getD (N P)) else none

/-- The loop pointer_set.hpp:181-189 -/
def decrementLoop (s : State M) (it : Iter M) : Nat → Nat → Option (Iter M)
  | 0, _ => none
  | fuel + 1, i =>
    if sub64 i s.iMin < sub64 (N P) s.iMin then
      if i < N P then
        let next := fun (it : Iter M) =>
          match seekDown P M s (dec64 i) with
          | none => none
          | some i' => decrementLoop s it fuel i'
        match s.data i with
        | none => next it
        | some t =>
          match M.last t with
          | none => none
          | some sub =>
            if M.valid sub then some { it with i := i, sub := sub }
            else next { it with sub := sub }
      else none
    else some (invalidate P M it)

/-- `decrement_unless_truthy` — pointer_set.hpp:155-190 -/
def decrementUnlessTruthy (s : State M) (it : Iter M) : Option (Iter M) :=
  if it.p then
    match seekDown P M s (min it.i (N P - 1)) with
    | none => none
    | some i => decrementLoop P M s it (N P + 2) i
  else none

/-- `begin()` — pointer_set.hpp:326-329 with the constructor l. 98-104. -/
def first (s : State M) : Option (Iter M) :=
  incrementUnlessTruthy P g M s { p := true, i := s.iMin, sub := M.default }

/-- `end()` — pointer_set.hpp:331-334 with the constructor l. 106-109. -/
def stop : Iter M := { p := true, i := N P, sub := M.default }

/-- `const_iterator(p)` — pointer_set.hpp:111-116 -/
def last (s : State M) : Option (Iter M) :=
  decrementUnlessTruthy P M s { p := true, i := s.iMax, sub := M.default }

/-- `lower_bound` — pointer_set.hpp:336-340 with the constructor l. 84-96. -/
def lowerBound (s : State M) (v : Nat) : Option (Iter M) :=
  let (i, j) := split P v
  if i < N P then
    match s.data i with
    | none => incrementUnlessTruthy P g M s { p := true, i := i + 1, sub := M.default }
    | some t =>
      match M.lowerBound t j with
      | none => none
      | some sub =>
        if M.valid sub then some { p := true, i := i, sub := sub }
        else incrementUnlessTruthy P g M s { p := true, i := i + 1, sub := sub }
  else none

/-- The set a sub-iterator points into: `data[i]` for a live position.  For a
sub-iterator that is not in a live position the pointer is null and the operation must not
look at the set; an arbitrary (fresh) set stands in for it (pointer_set.hpp:200-225). -/
def subSet (s : State M) (i : Nat) : M.S := (s.data i).getD M.new

/-- `operator ++` — pointer_set.hpp:210-219 -/
def inc (s : State M) (it : Iter M) : Option (Iter M) :=
  match M.inc (subSet M s it.i) it.sub with
  | none => none
  | some sub =>
    if M.valid sub then some { it with sub := sub }
    else incrementUnlessTruthy P g M s { it with sub := sub, i := it.i + 1 }

/-- `operator --` — pointer_set.hpp:221-229 -/
def dec (s : State M) (it : Iter M) : Option (Iter M) :=
  if it.p then
    match M.dec (subSet M s it.i) it.sub with
    | none => none
    | some sub =>
      if M.valid sub then some { it with sub := sub }
      else
        let it := { it with sub := sub, i := dec64 it.i }
        if it.i < N P then decrementUnlessTruthy P M s it else some it
  else some it

/-- `operator *` — pointer_set.hpp:231-235 -/
def deref (it : Iter M) : Nat := ((it.i <<< P.Es) ||| M.deref it.sub) <<< P.c

/-- `operator ==` — pointer_set.hpp:242-245 -/
def same (a b : Iter M) : Bool :=
  if valid P M b then a.i == b.i && M.same a.sub b.sub else !valid P M a

/-- The node as a set (pointer_set.hpp:40-360). -/
def impl : Impl where
  S := State M
  I := Iter M
  new := { iMin := N P }
  insert := insert P M
  erase := erase P M
  contains := contains P M
  size s := s.n
  first := first P g M
  stop := stop P M
  last := last P M
  lowerBound := lowerBound P g M
  default := { p := false, i := N P, sub := M.default }
  valid := valid P M
  inc := inc P g M
  dec := dec P M
  deref := deref P M
  same := same P M

end Node

/-- `canonical_pointer_set<T>` — src/kernel/collector.cpp:29-30:
`pointer_set<T const*, 15, 16, 16>` with `T` 8-byte aligned.  `g` stands for the word read
past an occupancy array. -/
def canonical (g : Word) : Impl :=
  Node.impl { E := 15, Es := 32, c := 3 } g
    (Node.impl { E := 16, Es := 16, c := 0 } g (Leaf.impl 16 g))

end Meevax.PointerSet
