/-
Model of meevax's list procedures (`src/kernel/list.cpp`, `include/meevax/kernel/list.hpp`,
and the builtins of `src/kernel/boot.cpp` that call them) over an explicit heap of pairs.

Every function returns `Option`: `none` stands for both "does not terminate" and "undefined
behaviour" (`car`/`cdr` applied to something that is not a pair dereferences a pointer that is not
one, object.hpp L114-L117). A theorem that concludes `= some …` therefore establishes termination
and absence of undefined behaviour as well as the value.
-/

namespace Meevax.Lists

/-- An `object` as list.cpp sees it (object.hpp L54-L156): the empty list (`is<null>`), a reference
to a pair (`is<pair>`), or anything else. `atom n` is any other value, identified by its `eq?`
identity `n`. Simplified: the payload of an atom is not modelled here. -/
inductive Obj where
  | null
  | pair (address : Nat)
  | atom (identity : Nat)
  deriving DecidableEq, Repr

/-- The `#f` that memq and friends return (boolean.hpp `f`); an atom whose identity is 0. -/
def Obj.f : Obj := .atom 0

/-- The pairs in memory: `struct pair : std::pair<object, object>` (pair.hpp L24-L47). Addresses
below `next` are allocated. Simplified: a fresh pair is always placed at `next`; that fresh
addresses are never in use is C05. -/
structure Heap where
  car : Nat → Obj
  cdr : Nat → Obj
  next : Nat

/-- `x.is<pair>()` (object.hpp L144-L148). -/
def isPair : Obj → Bool
  | .pair _ => true
  | _ => false

/-- `x.is<null>()` (object.hpp L144-L148). -/
def isNull : Obj → Bool
  | .null => true
  | _ => false

/-- `*x` for a pair (`object::as<pair>`, object.hpp L112-L117): the address, or undefined. -/
def address : Obj → Option Nat
  | .pair a => some a
  | _ => none

/-- `car` (pair.hpp L83). -/
def car (h : Heap) (x : Obj) : Option Obj := (address x).map h.car

/-- `cdr` (pair.hpp L84). -/
def cdr (h : Heap) (x : Obj) : Option Obj := (address x).map h.cdr

/-- `cons(x, y)` = `make<pair>(x, y)` (pair.hpp L53-L75, collector.hpp L185-L208). -/
def cons (h : Heap) (x y : Obj) : Obj × Heap :=
  (.pair h.next,
   { car := fun a => if a = h.next then x else h.car a
     cdr := fun a => if a = h.next then y else h.cdr a
     next := h.next + 1 })

/-- `cdr(x) = y` for the pair at address `a` (object.hpp `operator =`). -/
def setCdr (h : Heap) (a : Nat) (y : Obj) : Heap :=
  { h with cdr := fun b => if b = a then y else h.cdr b }

/-- `car(x) = y` for the pair at address `a` (object.hpp `operator =`). -/
def setCar (h : Heap) (a : Nat) (y : Obj) : Heap :=
  { h with car := fun b => if b = a then y else h.car b }

/-- `make_list` (list.cpp L23-L33). -/
def makeList (h : Heap) (size : Nat) (x : Obj) : Obj × Heap :=
  match size with
  | 0 => (.null, h)
  | k + 1 =>
    let (t, h1) := makeList h k x
    cons h1 x t

/-- `iota` (list.cpp L35-L45). `add` is the generic addition of number.cpp, taken as a parameter. -/
def iota (add : Obj → Obj → Obj) (h : Heap) (count : Nat) (start step : Obj) : Obj × Heap :=
  match count with
  | 0 => (.null, h)
  | k + 1 =>
    let (t, h1) := iota add h k (add start step) step
    cons h1 start t

/-- `is_proper_list(x0, y0)` (list.cpp L47-L67). -/
def isProperList2 (h : Heap) (x0 y0 : Obj) : Option Bool :=
  if isPair x0 then do
    let x1 ← cdr h x0
    if isPair x1 then
      let x2 ← cdr h x1
      let y1 ← cdr h y0
      if x2 = y1 then some false else isProperList2 h x2 y1
    else some (isNull x1)
  else some (isNull x0)
partial_fixpoint

/-- `is_proper_list(xs)` (list.cpp L69-L72); builtin `list?` (boot.cpp L139). -/
def isProperList (h : Heap) (xs : Obj) : Option Bool := isProperList2 h xs xs

/-- `is_circular_list(x0, y0)` (list.cpp L74-L94). -/
def isCircularList2 (h : Heap) (x0 y0 : Obj) : Option Bool :=
  if isPair x0 then do
    let x1 ← cdr h x0
    if isPair x1 then
      let x2 ← cdr h x1
      let y1 ← cdr h y0
      if x2 = y1 then some true else isCircularList2 h x2 y1
    else some false
  else some false
partial_fixpoint

/-- `is_circular_list(xs)` (list.cpp L96-L99); builtin `circular-list?` (boot.cpp L143). -/
def isCircularList (h : Heap) (xs : Obj) : Option Bool := isCircularList2 h xs xs

/-- `is_dotted_list(x0, y0)` (list.cpp L101-L121). -/
def isDottedList2 (h : Heap) (x0 y0 : Obj) : Option Bool :=
  if isPair x0 then do
    let x1 ← cdr h x0
    if isPair x1 then
      let x2 ← cdr h x1
      let y1 ← cdr h y0
      if x2 = y1 then some false else isDottedList2 h x2 y1
    else some (!isNull x1)
  else some (!isNull x0)
partial_fixpoint

/-- `is_dotted_list(xs)` (list.cpp L123-L126); builtin `dotted-list?` (boot.cpp L145). -/
def isDottedList (h : Heap) (xs : Obj) : Option Bool := isDottedList2 h xs xs

/-- `list_copy` (list.cpp L128-L138); builtin `list-copy` (boot.cpp L159). -/
def listCopy (h : Heap) (xs : Obj) : Option (Obj × Heap) :=
  if isPair xs then do
    let a ← car h xs
    let d ← cdr h xs
    let (t, h1) ← listCopy h d
    some (cons h1 a t)
  else some (xs, h)
partial_fixpoint

/-- `take(object const&, k)` (list.cpp L140-L150); builtin `take` (boot.cpp L172). -/
def take (h : Heap) (x : Obj) (k : Nat) : Option (Obj × Heap) :=
  match k with
  | 0 => some (.null, h)
  | k + 1 => do
    let a ← car h x
    let d ← cdr h x
    let (t, h1) ← take h d k
    some (cons h1 a t)

/-- `drop` (list.cpp L182-L204), `tail` (list.hpp L70-L73); builtins `drop` and `list-tail`
(boot.cpp L175, L161). -/
def drop (h : Heap) (x : Obj) (k : Nat) : Option Obj :=
  match k with
  | 0 => some x
  | k + 1 => do
    let d ← cdr h x
    drop h d k

/-- `head` (list.hpp L75-L78); builtin `list-ref` (boot.cpp L160). -/
def listRef (h : Heap) (x : Obj) (k : Nat) : Option Obj := do
  let t ← drop h x k
  car h t

/-- `take(object &, k)` (list.cpp L152-L163); builtin `take!` (boot.cpp L173). -/
def takeBang (h : Heap) (x : Obj) (k : Nat) : Option (Obj × Heap) :=
  if 0 < k then do
    let t ← drop h x (k - 1)
    let a ← address t
    some (x, setCdr h a .null)
  else some (.null, h)

/-- `take_right(x, y)` (list.cpp L165-L175). -/
def takeRight2 (h : Heap) (x y : Obj) : Option Obj :=
  if isPair y then do
    let x' ← cdr h x
    let y' ← cdr h y
    takeRight2 h x' y'
  else some x
partial_fixpoint

/-- `take_right(x, k)` (list.cpp L177-L180); builtin `take-right` (boot.cpp L174). -/
def takeRight (h : Heap) (x : Obj) (k : Nat) : Option Obj := do
  let y ← drop h x k
  takeRight2 h x y

/-- `drop_right(object const&, y)` (list.cpp L206-L216). -/
def dropRight2 (h : Heap) (x y : Obj) : Option (Obj × Heap) :=
  if isPair y then do
    let a ← car h x
    let x' ← cdr h x
    let y' ← cdr h y
    let (t, h1) ← dropRight2 h x' y'
    some (cons h1 a t)
  else some (.null, h)
partial_fixpoint

/-- `drop_right(object const&, k)` (list.cpp L218-L221); builtin `drop-right` (boot.cpp L176). -/
def dropRight (h : Heap) (x : Obj) (k : Nat) : Option (Obj × Heap) := do
  let y ← drop h x k
  dropRight2 h x y

/-- `drop_right(object &, y)` (list.cpp L223-L233). -/
def dropRightBang2 (h : Heap) (x y : Obj) : Option Heap :=
  if isPair y then do
    let x' ← cdr h x
    let y' ← cdr h y
    dropRightBang2 h x' y'
  else do
    let a ← address x
    some (setCdr h a .null)
partial_fixpoint

/-- `drop_right(object &, k)` (list.cpp L235-L246); builtin `drop-right!` (boot.cpp L177). -/
def dropRightBang (h : Heap) (x : Obj) (k : Nat) : Option (Obj × Heap) := do
  let y ← drop h x k
  if isPair y then
    let y' ← cdr h y
    let h1 ← dropRightBang2 h x y'
    some (x, h1)
  else some (.null, h)

/-- `length` (list.cpp L248-L251): `std::ranges::distance` over `as_proper_list`, whose iterator
follows `second.get()` until it is null (iterator.hpp L91-L114, proper_list.hpp L24-L54). A cell
that is not a pair ends the walk by undefined behaviour unless it is not a pointer at all, in which
case `get()` is null; the model treats every non-pair tail other than `()` as undefined. -/
def length (h : Heap) (x : Obj) : Option Nat :=
  if isNull x then some 0 else do
    let d ← cdr h x
    let n ← length h d
    some (n + 1)
partial_fixpoint

/-- Builtin `length+` (boot.cpp L150): `#f` for a circular list. `none` inside is `#f`. -/
def lengthPlus (h : Heap) (x : Obj) : Option (Option Nat) := do
  let c ← isCircularList h x
  if c then some none else (length h x).map some

/-- `last_pair` (list.hpp L39-L42); builtin `last-pair` (boot.cpp L148). -/
def lastPair (h : Heap) (x : Obj) : Option Obj := do
  let d ← cdr h x
  if isPair d then lastPair h d else some x
partial_fixpoint

/-- `last` (list.hpp L44-L47); builtin `last` (boot.cpp L147). -/
def last (h : Heap) (x : Obj) : Option Obj := do
  let p ← lastPair h x
  car h p

/-- `circulate` (list.hpp L49-L52). -/
def circulate (h : Heap) (x : Obj) : Option Heap := do
  let p ← lastPair h x
  let a ← address p
  some (setCdr h a x)

/-- Builtin `circular-list` applied to the argument list `xs` (boot.cpp L144). -/
def circularList (h : Heap) (xs : Obj) : Option (Obj × Heap) := do
  let (copy, h1) ← listCopy h xs
  let h2 ← circulate h1 copy
  some (copy, h2)

/-- `append(object const&, object const&)` (list.cpp L253-L263). -/
def append (h : Heap) (x y : Obj) : Option (Obj × Heap) :=
  if isPair x then do
    let a ← car h x
    let d ← cdr h x
    let (t, h1) ← append h d y
    some (cons h1 a t)
  else some (y, h)
partial_fixpoint

/-- `fold_left(xs | as_proper_list, acc, append)`: the loop of the builtins `append` and
`concatenate` (boot.cpp L151, L157). `xs` is the list of the arguments. -/
def appendFold (h : Heap) (acc : Obj) (xs : Obj) : Option (Obj × Heap) :=
  if isNull xs then some (acc, h) else do
    let a ← car h xs
    let (acc', h1) ← append h acc a
    let d ← cdr h1 xs
    appendFold h1 acc' d
partial_fixpoint

/-- Builtin `append` applied to the argument list `xs` (boot.cpp L151); `concatenate` is the same
with `xs` its only argument (boot.cpp L157). -/
def appendStar (h : Heap) (xs : Obj) : Option (Obj × Heap) := appendFold h .null xs

/-- `append(object &, object const&)` (list.cpp L265-L280). Returns the object the reference `x`
ends up holding. -/
def appendBang (h : Heap) (x y : Obj) : Option (Obj × Heap) :=
  if isNull x then some (y, h)
  else if isNull y then some (x, h)
  else do
    let p ← lastPair h x
    let a ← address p
    some (x, setCdr h a y)

/-- The recursive lambda of builtin `append!` (boot.cpp L152): `x` is the object held by the current
argument cell, `xs` the remaining argument list. When `x` is null the cell's contents are replaced
by the result; the cells are the temporary argument list, and `write` says which one (the first
argument is held in a local variable, so there is none). -/
def appendBangArgs (h : Heap) (cell : Option Nat) (x : Obj) (xs : Obj) : Option (Obj × Heap) :=
  if isNull xs then some (x, h) else do
    let c ← address xs
    let a ← car h xs
    let d ← cdr h xs
    let (r, h1) ← appendBangArgs h (some c) a d
    if isNull x then
      match cell with
      | none => some (r, h1)
      | some c0 => some (r, setCar h1 c0 r)
    else appendBang h1 x r
partial_fixpoint

/-- Builtin `append!` applied to the argument list `xs` (boot.cpp L152). -/
def appendBangStar (h : Heap) (xs : Obj) : Option (Obj × Heap) :=
  if !isPair xs then some (xs, h) else do
    let a ← car h xs
    let d ← cdr h xs
    appendBangArgs h none a d

/-- `append_reverse(object const&, object const&)` (list.cpp L282-L292). -/
def appendReverse (h : Heap) (x y : Obj) : Option (Obj × Heap) :=
  if isNull x then some (y, h) else do
    let a ← car h x
    let d ← cdr h x
    let (y', h1) := cons h a y
    appendReverse h1 d y'
partial_fixpoint

/-- `append_reverse(object &, object const&)` (list.cpp L294-L304). The recursive call's first
argument is the prvalue returned by `std::exchange`, which cannot bind to `object &`: overload
resolution selects the `object const&` overload, so only the first pair is relinked. -/
def appendReverseBang (h : Heap) (x y : Obj) : Option (Obj × Heap) :=
  if isNull x then some (y, h) else do
    let a ← address x
    let d ← cdr h x
    appendReverse (setCdr h a y) d x

/-- `reverse(object const&, a)` (list.cpp L306-L316). -/
def reverse2 (h : Heap) (xs a : Obj) : Option (Obj × Heap) :=
  if isPair xs then do
    let x ← car h xs
    let d ← cdr h xs
    let (a', h1) := cons h x a
    reverse2 h1 d a'
  else some (a, h)
partial_fixpoint

/-- `reverse(object const&)` (list.cpp L318-L321); builtin `reverse` (boot.cpp L155). -/
def reverse (h : Heap) (xs : Obj) : Option (Obj × Heap) := reverse2 h xs .null

/-- `reverse(object &, a)` (list.cpp L323-L333); as for `appendReverseBang`, the recursive call
resolves to the `object const&` overload. -/
def reverseBang2 (h : Heap) (xs a : Obj) : Option (Obj × Heap) :=
  if isNull xs then some (a, h) else do
    let p ← address xs
    let d ← cdr h xs
    reverse2 (setCdr h p a) d xs

/-- `reverse(object &)` (list.cpp L335-L338); builtin `reverse!` (boot.cpp L156). -/
def reverseBang (h : Heap) (xs : Obj) : Option (Obj × Heap) := reverseBang2 h xs .null

/-- `memq` (list.cpp L340-L357), `memv` (list.cpp L359-L376): `test` is `eq` or `eqv`. -/
def mem (test : Obj → Obj → Bool) (h : Heap) (x xs : Obj) : Option Obj :=
  if isPair xs then do
    let a ← car h xs
    if test x a then some xs
    else
      let d ← cdr h xs
      mem test h x d
  else some Obj.f
partial_fixpoint

/-- `assq` (list.cpp L378-L395), `assv` (list.cpp L397-L414): `test` is `eq` or `eqv`. -/
def ass (test : Obj → Obj → Bool) (h : Heap) (x xs : Obj) : Option Obj :=
  if isPair xs then do
    let a ← car h xs
    let k ← car h a
    if test x k then some a
    else
      let d ← cdr h xs
      ass test h x d
  else some Obj.f
partial_fixpoint

/-- `alist_cons` (list.cpp L416-L419). -/
def alistCons (h : Heap) (key datum alist : Obj) : Obj × Heap :=
  let (e, h1) := cons h key datum
  cons h1 e alist

/-- `alist_copy` (list.cpp L421-L428) through `map` (list.hpp L114-L124); the callback is applied to
the head before the tail is mapped or after (the order of the two arguments of `cons` is
unspecified in C++); the model takes the head first. -/
def alistCopy (h : Heap) (alist : Obj) : Option (Obj × Heap) :=
  if isPair alist then do
    let e ← car h alist
    let d ← cdr h alist
    let k ← car h e
    let v ← cdr h e
    let (e', h1) := cons h k v
    let (t, h2) ← alistCopy h1 d
    some (cons h2 e' t)
  else some (.null, h)
partial_fixpoint

/-- Builtin `cons*` applied to the argument list `xs` (boot.cpp L274): it relinks the argument list
itself. `node` walks while `cdr(node->second)` is not null. -/
def consStarLoop (h : Heap) (node : Nat) : Option Heap := do
  let d ← cdr h (h.cdr node)
  if isNull d then
    let a ← car h (h.cdr node)
    some (setCdr h node a)
  else
    let node' ← address (h.cdr node)
    consStarLoop h node'
partial_fixpoint

/-- Builtin `cons*` (boot.cpp L274). The empty argument list raises an error; the model returns
`none` there. -/
def consStar (h : Heap) (xs : Obj) : Option (Obj × Heap) :=
  if isNull xs then none else do
    let d ← cdr h xs
    if isNull d then
      let a ← car h xs
      some (a, h)
    else
      let node ← address xs
      let h1 ← consStarLoop h node
      some (xs, h1)

end Meevax.Lists
