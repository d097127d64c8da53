import Verif.Model.Lists

/-!
Model of the linear update procedures of `(srfi 1)`, those whose names end in `!` and that are written in Scheme
(library/srfi-1.ss), over the heap of pairs of Model/Lists.lean.

* `none`: an error, undefined behaviour, or no result.
* Procedures supplied by the user look at the heap and have effects on a state of their own; they do not change or
  make pairs.  A predicate returns whether its result is other than `#f`.
* The operands of a call are evaluated from right to left (src/kernel/generator.cpp L56-L72).
* A list of further arguments is a Lean list.
-/

namespace Meevax.Linear

open Meevax.Lists

/-- A predicate (library/srfi-1.ss L413). -/
abbrev Pred (S : Type) := Obj → Heap → S → Option (Bool × S)

/-- A comparison (library/srfi-1.ss L629). -/
abbrev Pred2 (S : Type) := Obj → Obj → Heap → S → Option (Bool × S)

/-- A procedure of some arguments (library/srfi-1.ss L345). -/
abbrev Proc (S : Type) := List Obj → Heap → S → Option (Obj × S)

variable {S : Type}

/-- `null-list?` (src/kernel/boot.cpp L146): an error for anything but a proper or circular list. -/
def nullList (h : Heap) (x : Obj) : Option Bool := do
  if (← isProperList h x) then some (isNull x)
  else if (← isCircularList h x) then some (isNull x)
  else none

/-- `set-cdr!` (src/kernel/boot.cpp L306): of a pair. -/
def setCdrOf (h : Heap) (x y : Obj) : Option Heap := (address x).map fun a => setCdr h a y

/-- `set-car!` (src/kernel/boot.cpp L305): of a pair. -/
def setCarOf (h : Heap) (x y : Obj) : Option Heap := (address x).map fun a => setCar h a y

/-- `(lambda (x) (not (satisfy? x)))` (library/srfi-1.ss L483-L484). -/
def complement (P : Pred S) : Pred S := fun x h s => (P x h s).map fun (b, s) => (!b, s)

/-- `split-at!` (library/srfi-1.ss L143-L149). -/
def splitAtBang (h : Heap) (x : Obj) (k : Nat) : Option ((Obj × Obj) × Heap) :=
  if k = 0 then some ((.null, x), h)
  else do
    let prefixLast ← drop h x (k - 1)
    let suffix ← cdr h prefixLast
    let h ← setCdrOf h prefixLast .null
    some ((x, suffix), h)

/-- `filter!` (library/srfi-1.ss L413-L420). -/
def filterBang (P : Pred S) (xs : Obj) (h : Heap) (s : S) : Option (Obj × Heap × S) :=
  if isPair xs then do
    let a ← car h xs
    let (b, s) ← P a h s
    if b then do
      let d ← cdr h xs
      let (r, h, s) ← filterBang P d h s
      let h ← setCdrOf h xs r
      some (xs, h, s)
    else do
      let d ← cdr h xs
      filterBang P d h s
  else some (xs, h, s)
partial_fixpoint

/-- `remove!` (library/srfi-1.ss L482-L485). -/
def removeBang (P : Pred S) (xs : Obj) (h : Heap) (s : S) : Option (Obj × Heap × S) := filterBang (complement P) xs h s

/-- The loops `scan-in` (`inside = true`) and `scan-out` of `partition!` (library/srfi-1.ss L441-L458): `this` is the
last pair of the list that is being passed over (`in-prev`, or `out-prev`), `other` the last pair of the other list. -/
def scan (P : Pred S) (inside : Bool) (this other xs : Obj) (h : Heap) (s : S) : Option (Heap × S) :=
  if isPair xs then do
    let a ← car h xs
    let (b, s) ← P a h s
    if b = inside then do
      let d ← cdr h xs
      scan P inside xs other d h s
    else do
      let h ← setCdrOf h other xs
      let d ← cdr h xs
      scan P (!inside) xs this d h s
  else do
    let h ← setCdrOf h other xs
    some (h, s)
partial_fixpoint

/-- The first loops of `partition!` (library/srfi-1.ss L460-L475): `inside` says whether the first element satisfies
the predicate; `first` is the first pair.  The results are in the order of `values`. -/
def partitionLoop (P : Pred S) (inside : Bool) (first prev l : Obj) (h : Heap) (s : S) :
    Option ((Obj × Obj) × Heap × S) :=
  if !isPair l then some (if inside then (first, l) else (l, first), h, s)
  else do
    let a ← car h l
    let (b, s) ← P a h s
    if b = inside then do
      let d ← cdr h l
      partitionLoop P inside first l d h s
    else do
      let d ← cdr h l
      let (h, s) ← scan P (!inside) l prev d h s
      some (if inside then (first, l) else (l, first), h, s)
partial_fixpoint

/-- `partition!` (library/srfi-1.ss L438-L475). -/
def partitionBang (P : Pred S) (xs : Obj) (h : Heap) (s : S) : Option ((Obj × Obj) × Heap × S) := do
  if (← nullList h xs) then some ((xs, xs), h, s)
  else
    let a ← car h xs
    let (b, s) ← P a h s
    let d ← cdr h xs
    partitionLoop P b xs xs d h s

/-- The loop of `take-while!` (library/srfi-1.ss L569-L575). -/
def takeWhileLoop (P : Pred S) (prev rest : Obj) (h : Heap) (s : S) : Option (Heap × S) :=
  if isPair rest then do
    let x ← car h rest
    let (b, s) ← P x h s
    if b then do
      let d ← cdr h rest
      takeWhileLoop P rest d h s
    else do
      let h ← setCdrOf h prev .null
      some (h, s)
  else some (h, s)
partial_fixpoint

/-- `take-while!` (library/srfi-1.ss L565-L576). -/
def takeWhileBang (P : Pred S) (xs : Obj) (h : Heap) (s : S) : Option (Obj × Heap × S) := do
  if (← nullList h xs) then some (.null, h, s)
  else
    let a ← car h xs
    let (b, s) ← P a h s
    if !b then some (.null, h, s)
    else
      let d ← cdr h xs
      let (h, s) ← takeWhileLoop P xs d h s
      some (xs, h, s)

/-- The loop of `span!` (library/srfi-1.ss L600-L608). -/
def spanLoop (P : Pred S) (prev rest : Obj) (h : Heap) (s : S) : Option (Obj × Heap × S) := do
  if (← nullList h rest) then some (rest, h, s)
  else
    let x ← car h rest
    let (b, s) ← P x h s
    if b then do
      let d ← cdr h rest
      spanLoop P rest d h s
    else do
      let h ← setCdrOf h prev .null
      some (rest, h, s)
partial_fixpoint

/-- `span!` (library/srfi-1.ss L596-L609). -/
def spanBang (P : Pred S) (xs : Obj) (h : Heap) (s : S) : Option ((Obj × Obj) × Heap × S) := do
  if (← nullList h xs) then some ((.null, xs), h, s)
  else
    let a ← car h xs
    let (b, s) ← P a h s
    if !b then some ((.null, xs), h, s)
    else
      let d ← cdr h xs
      let (suffix, h, s) ← spanLoop P xs d h s
      some ((xs, suffix), h, s)

/-- `break!` (library/srfi-1.ss L616-L619). -/
def breakBang (P : Pred S) (xs : Obj) (h : Heap) (s : S) : Option ((Obj × Obj) × Heap × S) :=
  spanBang (complement P) xs h s

/-- `delete!` (library/srfi-1.ss L629-L635). -/
def deleteBang (E : Pred2 S) (x xs : Obj) (h : Heap) (s : S) : Option (Obj × Heap × S) :=
  filterBang (complement (E x)) xs h s

/-- `delete-duplicates!` (library/srfi-1.ss L651-L663). -/
def deleteDuplicatesBang (E : Pred2 S) (xxs : Obj) (h : Heap) (s : S) : Option (Obj × Heap × S) := do
  if (← nullList h xxs) then some (.null, h, s)
  else
    let x ← car h xxs
    let xs ← cdr h xxs
    let (r, h, s) ← deleteBang E x xs h s
    let (ys, h, s) ← deleteDuplicatesBang E r h s
    if xs = ys then some (xxs, h, s)
    else
      let (p, h) := cons h x ys
      some (p, h, s)
partial_fixpoint

/-- `alist-delete!` (library/srfi-1.ss L673-L679). -/
def alistDeleteBang (E : Pred2 S) (key alist : Obj) (h : Heap) (s : S) : Option (Obj × Heap × S) :=
  filterBang (complement fun x h s => (car h x).bind fun k => E key k h s) alist h s

/-- `%cars+cdrs/no-test` (library/srfi-1.ss L887-L896). -/
def carsCdrsNoTest (h : Heap) : List Obj → Option (List Obj × List Obj)
  | [] => some ([], [])
  | xs :: xss => do
    let a ← car h xs
    let d ← cdr h xs
    let (cars, cdrs) ← carsCdrsNoTest h xss
    some (a :: cars, d :: cdrs)

/-- The loop of `map!` with several lists (library/srfi-1.ss L347-L353). -/
def mapLoopMany (f : Proc S) (x : Obj) (xs : List Obj) (h : Heap) (s : S) : Option (Heap × S) := do
  if (← nullList h x) then some (h, s)
  else
    let (heads, tails) ← carsCdrsNoTest h xs
    let a ← car h x
    let (v, s) ← f (a :: heads) h s
    let h ← setCarOf h x v
    let d ← cdr h x
    mapLoopMany f d tails h s
partial_fixpoint

/-- The loop of `map!` with one list: `pair-for-each` (library/srfi-1.ss L354-L356, L366-L370). -/
def mapLoop (f : Proc S) (x : Obj) (h : Heap) (s : S) : Option (Heap × S) := do
  if (← nullList h x) then some (h, s)
  else
    let tail ← cdr h x
    let a ← car h x
    let (v, s) ← f [a] h s
    let h ← setCarOf h x v
    mapLoop f tail h s
partial_fixpoint

/-- `map!` (library/srfi-1.ss L345-L357). -/
def mapBang (f : Proc S) (x : Obj) (xs : List Obj) (h : Heap) (s : S) : Option (Obj × Heap × S) := do
  let (h, s) ← if xs.isEmpty then mapLoop f x h s else mapLoopMany f x xs h s
  some (x, h, s)

/-! ### Lists as sets -/

/-- `member` with a comparison (library/r4rs.ss L253-L258): whether the result is not `#f`. -/
def memberOf (E : Pred2 S) (x xs : Obj) (h : Heap) (s : S) : Option (Bool × S) :=
  if isPair xs then do
    let a ← car h xs
    let (b, s) ← E x a h s
    if b then some (true, s)
    else do
      let d ← cdr h xs
      memberOf E x d h s
  else some (false, s)
partial_fixpoint

/-- The loop of `any` (library/srfi-1.ss L512-L518). -/
def anyLoop (P : Pred S) (head tail : Obj) (h : Heap) (s : S) : Option (Bool × S) := do
  if (← nullList h tail) then P head h s
  else
    let (b, s) ← P head h s
    if b then some (true, s)
    else do
      let a ← car h tail
      let d ← cdr h tail
      anyLoop P a d h s
partial_fixpoint

/-- `any` with one list (library/srfi-1.ss L511-L518). -/
def anyOf (P : Pred S) (x : Obj) (h : Heap) (s : S) : Option (Bool × S) := do
  if (← nullList h x) then some (false, s)
  else
    let a ← car h x
    let d ← cdr h x
    anyLoop P a d h s

/-- `(every f xss)` and `(any f xss)` on the list of the further arguments (library/srfi-1.ss L511-L518, L531-L539),
as Lean lists: calls from left to right, up to the one that decides. -/
def everyArg (f : Obj → S → Option (Bool × S)) : List Obj → S → Option (Bool × S)
  | [], s => some (true, s)
  | x :: xs, s => do
    let (b, s) ← f x s
    if b then everyArg f xs s else some (false, s)

/-- See `everyArg` (library/srfi-1.ss L511-L518). -/
def anyArg (f : Obj → S → Option (Bool × S)) : List Obj → S → Option (Bool × S)
  | [], s => some (false, s)
  | x :: xs, s => do
    let (b, s) ← f x s
    if b then some (true, s) else anyArg f xs s

/-- Does `null-list?` hold of one of the arguments, of all (library/srfi-1.ss L758, L827)? -/
def anyNull (h : Heap) : List Obj → Option Bool
  | [] => some false
  | x :: xs => do if (← nullList h x) then some true else anyNull h xs

/-- See `anyNull` (library/srfi-1.ss L827). -/
def allNull (h : Heap) : List Obj → Option Bool
  | [] => some true
  | x :: xs => do if (← nullList h x) then allNull h xs else some false

/-- The step of `lset-union!` (library/srfi-1.ss L733-L740): `x:xs` and `ys`. -/
def unionStep (E : Pred2 S) (p ys : Obj) (h : Heap) (s : S) : Option (Obj × Heap × S) := do
  let x ← car h p
  let (b, s) ← anyOf (fun y h s => E x y h s) ys h s
  if b then some (ys, h, s)
  else do
    let h ← setCdrOf h p ys
    some (p, h, s)

/-- `pair-fold` with one list (library/srfi-1.ss L259-L264). -/
def pairFold (f : Obj → Obj → Heap → S → Option (Obj × Heap × S)) (x ans : Obj) (h : Heap) (s : S) :
    Option (Obj × Heap × S) := do
  if (← nullList h x) then some (ans, h, s)
  else
    let tail ← cdr h x
    let (ans, h, s) ← f x ans h s
    pairFold f tail ans h s
partial_fixpoint

/-- The procedure that `lset-union!` gives to `reduce` (library/srfi-1.ss L729-L742). -/
def union2 (E : Pred2 S) (xs ys : Obj) (h : Heap) (s : S) : Option (Obj × Heap × S) :=
  if isNull xs then some (ys, h, s)
  else if isNull ys then some (xs, h, s)
  else if xs = ys then some (ys, h, s)
  else pairFold (unionStep E) xs ys h s

/-- `reduce` on the list of arguments (library/srfi-1.ss L266-L269). -/
def reduceArgs (f : Obj → Obj → Heap → S → Option (Obj × Heap × S)) : List Obj → Heap → S → Option (Obj × Heap × S)
  | [], h, s => some (.null, h, s)
  | x :: xs, h, s => go x xs h s
where
  /-- `fold` (library/srfi-1.ss L219-L234). -/
  go (acc : Obj) : List Obj → Heap → S → Option (Obj × Heap × S)
    | [], h, s => some (acc, h, s)
    | x :: xs, h, s => do
      let (acc, h, s) ← f x acc h s
      go acc xs h s

/-- `lset-union!` (library/srfi-1.ss L728-L744). -/
def lsetUnionBang (E : Pred2 S) (xss : List Obj) (h : Heap) (s : S) : Option (Obj × Heap × S) :=
  reduceArgs (union2 E) xss h s

/-- `lset-intersection!` (library/srfi-1.ss L756-L764); `(delete xs xss eq?)` removes the first list. -/
def lsetIntersectionBang (E : Pred2 S) (xs : Obj) (xss : List Obj) (h : Heap) (s : S) : Option (Obj × Heap × S) := do
  let xss := xss.filter (· ≠ xs)
  if (← anyNull h xss) then some (.null, h, s)
  else if xss.isEmpty then some (xs, h, s)
  else filterBang (fun x h s => everyArg (fun ys s => memberOf E x ys h s) xss s) xs h s

/-- `lset-difference!` (library/srfi-1.ss L776-L784). -/
def lsetDifferenceBang (E : Pred2 S) (xs : Obj) (xss : List Obj) (h : Heap) (s : S) : Option (Obj × Heap × S) :=
  let xss := xss.filter isPair
  if xss.isEmpty then some (xs, h, s)
  else if xss.contains xs then some (.null, h, s)
  else filterBang
    (fun x h s => everyArg (fun ys s => (memberOf E x ys h s).map fun (b, s) => (!b, s)) xss s) xs h s

/-- `lset-diff+intersection!` (library/srfi-1.ss L826-L835). -/
def lsetDiffIntersectionBang (E : Pred2 S) (xs : Obj) (xss : List Obj) (h : Heap) (s : S) :
    Option ((Obj × Obj) × Heap × S) := do
  if (← allNull h xss) then some ((xs, .null), h, s)
  else if xss.contains xs then some ((.null, xs), h, s)
  else partitionBang (complement fun x h s => anyArg (fun ys s => memberOf E x ys h s) xss s) xs h s

/-- The step of `lset-xor!` (library/srfi-1.ss L805-L810). -/
def xorStep (E : Pred2 S) (common p ys : Obj) (h : Heap) (s : S) : Option (Obj × Heap × S) := do
  let x ← car h p
  let (b, s) ← memberOf E x common h s
  if b then some (ys, h, s)
  else do
    let h ← setCdrOf h p ys
    some (p, h, s)

/-- The procedure that `lset-xor!` gives to `reduce` (library/srfi-1.ss L801-L812). -/
def xor2 (E : Pred2 S) (b a : Obj) (h : Heap) (s : S) : Option (Obj × Heap × S) := do
  let ((difference, common), h, s) ← lsetDiffIntersectionBang E a [b] h s
  if isNull difference then lsetDifferenceBang E b [a] h s
  else if isNull common then do
    let (r, h) ← appendBang h b a
    some (r, h, s)
  else pairFold (xorStep E common) b difference h s

/-- `lset-xor!` (library/srfi-1.ss L800-L814). -/
def lsetXorBang (E : Pred2 S) (xss : List Obj) (h : Heap) (s : S) : Option (Obj × Heap × S) :=
  reduceArgs (xor2 E) xss h s

end Meevax.Linear
