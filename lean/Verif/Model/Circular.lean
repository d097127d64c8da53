import Verif.Model.Srfi1

/-!
# Procedures of SRFI 1 on lists that may be circular

The procedures of /repo/library/srfi-1.ss, `map` (/repo/library/meevax.ss) and `for-each`
(/repo/library/r4rs.ss) that are useful on circular lists, over pairs instead of Lean lists.

* A list is an address; `Cells` says for every address whether it is a pair, and which.  What is not a
  pair is `()`: dotted lists are not modelled.  The pairs are not modified during the call.
* Every loop has a number of rounds it may make; `none` means that it has not ended by then.
* User procedures are functions into a monad, as in Model/Srfi1.lean.
-/

namespace Meevax.Srfi1.Circular

/-- `car` and `cdr` of the pair at an address, `none` for `()`
(/repo/include/meevax/kernel/pair.hpp L24-L50). -/
abbrev Cells (A V : Type) := A → Option (V × A)

section
variable {m : Type → Type} [Monad m] {A V β B : Type} [Objects B]

/-- The loop of `%cars+cdrs`, /repo/library/srfi-1.ss L859-L870; `none` stands for the escape. -/
def carsCdrsLoop (s : Cells A V) : List A → Option (List V × List A)
  | [] => some ([], [])
  | a :: as =>
    match s a with
    | none => none
    | some (v, d) =>
      match carsCdrsLoop s as with
      | none => none
      | some (cars, cdrs) => some (v :: cars, d :: cdrs)

/-- `%cars+cdrs`, /repo/library/srfi-1.ss L856-L870; see `Meevax.Srfi1.carsCdrs`. -/
def carsCdrs (s : Cells A V) (as : List A) : List V × List A :=
  match carsCdrsLoop s as with
  | none => ([], [])
  | some p => p

/-- `%cars+cdrs+`, /repo/library/srfi-1.ss L872-L886. -/
def carsCdrsPlus (s : Cells A V) (as : List A) (last : V) : List V × List A :=
  match carsCdrsLoop s as with
  | none => ([], [])
  | some (cars, cdrs) => (cars ++ [last], cdrs)

/-- `(memq '() xs)`, /repo/library/meevax.ss L135. -/
def someNull (s : Cells A V) (as : List A) : Bool := as.any fun a => (s a).isNone

/-- `(map car xs '())`, /repo/library/meevax.ss L139, when no list is empty. -/
def cars (s : Cells A V) (as : List A) : List V := as.filterMap fun a => (s a).map Prod.fst

/-- `(map cdr xs '())`, /repo/library/meevax.ss L138, when no list is empty. -/
def cdrs (s : Cells A V) (as : List A) : List A := as.filterMap fun a => (s a).map Prod.snd

/-! ## Several lists -/

/-- `map*`, /repo/library/meevax.ss L134-L139. -/
def mapN (s : Cells A V) (f : List V → m β) : Nat → List A → List β → m (Option (List β))
  | 0, _, _ => pure none
  | n + 1, as, a =>
    if someNull s as then pure (some a.reverse)
    else do
      let y ← f (cars s as)
      mapN s f n (cdrs s as) (y :: a)

/-- `map` with several lists, /repo/library/meevax.ss L142. -/
def map (s : Cells A V) (f : List V → m β) (n : Nat) (as : List A) : m (Option (List β)) := mapN s f n as []

/-- `for-each` with several lists, /repo/library/r4rs.ss L301-L302. -/
def forEach (s : Cells A V) (f : List V → m β) (n : Nat) (as : List A) : m (Option Unit) := do
  let r ← map s f n as
  pure (r.map fun _ => ())

/-- `fold` with several lists, /repo/library/srfi-1.ss L223-L229. -/
def fold (s : Cells A V) (f : List V → m V) : Nat → List A → V → m (Option V)
  | 0, _, _ => pure none
  | n + 1, as, ans =>
    if (carsCdrsPlus s as ans).1.isEmpty then pure (some ans)
    else do
      let ans' ← f (carsCdrsPlus s as ans).1
      fold s f n (carsCdrsPlus s as ans).2 ans'

/-- The loop of `count` with several lists, /repo/library/srfi-1.ss L201-L212. -/
def countLoop (s : Cells A V) (satisfy : List V → m B) : Nat → A → List A → Nat → m (Option Nat)
  | 0, _, _, _ => pure none
  | n + 1, x, xs, i =>
    match s x with
    | none => pure (some i)
    | some (v, d) =>
      if (carsCdrs s xs).1.isEmpty then pure (some i)
      else do
        let b ← satisfy (v :: (carsCdrs s xs).1)
        countLoop s satisfy n d (carsCdrs s xs).2 (if isFalse b then i else i + 1)

/-- `map-in-order` with several lists, /repo/library/srfi-1.ss L388-L393. -/
def mapInOrder (s : Cells A V) (f : List V → m β) : Nat → List A → m (Option (List β))
  | 0, _ => pure none
  | n + 1, as =>
    if (carsCdrs s as).1.isEmpty then pure (some [])
    else do
      let x ← f (carsCdrs s as).1
      let r ← mapInOrder s f n (carsCdrs s as).2
      pure (r.map (x :: ·))

/-- `filter-map` with several lists, /repo/library/srfi-1.ss L373-L379. -/
def filterMap (s : Cells A V) (f : List V → m B) : Nat → List A → m (Option (List B))
  | 0, _ => pure none
  | n + 1, as =>
    if (carsCdrs s as).1.isEmpty then pure (some [])
    else do
      let x ← f (carsCdrs s as).1
      let r ← filterMap s f n (carsCdrs s as).2
      pure (r.map fun xs => if isFalse x then xs else x :: xs)

/-- `%cdrs`, /repo/library/srfi-1.ss L837-L847. -/
def cdrsOrNull (s : Cells A V) (as : List A) : List A :=
  match carsCdrsLoop s as with
  | none => []
  | some (_, cdrs) => cdrs

/-- `%cars+`, /repo/library/srfi-1.ss L849-L854, when no list is empty. -/
def carsPlus (s : Cells A V) (as : List A) (last : V) : List V := cars s as ++ [last]

/-- `fold-right` with several lists, /repo/library/srfi-1.ss L273-L277: the recursion comes before the call. -/
def foldRight (s : Cells A V) (f : List V → m V) (z : V) : Nat → List A → m (Option V)
  | 0, _ => pure none
  | n + 1, as =>
    if (cdrsOrNull s as).isEmpty then pure (some z)
    else do
      let r ← foldRight s f z n (cdrsOrNull s as)
      match r with
      | none => pure none
      | some r => do
        let y ← f (carsPlus s as r)
        pure (some y)

/-- `pair-for-each` with several lists, /repo/library/srfi-1.ss L361-L365. -/
def pairForEach (s : Cells A V) (f : List A → m β) : Nat → List A → m (Option Unit)
  | 0, _ => pure none
  | n + 1, as =>
    if (cdrsOrNull s as).isEmpty then pure (some ())
    else do
      let _ ← f as
      pairForEach s f n (cdrsOrNull s as)

/-- The loop of `append-map` with several lists, /repo/library/srfi-1.ss L327-L333. -/
def appendMapLoop (s : Cells A V) (f : List V → m (List β)) : Nat → List V → List A → m (Option (List β))
  | 0, _, _ => pure none
  | n + 1, heads, rest => do
    let vals ← f heads
    if (carsCdrs s rest).1.isEmpty then pure (some vals)
    else do
      let r ← appendMapLoop s f n (carsCdrs s rest).1 (carsCdrs s rest).2
      pure (r.map (vals ++ ·))

/-- `append-map` with several lists, /repo/library/srfi-1.ss L316-L333. -/
def appendMap (s : Cells A V) (f : List V → m (List β)) (n : Nat) (as : List A) : m (Option (List β)) :=
  if (carsCdrs s as).1.isEmpty then pure (some [])
  else appendMapLoop s f n (carsCdrs s as).1 (carsCdrs s as).2

/-- The loop of `any` with several lists, /repo/library/srfi-1.ss L502-L509. -/
def anyLoop (s : Cells A V) (satisfy : List V → m B) : Nat → List V → List A → m (Option B)
  | 0, _, _ => pure none
  | n + 1, heads, rest =>
    if (carsCdrs s rest).1.isEmpty then do
      let b ← satisfy heads
      pure (some b)
    else do
      let b ← satisfy heads
      if isFalse b then anyLoop s satisfy n (carsCdrs s rest).1 (carsCdrs s rest).2 else pure (some b)

/-- `any` with several lists, /repo/library/srfi-1.ss L500-L509. -/
def any (s : Cells A V) (satisfy : List V → m B) (n : Nat) (as : List A) : m (Option B) :=
  if (carsCdrs s as).1.isEmpty then pure (some no)
  else anyLoop s satisfy n (carsCdrs s as).1 (carsCdrs s as).2

/-- The loop of `every` with several lists, /repo/library/srfi-1.ss L523-L529. -/
def everyLoop (s : Cells A V) (satisfy : List V → m B) : Nat → List V → List A → m (Option B)
  | 0, _, _ => pure none
  | n + 1, heads, rest =>
    if (carsCdrs s rest).1.isEmpty then do
      let b ← satisfy heads
      pure (some b)
    else do
      let b ← satisfy heads
      if isFalse b then pure (some no) else everyLoop s satisfy n (carsCdrs s rest).1 (carsCdrs s rest).2

/-- `every` with several lists, /repo/library/srfi-1.ss L521-L529. -/
def every (s : Cells A V) (satisfy : List V → m B) (n : Nat) (as : List A) : m (Option B) :=
  if (carsCdrs s as).1.isEmpty then pure (some yes)
  else everyLoop s satisfy n (carsCdrs s as).1 (carsCdrs s as).2

/-- `list-index` with several lists, /repo/library/srfi-1.ss L541-L547; the inner `none` is `#f`. -/
def listIndex (s : Cells A V) (satisfy : List V → m B) : Nat → List A → Nat → m (Option (Option Nat))
  | 0, _, _ => pure none
  | n + 1, as, i =>
    if (carsCdrs s as).1.isEmpty then pure (some none)
    else do
      let b ← satisfy (carsCdrs s as).1
      if isFalse b then listIndex s satisfy n (carsCdrs s as).2 (i + 1) else pure (some (some i))

/-! ## One list -/

/-- `find-tail`, /repo/library/srfi-1.ss L491-L496; the inner `none` is `#f`. -/
def findTail (s : Cells A V) (satisfy : V → m B) : Nat → A → m (Option (Option A))
  | 0, _ => pure none
  | n + 1, a =>
    match s a with
    | none => pure (some none)
    | some (v, d) => do
      let b ← satisfy v
      if isFalse b then findTail s satisfy n d else pure (some (some a))

/-- `find`, /repo/library/srfi-1.ss L487-L489; the inner `none` is `#f`. -/
def find (s : Cells A V) (satisfy : V → m B) (n : Nat) (a : A) : m (Option (Option V)) := do
  let r ← findTail s satisfy n a
  pure (r.map fun t => t.bind fun d => (s d).map Prod.fst)

/-- The loop of `any` with one list, /repo/library/srfi-1.ss L511-L517. -/
def anyOne (s : Cells A V) (satisfy : V → m B) : Nat → V → A → m (Option B)
  | 0, _, _ => pure none
  | n + 1, head, tail =>
    match s tail with
    | none => do
      let b ← satisfy head
      pure (some b)
    | some (v, d) => do
      let b ← satisfy head
      if isFalse b then anyOne s satisfy n v d else pure (some b)

/-- `any` with one list, /repo/library/srfi-1.ss L510-L517. -/
def any1 (s : Cells A V) (satisfy : V → m B) (n : Nat) (a : A) : m (Option B) :=
  match s a with
  | none => pure (some no)
  | some (v, d) => anyOne s satisfy n v d

/-- The loop of `every` with one list, /repo/library/srfi-1.ss L531-L537. -/
def everyOne (s : Cells A V) (satisfy : V → m B) : Nat → V → A → m (Option B)
  | 0, _, _ => pure none
  | n + 1, head, tail =>
    match s tail with
    | none => do
      let b ← satisfy head
      pure (some b)
    | some (v, d) => do
      let b ← satisfy head
      if isFalse b then pure (some no) else everyOne s satisfy n v d

/-- `every` with one list, /repo/library/srfi-1.ss L530-L537. -/
def every1 (s : Cells A V) (satisfy : V → m B) (n : Nat) (a : A) : m (Option B) :=
  match s a with
  | none => pure (some yes)
  | some (v, d) => everyOne s satisfy n v d

/-- `list-index` with one list, /repo/library/srfi-1.ss L548-L554. -/
def listIndexOne (s : Cells A V) (satisfy : V → m B) : Nat → A → Nat → m (Option (Option Nat))
  | 0, _, _ => pure none
  | n + 1, a, i =>
    match s a with
    | none => pure (some none)
    | some (v, d) => do
      let b ← satisfy v
      if isFalse b then listIndexOne s satisfy n d (i + 1) else pure (some (some i))

/-- `take-while`, /repo/library/srfi-1.ss L556-L563. -/
def takeWhile (s : Cells A V) (satisfy : V → m B) : Nat → A → m (Option (List V))
  | 0, _ => pure none
  | n + 1, a =>
    match s a with
    | none => pure (some [])
    | some (v, d) => do
      let b ← satisfy v
      if isFalse b then pure (some [])
      else do
        let r ← takeWhile s satisfy n d
        pure (r.map (v :: ·))

/-- `span`, /repo/library/srfi-1.ss L587-L595; the second value is a tail of the list. -/
def span (s : Cells A V) (satisfy : V → m B) : Nat → A → m (Option (List V × Option A))
  | 0, _ => pure none
  | n + 1, a =>
    match s a with
    | none => pure (some ([], none))
    | some (v, d) => do
      let b ← satisfy v
      if isFalse b then pure (some ([], some a))
      else do
        let r ← span s satisfy n d
        pure (r.map fun p => (v :: p.1, p.2))

end

end Meevax.Srfi1.Circular
