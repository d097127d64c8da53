/-!
# The list library (SRFI 1)

Model of the procedures of `(srfi 1)` that are written in Scheme, /repo/library/srfi-1.ss L101-L902,
with `member` (/repo/library/r4rs.ss L253-L258), `for-each` (/repo/library/r4rs.ss L294-L302) and `map`
(/repo/library/meevax.ss L127-L142), which it re-exports.

* Procedures supplied by the user are functions into an arbitrary monad `m`.  What such a procedure does
  besides returning (output, mutation, errors, escaping through a continuation, asking for a random
  number) is an effect of `m`, so an equation between two computations in `m` that holds for all lawful
  monads says that the procedure is called with the same arguments, in the same order and equally often.
* The operands of a procedure call are evaluated from right to left
  (/repo/src/kernel/generator.cpp, `operand`), so in `(cons (f seed) (recur (g seed)))` the recursion
  comes first.
* Lists are proper, finite and not modified during the call, and are Lean lists.  Dotted lists
  are not modelled here, circular ones are in Model/Circular.lean; the linear-update procedures (`filter!`, ...) are in Model/LinearUpdate.lean.
* `eq?` on two lists is a parameter `same`; the theorems assume only that lists that are `eq?` have the
  same elements.
* Counters are natural numbers: the exact integers of this size do not overflow (property C20).
-/

namespace Meevax.Srfi1

/-- The objects that a predicate can return: `#f`, `#t` and whatever else; only `#f` counts as false
(/repo/src/kernel/machine.cpp, instruction `select`). -/
class Objects (B : Type) where
  /-- `#f` -/
  no : B
  /-- `#t` -/
  yes : B
  /-- the test made by `if` -/
  isFalse : B → Bool
  isFalse_iff : ∀ x, isFalse x = true ↔ x = no
  yes_ne_no : yes ≠ no

export Objects (no yes isFalse)

/-- Scheme's `not` (src/kernel/boot.cpp L83). -/
def negate {B : Type} [Objects B] (x : B) : B := if isFalse x then yes else no

section
variable {m : Type → Type} [Monad m] {α β B V : Type} [Objects B]

/-! ## Several lists at once -/

/-- The loop of `%cars+cdrs`, /repo/library/srfi-1.ss L859-L870; `none` stands for the escape through
`abort`. -/
def carsCdrsLoop : List (List V) → Option (List V × List (List V))
  | [] => some ([], [])
  | [] :: _ => none
  | (a :: d) :: xss =>
    match carsCdrsLoop xss with
    | none => none
    | some (cars, cdrs) => some (a :: cars, d :: cdrs)

/-- `%cars+cdrs`, /repo/library/srfi-1.ss L856-L870.  `(abort '() '())` hands over only the first of its
two arguments (property C54), so that the second variable of the receiver is not bound; no caller reads
it when the first value is `'()`.  The model returns `[]` in its place. -/
def carsCdrs (xss : List (List V)) : List V × List (List V) :=
  match carsCdrsLoop xss with
  | none => ([], [])
  | some p => p

/-- `%cars+cdrs+`, /repo/library/srfi-1.ss L872-L886: the same with one more element after the cars. -/
def carsCdrsPlus (xss : List (List V)) (last : V) : List V × List (List V) :=
  match carsCdrsLoop xss with
  | none => ([], [])
  | some (cars, cdrs) => (cars ++ [last], cdrs)

/-- `%cdrs`, /repo/library/srfi-1.ss L837-L847; `none` stands for the escape. -/
def cdrsLoop : List (List V) → Option (List (List V))
  | [] => some []
  | [] :: _ => none
  | (_ :: d) :: xss =>
    match cdrsLoop xss with
    | none => none
    | some cdrs => some (d :: cdrs)

/-- `%cdrs`, /repo/library/srfi-1.ss L837-L847. -/
def cdrs (xss : List (List V)) : List (List V) :=
  match cdrsLoop xss with
  | none => []
  | some p => p

/-- `%cars+`, /repo/library/srfi-1.ss L849-L854.  Its callers have checked that no list is empty. -/
def carsPlus (xss : List (List V)) (last : V) : List V :=
  match xss with
  | [] => [last]
  | [] :: xss => carsPlus xss last
  | (a :: _) :: xss => a :: carsPlus xss last

/-- How many elements there are in all lists together; the loops over several lists end because this
number decreases (auxiliary to library/srfi-1.ss L101-L902). -/
def total : List (List V) → Nat
  | [] => 0
  | xs :: xss => xs.length + total xss

theorem carsCdrsLoop_total : ∀ {xss : List (List V)} {p}, carsCdrsLoop xss = some p →
    total p.2 + xss.length = total xss ∧ p.1.length = xss.length ∧ p.2.length = xss.length := by
  intro xss
  induction xss with
  | nil => intro p h; simp only [carsCdrsLoop, Option.some.injEq] at h; subst h; simp [total]
  | cons xs xss ih =>
    intro p h
    cases xs with
    | nil => simp [carsCdrsLoop] at h
    | cons a d =>
      simp only [carsCdrsLoop] at h
      cases hq : carsCdrsLoop xss with
      | none => simp [hq] at h
      | some q =>
        simp only [hq, Option.some.injEq] at h
        subst h
        obtain ⟨h1, h2, h3⟩ := ih hq
        refine ⟨?_, ?_, ?_⟩ <;> simp only [total, List.length_cons] <;> omega

theorem carsCdrs_total {xss : List (List V)} (h : (carsCdrs xss).1 ≠ []) :
    total (carsCdrs xss).2 < total xss := by
  unfold carsCdrs at h ⊢
  cases hq : carsCdrsLoop xss with
  | none => simp [hq] at h
  | some q =>
    simp only [hq] at h ⊢
    obtain ⟨h1, h2, _⟩ := carsCdrsLoop_total hq
    have : 0 < q.1.length := List.length_pos_iff.mpr h
    omega

theorem carsCdrsPlus_total {xss : List (List V)} {z : V} (hne : xss ≠ [])
    (h : (carsCdrsPlus xss z).1 ≠ []) : total (carsCdrsPlus xss z).2 < total xss := by
  unfold carsCdrsPlus at h ⊢
  cases hq : carsCdrsLoop xss with
  | none => simp [hq] at h
  | some q =>
    simp only [hq] at h ⊢
    obtain ⟨h1, h2, _⟩ := carsCdrsLoop_total hq
    have : 0 < xss.length := List.length_pos_iff.mpr hne
    omega

theorem cdrsLoop_total : ∀ {xss : List (List V)} {p}, cdrsLoop xss = some p →
    total p + xss.length = total xss ∧ p.length = xss.length := by
  intro xss
  induction xss with
  | nil => intro p h; simp only [cdrsLoop, Option.some.injEq] at h; subst h; simp [total]
  | cons xs xss ih =>
    intro p h
    cases xs with
    | nil => simp [cdrsLoop] at h
    | cons a d =>
      simp only [cdrsLoop] at h
      cases hq : cdrsLoop xss with
      | none => simp [hq] at h
      | some q =>
        simp only [hq, Option.some.injEq] at h
        subst h
        obtain ⟨h1, h2⟩ := ih hq
        refine ⟨?_, ?_⟩ <;> simp only [total, List.length_cons] <;> omega

theorem cdrs_total {xss : List (List V)} (h : cdrs xss ≠ []) : total (cdrs xss) < total xss := by
  unfold cdrs at h ⊢
  cases hq : cdrsLoop xss with
  | none => simp [hq] at h
  | some q =>
    simp only [hq] at h ⊢
    obtain ⟨h1, h2⟩ := cdrsLoop_total hq
    have : 0 < q.length := List.length_pos_iff.mpr h
    omega

/-! ## Folds -/

/-- `fold` on one list, /repo/library/srfi-1.ss L230-L235. -/
def fold1 (f : α → β → m β) : List α → β → m β
  | [], ans => pure ans
  | x :: xs, ans => do
    let ans ← f x ans
    fold1 f xs ans

/-- `fold` on several lists, /repo/library/srfi-1.ss L224-L229.  The loop is started with at least two
lists. -/
def foldN (f : List V → m V) (xss : List (List V)) (ans : V) : m V :=
  if hne : xss = [] then pure ans
  else if h : (carsCdrsPlus xss ans).1 = [] then pure ans
  else do
    let next ← f (carsCdrsPlus xss ans).1
    foldN f (carsCdrsPlus xss ans).2 next
termination_by total xss
decreasing_by exact carsCdrsPlus_total hne h

/-- `fold`, /repo/library/srfi-1.ss L222-L235. -/
def fold (f : List V → m V) (z : V) (x : List V) (xs : List (List V)) : m V :=
  if xs ≠ [] then foldN f (x :: xs) z else fold1 (fun x ans => f [x, ans]) x z

/-- `fold-right` on one list, /repo/library/srfi-1.ss L278-L282. -/
def foldRight1 (f : α → β → m β) (z : β) : List α → m β
  | [] => pure z
  | x :: xs => do
    let rest ← foldRight1 f z xs
    f x rest

/-- `fold-right` on several lists, /repo/library/srfi-1.ss L273-L277. -/
def foldRightN (f : List V → m V) (z : V) (xss : List (List V)) : m V :=
  if h : cdrs xss = [] then pure z
  else do
    let rest ← foldRightN f z (cdrs xss)
    f (carsPlus xss rest)
termination_by total xss
decreasing_by exact cdrs_total h

/-- `fold-right`, /repo/library/srfi-1.ss L271-L282. -/
def foldRight (f : List V → m V) (z : V) (x : List V) (xs : List (List V)) : m V :=
  if xs ≠ [] then foldRightN f z (x :: xs) else foldRight1 (fun x ans => f [x, ans]) z x

/-- `pair-fold` on one list, /repo/library/srfi-1.ss L259-L264. -/
def pairFold1 (f : List α → β → m β) : List α → β → m β
  | [], ans => pure ans
  | x :: xs, ans => do
    let ans ← f (x :: xs) ans
    pairFold1 f xs ans

/-- `pair-fold` on several lists, /repo/library/srfi-1.ss L253-L258. -/
def pairFoldN (f : List (List V) → β → m β) (xss : List (List V)) (ans : β) : m β :=
  if h : cdrs xss = [] then pure ans
  else do
    let next ← f xss ans
    pairFoldN f (cdrs xss) next
termination_by total xss
decreasing_by exact cdrs_total h

/-- `pair-fold`, /repo/library/srfi-1.ss L251-L264. -/
def pairFold (f : List (List V) → β → m β) (z : β) (x : List V) (xs : List (List V)) : m β :=
  if xs ≠ [] then pairFoldN f (x :: xs) z else pairFold1 (fun x ans => f [x] ans) x z

/-- `pair-fold-right` on one list, /repo/library/srfi-1.ss L301-L304. -/
def pairFoldRight1 (f : List α → β → m β) (z : β) : List α → m β
  | [] => pure z
  | x :: xs => do
    let rest ← pairFoldRight1 f z xs
    f (x :: xs) rest

/-- `pair-fold-right` on several lists, /repo/library/srfi-1.ss L296-L300. -/
def pairFoldRightN (f : List (List V) → β → m β) (z : β) (xss : List (List V)) : m β :=
  if h : cdrs xss = [] then pure z
  else do
    let rest ← pairFoldRightN f z (cdrs xss)
    f xss rest
termination_by total xss
decreasing_by exact cdrs_total h

/-- `pair-fold-right`, /repo/library/srfi-1.ss L294-L304. -/
def pairFoldRight (f : List (List V) → β → m β) (z : β) (x : List V) (xs : List (List V)) : m β :=
  if xs ≠ [] then pairFoldRightN f z (x :: xs) else pairFoldRight1 (fun x ans => f [x] ans) z x

/-- `reduce`, /repo/library/srfi-1.ss L266-L269. -/
def reduce (f : α → α → m α) (ridentity : α) : List α → m α
  | [] => pure ridentity
  | x :: xs => fold1 f xs x

/-- The loop of `reduce-right`, /repo/library/srfi-1.ss L309-L314. -/
def reduceRightLoop (f : α → α → m α) (x : α) : List α → m α
  | [] => pure x
  | y :: ys => do
    let rest ← reduceRightLoop f y ys
    f x rest

/-- `reduce-right`, /repo/library/srfi-1.ss L306-L314. -/
def reduceRight (f : α → α → m α) (ridentity : α) : List α → m α
  | [] => pure ridentity
  | x :: xs => reduceRightLoop f x xs

/-- `unfold`, /repo/library/srfi-1.ss L237-L249, followed for at most `fuel` seeds (`none` beyond that);
`generate` is the optional last argument, and without it the list ends in `'()`. -/
def unfold (p : α → m B) (f : α → m β) (g : α → m α) (generate : α → m (List β)) :
    Nat → α → m (Option (List β))
  | 0, _ => pure none
  | fuel + 1, seed => do
    let stop ← p seed
    if isFalse stop then
      let next ← g seed
      let rest ← unfold p f g generate fuel next
      match rest with
      | none => pure none
      | some rest =>
        let x ← f seed
        pure (some (x :: rest))
    else
      let rest ← generate seed
      pure (some rest)

/-- `unfold-right`, /repo/library/srfi-1.ss L284-L292, followed for at most `fuel` seeds. -/
def unfoldRight (p : α → m B) (f : α → m β) (g : α → m α) : Nat → α → List β → m (Option (List β))
  | 0, _, _ => pure none
  | fuel + 1, seed, ans => do
    let stop ← p seed
    if isFalse stop then
      let x ← f seed
      let next ← g seed
      unfoldRight p f g fuel next (x :: ans)
    else
      pure (some ans)

/-- `count` on one list, /repo/library/srfi-1.ss L213-L220. -/
def count1 (satisfy : α → m B) : List α → Nat → m Nat
  | [], i => pure i
  | x :: xs, i => do
    let b ← satisfy x
    count1 satisfy xs (if isFalse b then i else i + 1)

/-- `count` on several lists, /repo/library/srfi-1.ss L201-L212. -/
def countN (satisfy : List V → m B) : List V → List (List V) → Nat → m Nat
  | [], _, i => pure i
  | x :: xs, xss, i =>
    if (carsCdrs xss).1 = [] then pure i
    else do
      let b ← satisfy (x :: (carsCdrs xss).1)
      countN satisfy xs (carsCdrs xss).2 (if isFalse b then i else i + 1)

/-- `count`, /repo/library/srfi-1.ss L199-L220. -/
def count (satisfy : List V → m B) (x : List V) (xs : List (List V)) : m Nat :=
  if xs ≠ [] then countN satisfy x xs 0 else count1 (fun x => satisfy [x]) x 0

/-! ## Maps -/

/-- `list-tabulate`, /repo/library/srfi-1.ss L101-L106: the call for `i` comes after the calls for the
greater indices.  `left` is `k - i`. -/
def listTabulate (f : Nat → m β) : (left i : Nat) → m (List β)
  | 0, _ => pure []
  | left + 1, i => do
    let rest ← listTabulate f left (i + 1)
    let x ← f i
    pure (x :: rest)

/-- The internal `map` for one list, /repo/library/meevax.ss L128-L133. -/
def mapLoop (f : α → m β) : List α → List β → m (List β)
  | [], a => pure a.reverse
  | x :: xs, a => do
    let y ← f x
    mapLoop f xs (y :: a)

/-- `(map car xs '())`, /repo/library/meevax.ss L139, when no list is empty. -/
def cars (xss : List (List V)) : List V := xss.filterMap List.head?

/-- `(map cdr xs '())`, /repo/library/meevax.ss L138. -/
def tails (xss : List (List V)) : List (List V) := xss.map List.tail

theorem tails_total : ∀ (xss : List (List V)), xss ≠ [] → ¬ [] ∈ xss → total (tails xss) < total xss := by
  intro xss
  induction xss with
  | nil => intro h; exact absurd rfl h
  | cons xs xss ih =>
    intro _ h
    have h1 : xs ≠ [] := fun e => h (by simp [e])
    have h2 : ¬ [] ∈ xss := fun e => h (by simp [e])
    have h3 : 0 < xs.length := List.length_pos_iff.mpr h1
    have h4 : total (tails xss) ≤ total xss := by
      by_cases he : xss = []
      · subst he; simp [tails]
      · exact Nat.le_of_lt (ih he h2)
    simp only [tails, List.map_cons, total, List.length_tail] at h4 ⊢
    omega

/-- `(memq '() xs)`, /repo/library/meevax.ss L135: is one of the lists empty? -/
def someEmpty (xss : List (List V)) : Bool := xss.any List.isEmpty

theorem someEmpty_false {xss : List (List V)} (h : someEmpty xss = false) : ¬ [] ∈ xss := by
  intro hm
  have : someEmpty xss = true := List.any_eq_true.mpr ⟨[], hm, rfl⟩
  simp [h] at this

/-- `map*`, /repo/library/meevax.ss L134-L139: several lists (at least two). -/
def mapN (f : List V → m β) (xss : List (List V)) (a : List β) : m (List β) :=
  if hne : xss = [] then pure a.reverse
  else if h : someEmpty xss then pure a.reverse
  else do
    let y ← f (cars xss)
    mapN f (tails xss) (y :: a)
termination_by total xss
decreasing_by exact tails_total xss hne (someEmpty_false (by simpa using h))

/-- `map`, /repo/library/meevax.ss L127-L142. -/
def map (f : List V → m β) (x : List V) (xs : List (List V)) : m (List β) :=
  if xs = [] then mapLoop (fun x => f [x]) x [] else mapN f (x :: xs) []

/-- The internal `for-each` for one list, /repo/library/r4rs.ss L296-L300. -/
def forEachLoop (f : α → m β) : List α → m Unit
  | [] => pure ()
  | x :: xs => do
    let _ ← f x
    forEachLoop f xs

/-- `for-each`, /repo/library/r4rs.ss L294-L302; the result is unspecified. -/
def forEach (f : List V → m β) (x : List V) (xs : List (List V)) : m Unit :=
  if xs = [] then forEachLoop (fun x => f [x]) x
  else do
    let _ ← map f x xs
    pure ()

/-- `map-in-order` on one list, /repo/library/srfi-1.ss L394-L398. -/
def mapInOrder1 (f : α → m β) : List α → m (List β)
  | [] => pure []
  | x :: xs => do
    let y ← f x
    let rest ← mapInOrder1 f xs
    pure (y :: rest)

/-- `map-in-order` on several lists, /repo/library/srfi-1.ss L388-L393. -/
def mapInOrderN (f : List V → m β) (xss : List (List V)) : m (List β) :=
  if h : (carsCdrs xss).1 = [] then pure []
  else do
    let y ← f (carsCdrs xss).1
    let rest ← mapInOrderN f (carsCdrs xss).2
    pure (y :: rest)
termination_by total xss
decreasing_by exact carsCdrs_total h

/-- `map-in-order`, /repo/library/srfi-1.ss L386-L398. -/
def mapInOrder (f : List V → m β) (x : List V) (xs : List (List V)) : m (List β) :=
  if xs ≠ [] then mapInOrderN f (x :: xs) else mapInOrder1 (fun x => f [x]) x

/-- The loop of `append-map` on one list, /repo/library/srfi-1.ss L336-L343. -/
def appendMapLoop (f : α → m (List β)) (x : α) : List α → m (List β)
  | [] => f x
  | y :: ys => do
    let vals ← f x
    let rest ← appendMapLoop f y ys
    pure (vals ++ rest)

/-- The loop of `append-map` on several lists, /repo/library/srfi-1.ss L327-L333. -/
def appendMapLoopN (f : List V → m (List β)) (heads : List V) (rest : List (List V)) : m (List β) := do
  let vals ← f heads
  if h : (carsCdrs rest).1 = [] then pure vals
  else
    let more ← appendMapLoopN f (carsCdrs rest).1 (carsCdrs rest).2
    pure (vals ++ more)
termination_by total rest
decreasing_by exact carsCdrs_total h

/-- `append-map`, /repo/library/srfi-1.ss L316-L343. -/
def appendMap (f : List V → m (List β)) (x : List V) (xs : List (List V)) : m (List β) :=
  if xs ≠ [] then
    if (carsCdrs (x :: xs)).1 = [] then pure []
    else appendMapLoopN f (carsCdrs (x :: xs)).1 (carsCdrs (x :: xs)).2
  else
    match x with
    | [] => pure []
    | a :: d => appendMapLoop (fun x => f [x]) a d

/-- `pair-for-each` on one list, /repo/library/srfi-1.ss L366-L370. -/
def pairForEach1 (f : List α → m β) : List α → m Unit
  | [] => pure ()
  | x :: xs => do
    let _ ← f (x :: xs)
    pairForEach1 f xs

/-- `pair-for-each` on several lists, /repo/library/srfi-1.ss L361-L365. -/
def pairForEachN (f : List (List V) → m β) (xss : List (List V)) : m Unit :=
  if h : cdrs xss = [] then pure ()
  else do
    let _ ← f xss
    pairForEachN f (cdrs xss)
termination_by total xss
decreasing_by exact cdrs_total h

/-- `pair-for-each`, /repo/library/srfi-1.ss L359-L370. -/
def pairForEach (f : List (List V) → m β) (x : List V) (xs : List (List V)) : m Unit :=
  if xs ≠ [] then pairForEachN f (x :: xs) else pairForEach1 (fun x => f [x]) x

/-- `filter-map` on one list, /repo/library/srfi-1.ss L380-L384: from right to left. -/
def filterMap1 (f : α → m B) : List α → m (List B)
  | [] => pure []
  | x :: xs => do
    let tail ← filterMap1 f xs
    let y ← f x
    pure (if isFalse y then tail else y :: tail)

/-- `filter-map` on several lists, /repo/library/srfi-1.ss L374-L379: from left to right. -/
def filterMapN (f : List V → m B) (xss : List (List V)) : m (List B) :=
  if h : (carsCdrs xss).1 = [] then pure []
  else do
    let y ← f (carsCdrs xss).1
    if isFalse y then filterMapN f (carsCdrs xss).2
    else
      let rest ← filterMapN f (carsCdrs xss).2
      pure (y :: rest)
termination_by total xss
decreasing_by all_goals exact carsCdrs_total h

/-- `filter-map`, /repo/library/srfi-1.ss L372-L384. -/
def filterMap (f : List V → m B) (x : List V) (xs : List (List V)) : m (List B) :=
  if xs ≠ [] then filterMapN f (x :: xs) else filterMap1 (fun x => f [x]) x

/-! ## Filtering and searching -/

/-- `filter`, /repo/library/srfi-1.ss L400-L411. -/
def filter (same : List α → List α → Bool) (satisfy : α → m B) : List α → m (List α)
  | [] => pure []
  | x :: xs => do
    let b ← satisfy x
    if isFalse b then filter same satisfy xs
    else
      let rest ← filter same satisfy xs
      pure (if same xs rest then x :: xs else x :: rest)

/-- `partition`, /repo/library/srfi-1.ss L422-L436: the predicate is applied from right to left. -/
def partition (satisfy : α → m B) : List α → m (List α × List α)
  | [] => pure ([], [])
  | x :: xs => do
    let (a, b) ← partition satisfy xs
    let r ← satisfy x
    if isFalse r then
      pure (a, if a ≠ [] then x :: b else x :: xs)
    else
      pure (if b ≠ [] then x :: a else x :: xs, b)

/-- `remove`, /repo/library/srfi-1.ss L477-L480. -/
def remove (same : List α → List α → Bool) (satisfy : α → m B) (xs : List α) : m (List α) :=
  filter same (fun x => do let b ← satisfy x; pure (negate b)) xs

/-- `find-tail`, /repo/library/srfi-1.ss L491-L496; `none` is `#f`. -/
def findTail (satisfy : α → m B) : List α → m (Option (List α))
  | [] => pure none
  | x :: xs => do
    let b ← satisfy x
    if isFalse b then findTail satisfy xs else pure (some (x :: xs))

/-- `find`, /repo/library/srfi-1.ss L487-L489; `none` is `#f`. -/
def find (satisfy : α → m B) (xs : List α) : m (Option α) := do
  let tail ← findTail satisfy xs
  match tail with
  | some (x :: _) => pure (some x)
  | _ => pure none

/-- The loop of `any` on one list, /repo/library/srfi-1.ss L511-L517. -/
def anyLoop (satisfy : α → m B) (head : α) : List α → m B
  | [] => satisfy head
  | x :: xs => do
    let b ← satisfy head
    if isFalse b then anyLoop satisfy x xs else pure b

/-- `any` on one list, /repo/library/srfi-1.ss L510-L517. -/
def any1 (satisfy : α → m B) : List α → m B
  | [] => pure no
  | x :: xs => anyLoop satisfy x xs

/-- The loop of `any` on several lists, /repo/library/srfi-1.ss L502-L509. -/
def anyLoopN (satisfy : List V → m B) (heads : List V) (rest : List (List V)) : m B :=
  if h : (carsCdrs rest).1 = [] then satisfy heads
  else do
    let b ← satisfy heads
    if isFalse b then anyLoopN satisfy (carsCdrs rest).1 (carsCdrs rest).2 else pure b
termination_by total rest
decreasing_by exact carsCdrs_total h

/-- `any`, /repo/library/srfi-1.ss L498-L517. -/
def any (satisfy : List V → m B) (x : List V) (xs : List (List V)) : m B :=
  if xs ≠ [] then
    if (carsCdrs (x :: xs)).1 = [] then pure no
    else anyLoopN satisfy (carsCdrs (x :: xs)).1 (carsCdrs (x :: xs)).2
  else any1 (fun x => satisfy [x]) x

/-- The loop of `every` on one list, /repo/library/srfi-1.ss L531-L537. -/
def everyLoop (satisfy : α → m B) (head : α) : List α → m B
  | [] => satisfy head
  | x :: xs => do
    let b ← satisfy head
    if isFalse b then pure no else everyLoop satisfy x xs

/-- `every` on one list, /repo/library/srfi-1.ss L530-L537. -/
def every1 (satisfy : α → m B) : List α → m B
  | [] => pure yes
  | x :: xs => everyLoop satisfy x xs

/-- The loop of `every` on several lists, /repo/library/srfi-1.ss L523-L529. -/
def everyLoopN (satisfy : List V → m B) (heads : List V) (rest : List (List V)) : m B :=
  if h : (carsCdrs rest).1 = [] then satisfy heads
  else do
    let b ← satisfy heads
    if isFalse b then pure no else everyLoopN satisfy (carsCdrs rest).1 (carsCdrs rest).2
termination_by total rest
decreasing_by exact carsCdrs_total h

/-- `every`, /repo/library/srfi-1.ss L519-L537. -/
def every (satisfy : List V → m B) (x : List V) (xs : List (List V)) : m B :=
  if xs ≠ [] then
    if (carsCdrs (x :: xs)).1 = [] then pure yes
    else everyLoopN satisfy (carsCdrs (x :: xs)).1 (carsCdrs (x :: xs)).2
  else every1 (fun x => satisfy [x]) x

/-- `list-index` on one list, /repo/library/srfi-1.ss L548-L554; `none` is `#f`. -/
def listIndex1 (satisfy : α → m B) : List α → Nat → m (Option Nat)
  | [], _ => pure none
  | x :: xs, n => do
    let b ← satisfy x
    if isFalse b then listIndex1 satisfy xs (n + 1) else pure (some n)

/-- `list-index` on several lists, /repo/library/srfi-1.ss L541-L547. -/
def listIndexN (satisfy : List V → m B) (xss : List (List V)) (n : Nat) : m (Option Nat) :=
  if h : (carsCdrs xss).1 = [] then pure none
  else do
    let b ← satisfy (carsCdrs xss).1
    if isFalse b then listIndexN satisfy (carsCdrs xss).2 (n + 1) else pure (some n)
termination_by total xss
decreasing_by exact carsCdrs_total h

/-- `list-index`, /repo/library/srfi-1.ss L539-L554. -/
def listIndex (satisfy : List V → m B) (x : List V) (xs : List (List V)) : m (Option Nat) :=
  if xs ≠ [] then listIndexN satisfy (x :: xs) 0 else listIndex1 (fun x => satisfy [x]) x 0

/-- `take-while`, /repo/library/srfi-1.ss L556-L563. -/
def takeWhile (satisfy : α → m B) : List α → m (List α)
  | [] => pure []
  | x :: xs => do
    let b ← satisfy x
    if isFalse b then pure []
    else
      let rest ← takeWhile satisfy xs
      pure (x :: rest)

/-- `drop-while`, /repo/library/srfi-1.ss L578-L584. -/
def dropWhile (satisfy : α → m B) : List α → m (List α)
  | [] => pure []
  | x :: xs => do
    let b ← satisfy x
    if isFalse b then pure (x :: xs) else dropWhile satisfy xs

/-- `span`, /repo/library/srfi-1.ss L586-L594. -/
def span (satisfy : α → m B) : List α → m (List α × List α)
  | [] => pure ([], [])
  | x :: xs => do
    let b ← satisfy x
    if isFalse b then pure ([], x :: xs)
    else
      let (a, rest) ← span satisfy xs
      pure (x :: a, rest)

/-- `break`, /repo/library/srfi-1.ss L611-L614. -/
def «break» (satisfy : α → m B) (xs : List α) : m (List α × List α) :=
  span (fun x => do let b ← satisfy x; pure (negate b)) xs

/-- `member` with an explicit comparison, /repo/library/r4rs.ss L253-L258; `none` is `#f`. -/
def member (compare : α → α → m B) (x : α) : List α → m (Option (List α))
  | [] => pure none
  | y :: ys => do
    let b ← compare x y
    if isFalse b then member compare x ys else pure (some (y :: ys))

/-- `assoc` with an explicit comparison, /repo/library/r4rs.ss L260-L266; `none` is `#f`. -/
def assoc (compare : α → α → m B) (key : α) : List (α × β) → m (Option (α × β))
  | [] => pure none
  | (k, v) :: rest => do
    let b ← compare key k
    if isFalse b then assoc compare key rest else pure (some (k, v))

/-- `delete`, /repo/library/srfi-1.ss L621-L627. -/
def delete (same : List α → List α → Bool) (compare : α → α → m B) (x : α) (xs : List α) : m (List α) :=
  filter same (fun y => do let b ← compare x y; pure (negate b)) xs

/-- `alist-delete`, /repo/library/srfi-1.ss L665-L671. -/
def alistDelete (same : List (α × β) → List (α × β) → Bool) (compare : α → α → m B) (key : α)
    (alist : List (α × β)) : m (List (α × β)) :=
  filter same (fun x => do let b ← compare key x.1; pure (negate b)) alist

end

/-! ## Sets as lists

From here on the comparison `x=?` is a total predicate without effects, `V → V → Bool`. -/

/-- Booleans as objects (auxiliary to library/srfi-1.ss L637-L902). -/
instance : Objects Bool where
  no := false
  yes := true
  isFalse b := !b
  isFalse_iff x := by cases x <;> decide
  yes_ne_no := by decide

section
variable {V : Type} (same : List V → List V → Bool) (eqv : V → V → Bool)

/-- A predicate without effects (auxiliary to library/srfi-1.ss L637-L902). -/
def total1 {α : Type} (p : α → Bool) : α → Id Bool := fun x => pure (p x)

/-- `(member x xs x=?)` as a condition (library/srfi-1.ss L637-L649; library/r4rs.ss L253-L258). -/
def memberB (x : V) (xs : List V) : Bool := ((member (m := Id) (fun a b => pure (eqv a b)) x xs).run).isSome

/-- `delete-duplicates`, /repo/library/srfi-1.ss L637-L649.  `fuel` bounds the number of calls of the
loop; the list gets shorter each time, so the length of the list is enough. -/
def deleteDuplicatesLoop : Nat → List V → List V
  | 0, _ => []
  | _, [] => []
  | fuel + 1, x :: xs =>
    let ys := deleteDuplicatesLoop fuel ((delete (m := Id) same (fun a b => pure (eqv a b)) x xs).run)
    if same xs ys then x :: xs else x :: ys

/-- `delete-duplicates`, /repo/library/srfi-1.ss L637-L649. -/
def deleteDuplicates (xs : List V) : List V := deleteDuplicatesLoop same eqv xs.length xs

/-- The inner loop of `list=`, /repo/library/srfi-1.ss L120-L128, up to the call of the outer loop. -/
def listEqInner : List V → List V → Bool
  | [], [] => true
  | [], _ :: _ => false
  | _ :: _, [] => false
  | a :: as, b :: bs => eqv a b && listEqInner as bs

/-- The outer loop of `list=`, /repo/library/srfi-1.ss L112-L128. -/
def listEqLoop (xs : List V) : List (List V) → Bool
  | [] => true
  | ys :: xss => if same xs ys then listEqLoop ys xss else listEqInner eqv xs ys && listEqLoop ys xss

/-- `list=`, /repo/library/srfi-1.ss L110-L128. -/
def listEq : List (List V) → Bool
  | [] => true
  | xs :: xss => listEqLoop same eqv xs xss

/-- `%lset2<=`, /repo/library/srfi-1.ss L899-L902. -/
def lset2Le (xs ys : List V) : Bool :=
  (every1 (m := Id) (total1 fun x => memberB eqv x ys) xs).run

/-- The loop of `lset<=`, /repo/library/srfi-1.ss L683-L690. -/
def lsetLeLoop (xs : List V) : List (List V) → Bool
  | [] => true
  | ys :: xss => (same xs ys || lset2Le eqv xs ys) && lsetLeLoop ys xss

/-- `lset<=`, /repo/library/srfi-1.ss L681-L690. -/
def lsetLe : List (List V) → Bool
  | [] => true
  | xs :: xss => lsetLeLoop same eqv xs xss

/-- The loop of `lset=`, /repo/library/srfi-1.ss L694-L702. -/
def lsetEqLoop (xs : List V) : List (List V) → Bool
  | [] => true
  | ys :: xss => (same xs ys || (lset2Le eqv xs ys && lset2Le eqv ys xs)) && lsetEqLoop ys xss

/-- `lset=`, /repo/library/srfi-1.ss L692-L702. -/
def lsetEq : List (List V) → Bool
  | [] => true
  | xs :: xss => lsetEqLoop same eqv xs xss

/-- `lset-adjoin`, /repo/library/srfi-1.ss L704-L710. -/
def lsetAdjoin (xs ys : List V) : List V :=
  (fold1 (m := Id) (fun y xs => pure (if memberB eqv y xs then xs else y :: xs)) ys xs).run

/-- The procedure that `lset-union` reduces with, /repo/library/srfi-1.ss L713-L724. -/
def union2 (xs ys : List V) : List V :=
  if xs = [] then ys
  else if ys = [] then xs
  else if same xs ys then ys
  else (fold1 (m := Id) (fun x ys => pure (if (any1 (m := Id) (total1 fun y => eqv x y) ys).run then ys
    else x :: ys)) xs ys).run

/-- `lset-union`, /repo/library/srfi-1.ss L712-L726. -/
def lsetUnion (xss : List (List V)) : List V :=
  (reduce (m := Id) (fun xs ys => pure (union2 same eqv xs ys)) [] xss).run

/-- `lset-intersection`, /repo/library/srfi-1.ss L746-L754.  `sames` is `eq?` on lists of lists. -/
def lsetIntersection (sames : List (List V) → List (List V) → Bool) (xs : List V) (xss : List (List V)) :
    List V :=
  let rest := (delete (m := Id) sames (fun a b => pure (same a b)) xs xss).run
  if (any1 (m := Id) (total1 List.isEmpty) rest).run then []
  else if rest = [] then xs
  else (filter (m := Id) same
    (total1 fun x => (every1 (m := Id) (total1 fun ys => memberB eqv x ys) rest).run) xs).run

/-- `(memq xs xss)`, as a condition (library/srfi-1.ss L769, L779, L818, L829). -/
def memq (xs : List V) : List (List V) → Bool
  | [] => false
  | ys :: xss => same xs ys || memq xs xss

/-- `lset-difference`, /repo/library/srfi-1.ss L766-L774. -/
def lsetDifference (sames : List (List V) → List (List V) → Bool) (xs : List V) (xss : List (List V)) :
    List V :=
  let rest := (filter (m := Id) sames (total1 fun ys => !ys.isEmpty) xss).run
  if rest = [] then xs
  else if memq same xs rest then []
  else (filter (m := Id) same
    (total1 fun x => (every1 (m := Id) (total1 fun ys => !memberB eqv x ys) rest).run) xs).run

/-- `lset-diff+intersection`, /repo/library/srfi-1.ss L815-L824. -/
def lsetDiffIntersection (xs : List V) (xss : List (List V)) : List V × List V :=
  if (every1 (m := Id) (total1 List.isEmpty) xss).run then (xs, [])
  else if memq same xs xss then ([], xs)
  else (partition (m := Id)
    (total1 fun x => !(any1 (m := Id) (total1 fun ys => memberB eqv x ys) xss).run) xs).run

/-- The procedure that `lset-xor` reduces with, /repo/library/srfi-1.ss L787-L796. -/
def xor2 (sames : List (List V) → List (List V) → Bool) (b a : List V) : List V :=
  let p := lsetDiffIntersection same eqv a [b]
  if p.1 = [] then lsetDifference same eqv sames b [a]
  else if p.2 = [] then b ++ a
  else (fold1 (m := Id) (fun x xs => pure (if memberB eqv x p.2 then xs else x :: xs)) b p.1).run

/-- `lset-xor`, /repo/library/srfi-1.ss L786-L798. -/
def lsetXor (sames : List (List V) → List (List V) → Bool) (xss : List (List V)) : List V :=
  (reduce (m := Id) (fun b a => pure (xor2 same eqv sames b a)) [] xss).run

end

end Meevax.Srfi1
