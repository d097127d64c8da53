import Verif.Model.LinearUpdate
import Verif.Spec.Lists

/-!
What the linear update procedures of SRFI 1 are to do: call the predicate on the elements, in order, and return the
list of the elements it picks, made of the pairs of the argument; no other pair changes.
-/

namespace Meevax.Linear.Spec

open Meevax.Lists Meevax.Linear

variable {S : Type}

/-- What a predicate does with an element. -/
abbrev Test (S : Type) := Obj → S → Option (Bool × S)

/-- The predicate is called on each of the elements, in order. -/
def answers (q : Test S) : List Obj → S → Option (List Bool × S)
  | [], s => some ([], s)
  | v :: vs, s => do
    let (b, s) ← q v s
    let (bs, s) ← answers q vs s
    some (b :: bs, s)

/-- The predicate is called on the elements up to the first that it rejects; how many it accepts. -/
def leading (q : Test S) : List Obj → S → Option (Nat × S)
  | [], s => some (0, s)
  | v :: vs, s => do
    let (b, s) ← q v s
    if b then do
      let (n, s) ← leading q vs s
      some (n + 1, s)
    else some (0, s)

/-- Those that have the answer `b`. -/
def pick {α : Type} (b : Bool) : List α → List Bool → List α
  | x :: xs, c :: cs => if c = b then x :: pick b xs cs else pick b xs cs
  | _, _ => []

/-- The procedure has a result if the calls have, the calls are all that it does to the state, and the result and the
heap are as they should be. -/
def After {α ρ : Type} (calls : Option (α × S)) (r : Option (ρ × Heap × S)) (post : α → ρ → Heap → Prop) : Prop :=
  match calls with
  | none => r = none
  | some (a, s) => ∃ x h, r = some (x, h, s) ∧ post a x h

/-- No pair was made, and at most the cdrs of the pairs `as` have changed. -/
structure Relinked (h h' : Heap) (as : List Nat) : Prop where
  next : h'.next = h.next
  car : ∀ a, h'.car a = h.car a
  cdr : ∀ a, a ∉ as → h'.cdr a = h.cdr a

/-- What a predicate does with the elements does not depend on the cdrs of the pairs `as`, or on pairs that are made
later. -/
def Steady (h : Heap) (as : List Nat) (vs : List Obj) (P : Pred S) : Prop :=
  ∀ v ∈ vs, ∀ h' s, OnlyCdrs h h' as → P v h' s = P v h s

/-- The procedure is called with each of the lists of arguments, in order. -/
def results (f : List Obj → S → Option (Obj × S)) : List (List Obj) → S → Option (List Obj × S)
  | [], s => some ([], s)
  | vs :: vss, s => do
    let (v, s) ← f vs s
    let (rs, s) ← results f vss s
    some (v :: rs, s)

/-- No pair was made, and at most the cars of the pairs `as` have changed. -/
structure OnlyCars (h h' : Heap) (as : List Nat) : Prop where
  next : h'.next = h.next
  car : ∀ a, a ∉ as → h'.car a = h.car a
  cdr : ∀ a, h'.cdr a = h.cdr a

/-- What a procedure does with these arguments does not depend on the cars of the pairs `as`. -/
def SteadyCars (h : Heap) (as : List Nat) (vss : List (List Obj)) (f : Proc S) : Prop :=
  ∀ vs ∈ vss, ∀ h' s, OnlyCars h h' as → f vs h' s = f vs h s

/-- The arguments of the calls of `map!`: the first elements of all of the lists, the second elements, ..., as many as
the first list has elements. -/
def rows : List Obj → List (List Obj) → List (List Obj)
  | [], _ => []
  | v :: vs, vss => (v :: vss.map fun ws => ws.headD .null) :: rows vs (vss.map List.tail)

/-- Is one of the elements equal to `x`? The comparison is called with `x` and the elements, up to the first that
is. -/
def among (e : Obj → Obj → S → Option (Bool × S)) (x : Obj) : List Obj → S → Option (Bool × S)
  | [], s => some (false, s)
  | y :: ys, s => do
    let (b, s) ← e x y s
    if b then some (true, s) else among e x ys s

/-- Is `x` in all of the lists? -/
def amongAll (e : Obj → Obj → S → Option (Bool × S)) (x : Obj) : List (List Obj) → S → Option (Bool × S)
  | [], s => some (true, s)
  | ys :: yss, s => do
    let (b, s) ← among e x ys s
    if b then amongAll e x yss s else some (false, s)

/-- Is `x` in one of the lists? -/
def amongAny (e : Obj → Obj → S → Option (Bool × S)) (x : Obj) : List (List Obj) → S → Option (Bool × S)
  | [], s => some (false, s)
  | ys :: yss, s => do
    let (b, s) ← among e x ys s
    if b then some (true, s) else amongAny e x yss s

theorem pick_length {α : Type} (b : Bool) (xs : List α) (bs : List Bool) : (pick b xs bs).length ≤ xs.length := by
  induction xs generalizing bs with
  | nil => simp [pick]
  | cons x xs ih =>
    cases bs with
    | nil => simp [pick]
    | cons c cs =>
      have := ih cs
      simp only [pick]
      split <;> simp <;> omega

/-- The elements without those that are equal to one before: the first stays, those of the others that are equal to it
go, and so on. -/
def unique (e : Obj → Obj → S → Option (Bool × S)) : List Obj → S → Option (List Obj × S)
  | [], s => some ([], s)
  | v :: vs, s => do
    let (bs, s) ← answers (e v) vs s
    let (rs, s) ← unique e (pick false vs bs) s
    some (v :: rs, s)
termination_by vs => vs.length
decreasing_by
  have := pick_length false vs bs
  simp
  omega

/-- The elements of the first list are put, one after the other, in front of the second unless they are there. -/
def adjoin (e : Obj → Obj → S → Option (Bool × S)) : List Obj → List Obj → S → Option (List Obj × S)
  | [], ws, s => some (ws, s)
  | v :: vs, ws, s => do
    let (b, s) ← among e v ws s
    adjoin e vs (if b then ws else v :: ws) s

/-- The union of two lists, of which the second is the one that is extended. -/
def union (e : Obj → Obj → S → Option (Bool × S)) (vs ws : List Obj) (s : S) : Option (List Obj × S) :=
  if ws.isEmpty then some (vs, s) else adjoin e vs ws s

/-- The elements of the first list that are not among the `cs` are put, one after the other, in front of the second. -/
def adjoinOthers (e : Obj → Obj → S → Option (Bool × S)) (cs : List Obj) :
    List Obj → List Obj → S → Option (List Obj × S)
  | [], ws, s => some (ws, s)
  | v :: vs, ws, s => do
    let (b, s) ← among e v cs s
    adjoinOthers e cs vs (if b then ws else v :: ws) s

/-- The elements that are in one of the two lists `vs` and `ws` only: first the elements of `ws` are looked up in
`vs`; then those of `vs` are looked up in the elements that were found. -/
def exclusive (e : Obj → Obj → S → Option (Bool × S)) (vs ws : List Obj) (s : S) : Option (List Obj × S) := do
  let (bs, s) ← answers (fun w => among e w vs) ws s
  let only := pick false ws bs
  let common := pick true ws bs
  if only.isEmpty then do
    let (cs, s) ← answers (fun v => among e v ws) vs s
    some (pick false vs cs, s)
  else if common.isEmpty then some (vs ++ ws, s)
  else adjoinOthers e common vs only s

/-- Lists are combined from the left. -/
def combine (g : List Obj → List Obj → S → Option (List Obj × S)) :
    List Obj → List (List Obj) → S → Option (List Obj × S)
  | acc, [], s => some (acc, s)
  | acc, vs :: vss, s => do
    let (acc, s) ← g vs acc s
    combine g acc vss s

/-- What a comparison does with the elements does not depend on the cdrs of the pairs `as`, or on pairs that are made
later. -/
def Steady2 (h : Heap) (as : List Nat) (vs : List Obj) (E : Pred2 S) : Prop :=
  ∀ v ∈ vs, ∀ w ∈ vs, ∀ h' s, OnlyCdrs h h' as → E v w h' s = E v w h s

end Meevax.Linear.Spec
