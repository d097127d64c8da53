import Verif.Model.Values

/-!
# C54: multiple values

Specification: `call-with-values` calls the consumer with the values that the producer delivered, as many
as there are and in their order, and `define-values` binds the variables to them.
-/

namespace Meevax.Values

theorem elements_list (xs : List Obj) : elements (list xs) = xs := by
  induction xs with
  | nil => rfl
  | cons x xs ih => simp only [list, elements, ih]

/-- The values that a continuation may be given: when there is just one, it is not the object that stands
for several values.  (A program gets hold of such an object only by delivering several values to a
continuation that takes one, which is an error.) -/
def Deliverable (xs : List Obj) : Prop := ∀ x, xs = [x] → isValues x = false

section
variable {m : Type → Type} [Monad m] [LawfulMonad m] {β : Type}

/-- C54, for producers that return: whatever number of values the producer delivers with `values` (none,
one or many), the consumer is called once, with exactly these values in their order; whatever else the
producer and the consumer do happens once, in this order.  Missing: values delivered by calling a
continuation, see `C54_continuation_fails`. -/
theorem C54_partial (produce : m {xs : List Obj // Deliverable xs}) (consume : List Obj → m β) :
    callWithValues (do let xs ← produce; pure (values xs.1)) consume =
      (do let xs ← produce; consume xs.1) := by
  simp only [callWithValues, bind_assoc, pure_bind]
  refine congrArg _ (funext fun xs => ?_)
  obtain ⟨xs, h⟩ := xs
  match xs, h with
  | [], _ => simp [values, isValues, cdr, list, elements]
  | [x], h => simp [values, h x rfl]
  | x :: y :: xs, _ => simp [values, isValues, cdr, elements_list]

/-- C54: an expression that returns an ordinary object delivers one value. -/
theorem C54_single (produce : m {x : Obj // isValues x = false}) (consume : List Obj → m β) :
    callWithValues (do let x ← produce; pure x.1) consume = (do let x ← produce; consume [x.1]) := by
  simp only [callWithValues, bind_assoc, pure_bind]
  refine congrArg _ (funext fun x => ?_)
  simp [x.2]

end

/-- C54: different lists of values are different objects, so nothing about the values is lost between the
producer and the consumer. -/
theorem C54_injective {xs ys : List Obj} (hx : Deliverable xs) (hy : Deliverable ys)
    (h : values xs = values ys) : xs = ys := by
  have key : ∀ zs, Deliverable zs →
      (if isValues (values zs) then elements (cdr (values zs)) else [values zs]) = zs := by
    intro zs hz
    match zs, hz with
    | [], _ => simp [values, isValues, cdr, list, elements]
    | [z], hz => simp [values, hz z rfl]
    | z :: w :: zs, _ => simp [values, isValues, cdr, elements_list]
  rw [← key xs hx, ← key ys hy, h]

/-- C54 fails for values delivered by calling a continuation: in
`(call-with-values (lambda () (call/cc (lambda (k) (k 1 2)))) list)` the consumer gets only the first
value, whatever it is, and whatever the rest of the program is. -/
theorem C54_continuation_fails {R : Type} (undefined : R) (consume : List Obj → Cont R Obj) :
    callWithValues (callCC undefined fun k => k [.other 1, .other 2]) consume = consume [.other 1] := rfl

/-- In the same situation, returning the values works. -/
example {R : Type} (consume : List Obj → Cont R Obj) :
    callWithValues (pure (values [.other 1, .other 2])) consume = consume [.other 1, .other 2] := rfl

theorem takeSeconds_spec : ∀ (n : Nat) (a : Obj) (bs rest : List Obj), bs.length = n →
    takeSeconds n (a :: bs ++ rest) = some (bs, a :: rest) := by
  intro n
  induction n with
  | zero =>
    intro a bs rest h
    have : bs = [] := List.length_eq_zero_iff.mp h
    subst this
    rfl
  | succ n ih =>
    intro a bs rest h
    cases bs with
    | nil => simp at h
    | cons b bs =>
      have := ih a bs rest (by simpa using h)
      simp only [List.cons_append] at this
      simp only [List.cons_append, takeSeconds, this]

/-- C54: `define-values` with as many variables as values binds each variable to the value at its
place. -/
theorem C54_define (n : Nat) (xs : List Obj) (h : xs.length = n + 2) : defineValues n xs = some xs := by
  cases xs with
  | nil => simp at h
  | cons a xs =>
    obtain ⟨bs, b, rfl⟩ : ∃ bs b, xs = bs ++ [b] :=
      ⟨xs.dropLast, xs.getLast (by rintro rfl; simp at h), (List.dropLast_concat_getLast _).symm⟩
    have hl : bs.length = n := by simpa using h
    have := takeSeconds_spec n a bs [b] hl
    simp only [List.cons_append] at this
    simp [defineValues, this]

/-- C54: `define-values` with a rest variable binds it to the list of the remaining values. -/
theorem C54_define_rest (n : Nat) (xs rest : List Obj) (h : xs.length = n + 1) :
    defineValuesRest n (xs ++ rest) = some (xs, rest) := by
  cases xs with
  | nil => simp at h
  | cons a xs =>
    have := takeSeconds_spec n a xs rest (by simpa using h)
    simp only [List.cons_append] at this
    simp [defineValuesRest, this]

/-- C54: `define-values` with more variables than values does not bind them. -/
theorem C54_define_few (n : Nat) (xs : List Obj) (h : xs.length < n + 2) : defineValues n xs = none := by
  have key : ∀ (n : Nat) (xs ys zs : List Obj), takeSeconds n xs = some (ys, zs) →
      xs.length = n + zs.length := by
    intro n
    induction n with
    | zero => intro xs ys zs h; simp only [takeSeconds, Option.some.injEq, Prod.mk.injEq] at h; simp [h.2]
    | succ n ih =>
      intro xs ys zs h
      match xs, h with
      | [], h => simp [takeSeconds] at h
      | [a], h => simp [takeSeconds] at h
      | a :: b :: l, h =>
        simp only [takeSeconds] at h
        cases ht : takeSeconds n (a :: l) with
        | none => simp [ht] at h
        | some p =>
          simp only [ht, Option.some.injEq, Prod.mk.injEq] at h
          have := ih (a :: l) p.1 p.2 ht
          simp only [List.length_cons] at this ⊢
          rw [← h.2]
          omega
  unfold defineValues
  cases ht : takeSeconds n xs with
  | none => rfl
  | some p =>
    have := key n xs p.1 p.2 ht
    obtain ⟨ys, zs⟩ := p
    match zs with
    | [] => rfl
    | [z] => rfl
    | z :: w :: zs => simp at this; omega

/-- Extra values are dropped silently: `(define-values (a b) (values 1 2 3))` binds `a` and `b`.  (The
report calls it an error.) -/
theorem C54_define_many :
    defineValues 0 [.other 1, .other 2, .other 3] = some [.other 1, .other 2] := rfl

example : Deliverable [] ∧ Deliverable [.other 1] ∧ Deliverable [.other 1, .nil, .pair .nil .nil] :=
  ⟨by simp [Deliverable], by rintro x h; cases h; rfl, by simp [Deliverable]⟩

example : (callWithValues (m := StateM (List Nat)) (do modify (· ++ [1]); pure (values []))
    (fun xs => do modify (· ++ [2]); pure xs.length)).run [] = (0, [1, 2]) := rfl

end Meevax.Values
