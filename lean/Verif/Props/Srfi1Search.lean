import Verif.Props.Srfi1

/-!
# C56: filtering and searching in lists

`Pure` versions are about predicates without effects; they compare with Lean's own list library.
-/

namespace Meevax.Srfi1

open Spec

section
variable {m : Type → Type} [Monad m] [LawfulMonad m] {α β B V : Type} [Objects B]

/-- What is assumed about `eq?` on lists. -/
def Sound {γ : Type} (same : γ → γ → Bool) : Prop := ∀ a b, same a b = true → a = b

/-- C56: `filter` applies the predicate once to each element, from left to right, and returns the
elements for which the result is not `#f`. -/
theorem C56_filter {same : List α → List α → Bool} (hs : Sound same) (satisfy : α → m B) :
    ∀ (xs : List α), filter same satisfy xs =
      (do let bs ← xs.mapM satisfy
          pure ((xs.zip bs).filterMap fun p => if isFalse p.2 then none else some p.1)) := by
  intro xs
  induction xs with
  | nil => simp [filter]
  | cons x xs ih =>
    simp only [filter, ih, List.mapM_cons, bind_assoc, pure_bind]
    refine congrArg _ (funext fun b => ?_)
    cases hb : isFalse b with
    | true => simp [hb]
    | false =>
      simp only [Bool.false_eq_true, if_false, List.zip_cons_cons, List.filterMap_cons, hb]
      refine congrArg _ (funext fun bs => ?_)
      congr 1
      split
      · rename_i h
        exact congrArg _ (hs _ _ h)
      · rfl

/-- C56: `filter` with a predicate without effects. -/
theorem C56_filter_pure {same : List α → List α → Bool} (hs : Sound same) (p : α → B) (xs : List α) :
    filter (m := Id) same (fun x => pure (p x)) xs = pure (xs.filter fun x => !isFalse (p x)) := by
  induction xs with
  | nil => rfl
  | cons x xs ih =>
    simp only [filter, ih, pure_bind]
    cases hb : isFalse (p x) with
    | true => simp [hb]
    | false =>
      simp only [Bool.false_eq_true, if_false, hb, Bool.not_false, List.filter_cons_of_pos]
      split
      · rename_i h
        exact congrArg pure (congrArg _ (hs _ _ h))
      · rfl

/-- C56: `remove` with a predicate without effects. -/
theorem C56_remove_pure {same : List α → List α → Bool} (hs : Sound same) (p : α → B) (xs : List α) :
    remove (m := Id) same (fun x => pure (p x)) xs = pure (xs.filter fun x => isFalse (p x)) := by
  have := C56_filter_pure hs (fun x => negate (p x)) xs
  simp only [isFalse_negate, Bool.not_not] at this
  exact this

/-- C56: `remove` keeps the elements for which the predicate returns `#f`; it is applied once to each
element, from left to right. -/
theorem C56_remove {same : List α → List α → Bool} (hs : Sound same) (satisfy : α → m B) (xs : List α) :
    remove same satisfy xs =
      (do let bs ← xs.mapM satisfy
          pure ((xs.zip bs).filterMap fun p => if isFalse p.2 then some p.1 else none)) := by
  unfold remove
  rw [C56_filter hs]
  induction xs with
  | nil => simp
  | cons x xs ih =>
    simp only [List.mapM_cons, bind_assoc, pure_bind]
    refine congrArg _ (funext fun b => ?_)
    have key : ∀ (q : List α → List α),
        (do let bs ← xs.mapM (fun x => do let b ← satisfy x; pure (negate b))
            pure (q ((xs.zip bs).filterMap fun p : α × B => if isFalse p.2 then none else some p.1))) =
        (do let bs ← xs.mapM satisfy
            pure (q ((xs.zip bs).filterMap fun p : α × B => if isFalse p.2 then some p.1 else none))) := by
      intro q
      have := congrArg (fun c => c >>= fun l => pure (q l)) ih
      simpa only [bind_assoc, pure_bind] using this
    cases hb : isFalse b with
    | true =>
      simpa only [List.zip_cons_cons, List.filterMap_cons, isFalse_negate, hb, Bool.not_true,
        Bool.false_eq_true, if_false, if_true] using key (x :: ·)
    | false =>
      simpa only [List.zip_cons_cons, List.filterMap_cons, isFalse_negate, hb, Bool.not_false,
        Bool.false_eq_true, if_false, if_true] using key (fun l => l)

theorem partition_shape (satisfy : α → m B) : ∀ (xs : List α),
    partition satisfy xs =
      xs.foldrM (fun x p => do
        let b ← satisfy x
        pure (if isFalse b then (p.1, x :: p.2) else (x :: p.1, p.2))) ([], []) ∧
    ∃ c : m {p : List α × List α // (p.1 = [] → p.2 = xs) ∧ (p.2 = [] → p.1 = xs)},
      partition satisfy xs = Subtype.val <$> c := by
  intro xs
  induction xs with
  | nil => exact ⟨rfl, pure ⟨([], []), by simp⟩, by simp [partition]⟩
  | cons x xs ih =>
    obtain ⟨ih1, c, ih2⟩ := ih
    have hstep : partition satisfy (x :: xs) =
        (do let q ← c
            let b ← satisfy x
            pure (if isFalse b then (q.1.1, x :: q.1.2) else (x :: q.1.1, q.1.2))) := by
      simp only [partition, ih2, map_eq_pure_bind, bind_assoc, pure_bind]
      refine congrArg _ (funext fun q => ?_)
      refine congrArg _ (funext fun b => ?_)
      obtain ⟨⟨a, b'⟩, ha, hb⟩ := q
      cases hf : isFalse b with
      | true =>
        simp only [if_true]
        by_cases hn : a = []
        · have he : b' = xs := ha hn
          simp [hn, he]
        · simp [hn]
      | false =>
        simp only [Bool.false_eq_true, if_false]
        by_cases hn : b' = []
        · have he : a = xs := hb hn
          simp [hn, he]
        · simp [hn]
    constructor
    · rw [hstep, List.foldrM_cons, ← ih1, ih2]
      simp only [map_eq_pure_bind, bind_assoc, pure_bind]
    · refine ⟨do
        let q ← c
        let b ← satisfy x
        if isFalse b then pure ⟨(q.1.1, x :: q.1.2), ?_⟩ else pure ⟨(x :: q.1.1, q.1.2), ?_⟩, ?_⟩
      · have := q.2
        simp only [reduceCtorEq, false_implies, and_true, List.cons.injEq, true_and]
        exact this.1
      · have := q.2
        simp only [reduceCtorEq, false_implies, List.cons.injEq, true_and]
        exact this.2
      · rw [hstep]
        simp only [map_eq_pure_bind, bind_assoc]
        refine congrArg _ (funext fun q => ?_)
        refine congrArg _ (funext fun b => ?_)
        cases hf : isFalse b <;> simp

/-- C56: `partition` applies the predicate once to each element, from right to left, and returns the
elements for which the result is not `#f` and the others, each in the order of the list. -/
theorem C56_partition (satisfy : α → m B) (xs : List α) :
    partition satisfy xs =
      xs.foldrM (fun x p => do
        let b ← satisfy x
        pure (if isFalse b then (p.1, x :: p.2) else (x :: p.1, p.2))) ([], []) :=
  (partition_shape satisfy xs).1

/-- C56: `partition` with a predicate without effects. -/
theorem C56_partition_pure (p : α → B) (xs : List α) :
    partition (m := Id) (fun x => pure (p x)) xs =
      pure (xs.filter (fun x => !isFalse (p x)), xs.filter (fun x => isFalse (p x))) := by
  rw [C56_partition]
  induction xs with
  | nil => rfl
  | cons x xs ih =>
    rw [List.foldrM_cons, ih]
    cases hb : isFalse (p x) <;> simp only [pure_bind, List.filter_cons, hb] <;> rfl

/-! ## Searching -/

/-- C56: `find` applies the predicate from left to right up to the first success. -/
theorem C56_find (satisfy : α → m B) (xs : List α) :
    find satisfy xs = xs.findM? (fun x => do let b ← satisfy x; pure !isFalse b) := by
  induction xs with
  | nil => simp [find, findTail]
  | cons x xs ih =>
    simp only [find, findTail, bind_assoc, List.findM?, pure_bind] at ih ⊢
    refine congrArg _ (funext fun b => ?_)
    cases hb : isFalse b with
    | true => simpa [hb] using ih
    | false => simp

/-- C56: `find-tail`: the remainder of the list from the first element on that satisfies the predicate;
the predicate is not applied to any later element. -/
theorem C56_findTail_first (satisfy : α → m B) (before : List α) (x : α) (rest : List α) (r : α → B)
    (hb : ∀ y ∈ before, satisfy y = pure (r y) ∧ isFalse (r y) = true)
    (hx : satisfy x = pure (r x) ∧ isFalse (r x) = false) :
    findTail satisfy (before ++ x :: rest) = pure (some (x :: rest)) ∧
      find satisfy (before ++ x :: rest) = pure (some x) := by
  have h1 : findTail satisfy (before ++ x :: rest) = pure (some (x :: rest)) := by
    induction before with
    | nil => simp [findTail, hx.1, hx.2]
    | cons y ys ih =>
      have hy := hb y (by simp)
      simp [findTail, hy.1, hy.2, ih (fun z hz => hb z (by simp [hz]))]
  exact ⟨h1, by simp [find, h1]⟩

/-- C56: `find-tail` and `find` of a list without such an element. -/
theorem C56_findTail_none (satisfy : α → m B) (xs : List α) (r : α → B)
    (hb : ∀ y ∈ xs, satisfy y = pure (r y) ∧ isFalse (r y) = true) :
    findTail satisfy xs = pure none ∧ find satisfy xs = pure none := by
  have h1 : findTail satisfy xs = pure none := by
    induction xs with
    | nil => rfl
    | cons y ys ih =>
      have hy := hb y (by simp)
      simp [findTail, hy.1, hy.2, ih (fun z hz => hb z (by simp [hz]))]
  exact ⟨h1, by simp [find, h1]⟩

/-- The first result other than `#f`, or `#f`: what `any` has to return. -/
def firstTrue (satisfy : α → m B) (cols : List α) : m B :=
  cols.foldr (fun col later => do let b ← satisfy col; if isFalse b then later else pure b) (pure no)

theorem anyLoop_eq (satisfy : α → m B) : ∀ (xs : List α) (x : α),
    anyLoop satisfy x xs = firstTrue satisfy (x :: xs) := by
  intro xs
  induction xs with
  | nil =>
    intro x
    simp only [anyLoop, firstTrue, List.foldr_cons, List.foldr_nil]
    conv => lhs; rw [← bind_pure (satisfy x)]
    refine congrArg _ (funext fun b => ?_)
    cases hb : isFalse b with
    | true => simp [(Objects.isFalse_iff b).mp hb]
    | false => simp
  | cons y ys ih =>
    intro x
    simp only [anyLoop, ih]
    rfl

theorem anyLoopN_eq (satisfy : List V → m B) : ∀ (xss : List (List V)), xss ≠ [] → ∀ heads,
    anyLoopN satisfy heads xss = firstTrue satisfy (heads :: columns xss) := by
  apply several
  · intro xss h heads
    rw [anyLoopN, columns_stop h, carsCdrs_stop h]
    exact anyLoop_eq satisfy [] heads
  · intro xss hne h ih heads
    have hc := cars_ne hne h
    rw [anyLoopN, columns_step hne h, carsCdrs_step h]
    simp only [hc, dif_neg, not_false_eq_true, ih]
    rfl

/-- C56: `any` returns the first result other than `#f`, and does not call the predicate after that. -/
theorem C56_any (satisfy : List V → m B) (x : List V) (xs : List (List V)) :
    any satisfy x xs = firstTrue satisfy (columns (x :: xs)) := by
  unfold any
  split
  · by_cases h : [] ∈ x :: xs
    · rw [carsCdrs_stop h, columns_stop h]
      simp [firstTrue]
    · have hc := cars_ne (by simp) h
      rw [carsCdrs_step h, columns_step (by simp) h]
      simp only [hc, if_false]
      exact anyLoopN_eq satisfy _ (tails_ne (by simp)) _
  · rename_i h
    have : xs = [] := by simpa using h
    subst this
    rw [columns_one]
    cases x with
    | nil => rfl
    | cons a d => simp only [any1, anyLoop_eq, firstTrue, List.foldr_map, ← List.map_cons]

/-- The last result, or the first `#f`: what `every` has to return on a list that is not empty. -/
def lastTrue (satisfy : α → m B) (cols : List α) (last : α) : m B :=
  cols.foldr (fun col later => do let b ← satisfy col; if isFalse b then pure no else later) (satisfy last)

theorem everyLoop_eq (satisfy : α → m B) : ∀ (xs : List α) (x last : α),
    everyLoop satisfy x (xs ++ [last]) = lastTrue satisfy (x :: xs) last := by
  intro xs
  induction xs with
  | nil => intro x last; rfl
  | cons y ys ih => intro x last; simp only [List.cons_append, everyLoop, ih]; rfl

theorem everyLoop_map {γ : Type} (satisfy : γ → m B) (h : α → γ) : ∀ (xs : List α) (x : α),
    everyLoop (fun x => satisfy (h x)) x xs = everyLoop satisfy (h x) (xs.map h) := by
  intro xs
  induction xs with
  | nil => intro x; rfl
  | cons y ys ih => intro x; simp only [everyLoop, List.map_cons, ih]

theorem everyLoopN_eq (satisfy : List V → m B) : ∀ (xss : List (List V)), xss ≠ [] → ∀ heads,
    everyLoopN satisfy heads xss = everyLoop satisfy heads (columns xss) := by
  apply several
  · intro xss h heads
    rw [everyLoopN, columns_stop h, carsCdrs_stop h]
    rfl
  · intro xss hne h ih heads
    have hc := cars_ne hne h
    rw [everyLoopN, columns_step hne h, carsCdrs_step h]
    simp only [hc, dif_neg, not_false_eq_true, ih]
    rfl

theorem every_eq (satisfy : List V → m B) (x : List V) (xs : List (List V)) :
    every satisfy x xs = every1 satisfy (columns (x :: xs)) := by
  unfold every
  split
  · by_cases h : [] ∈ x :: xs
    · rw [carsCdrs_stop h, columns_stop h]
      simp [every1]
    · have hc := cars_ne (by simp) h
      rw [carsCdrs_step h, columns_step (by simp) h]
      simp only [hc, if_false]
      exact everyLoopN_eq satisfy _ (tails_ne (by simp)) _
  · rename_i h
    have : xs = [] := by simpa using h
    subst this
    rw [columns_one]
    cases x with
    | nil => rfl
    | cons a d => exact everyLoop_map satisfy (fun a => [a]) d a

/-- C56: `every` returns `#t` for lists without elements, and otherwise the last result if all results
are other than `#f`; it stops at the first `#f`. -/
theorem C56_every (satisfy : List V → m B) (x : List V) (xs : List (List V)) :
    (columns (x :: xs) = [] → every satisfy x xs = pure yes) ∧
    (∀ cols last, columns (x :: xs) = cols ++ [last] → every satisfy x xs = lastTrue satisfy cols last) := by
  rw [every_eq]
  constructor
  · intro h; rw [h]; rfl
  · intro cols last h
    rw [h]
    cases cols with
    | nil => rfl
    | cons c cs => exact everyLoop_eq satisfy cs c last

theorem listIndex1_eq (satisfy : α → m B) : ∀ (xs : List α) (n : Nat),
    listIndex1 satisfy xs n =
      (do let t ← findTail satisfy xs
          pure (t.map fun t => n + (xs.length - t.length))) := by
  have hsuf : ∀ (ys : List α), ∃ c : m {t : Option (List α) // ∀ l, t = some l → l.length ≤ ys.length},
      findTail satisfy ys = Subtype.val <$> c := by
    intro ys
    induction ys with
    | nil => exact ⟨pure ⟨none, by simp⟩, by simp [findTail]⟩
    | cons y ys ih =>
      obtain ⟨c, hc⟩ := ih
      refine ⟨do
        let b ← satisfy y
        if isFalse b then
          let t ← c
          pure ⟨t.1, fun l hl => Nat.le_trans (t.2 l hl) (by simp)⟩
        else pure ⟨some (y :: ys), fun l hl => by
          rw [← Option.some.inj hl]; exact Nat.le_refl _⟩, ?_⟩
      simp only [findTail, map_eq_pure_bind, bind_assoc]
      refine congrArg _ (funext fun b => ?_)
      cases hb : isFalse b
      · simp
      · simp only [if_true, hc, map_eq_pure_bind, bind_assoc, pure_bind]
  intro xs
  induction xs with
  | nil => intro n; simp [listIndex1, findTail]
  | cons x xs ih =>
    intro n
    simp only [listIndex1, findTail, bind_assoc]
    refine congrArg _ (funext fun b => ?_)
    cases hb : isFalse b with
    | false => simp
    | true =>
      simp only [if_true]
      rw [ih (n + 1)]
      obtain ⟨c, hc⟩ := hsuf xs
      rw [hc]
      simp only [map_eq_pure_bind, bind_assoc, pure_bind]
      refine congrArg _ (funext fun t => ?_)
      obtain ⟨t, ht⟩ := t
      cases t with
      | none => rfl
      | some l =>
        have := ht l rfl
        simp only [Option.map_some, List.length_cons]
        congr 2
        omega

theorem listIndexN_eq (satisfy : List V → m B) : ∀ (xss : List (List V)), xss ≠ [] → ∀ n,
    listIndexN satisfy xss n = listIndex1 satisfy (columns xss) n := by
  apply several
  · intro xss h n
    rw [listIndexN, columns_stop h, carsCdrs_stop h]
    rfl
  · intro xss hne h ih n
    have hc := cars_ne hne h
    rw [listIndexN, columns_step hne h, carsCdrs_step h]
    simp only [hc, dif_neg, not_false_eq_true, ih]
    rfl

theorem listIndex1_map {γ : Type} (satisfy : γ → m B) (h : α → γ) : ∀ (xs : List α) (n : Nat),
    listIndex1 (fun x => satisfy (h x)) xs n = listIndex1 satisfy (xs.map h) n := by
  intro xs
  induction xs with
  | nil => intro n; rfl
  | cons y ys ih => intro n; simp only [listIndex1, List.map_cons, ih]

/-- C56: `list-index` returns the position that `find-tail` finds. -/
theorem C56_listIndex (satisfy : List V → m B) (x : List V) (xs : List (List V)) :
    listIndex satisfy x xs =
      (do let t ← findTail satisfy (columns (x :: xs))
          pure (t.map fun t => (columns (x :: xs)).length - t.length)) := by
  have h : listIndex satisfy x xs = listIndex1 satisfy (columns (x :: xs)) 0 := by
    unfold listIndex
    split
    · exact listIndexN_eq satisfy _ (by simp) 0
    · rename_i h
      have : xs = [] := by simpa using h
      subst this
      rw [columns_one]
      exact listIndex1_map satisfy (fun a => [a]) x 0
  rw [h, listIndex1_eq]
  simp

/-- C56: `any`, `every` and `list-index` on one list with a predicate without effects. -/
theorem C56_search_pure (p : V → Bool) (x : List V) :
    any (m := Id) (fun args => pure (args.all p)) x [] = pure (x.any p) ∧
    every (m := Id) (fun args => pure (args.all p)) x [] = pure (x.all p) ∧
    listIndex (m := Id) (fun args => pure (args.all p)) x [] = pure (x.findIdx? p) := by
  refine ⟨?_, ?_, ?_⟩
  · rw [C56_any, columns_one]
    induction x with
    | nil => rfl
    | cons a d ih =>
      simp only [List.map_cons, firstTrue, List.foldr_cons, pure_bind, List.any_cons] at ih ⊢
      rw [ih]
      by_cases h : p a = true <;> simp [h, isFalse]
  · rw [every_eq, columns_one]
    induction x with
    | nil => rfl
    | cons a d ih =>
      cases d with
      | nil => simp [every1, everyLoop]
      | cons b d =>
        simp only [List.map_cons, every1, everyLoop, pure_bind, List.all_cons] at ih ⊢
        rw [ih]
        by_cases h : p a = true <;> simp [h, isFalse, no]
  · have key : ∀ (x : List V) (n : Nat),
        listIndex1 (m := Id) (fun x => pure (p x)) x n = pure ((x.findIdx? p).map (· + n)) := by
      intro x
      induction x with
      | nil => intro n; rfl
      | cons a d ih =>
        intro n
        simp only [listIndex1, pure_bind, ih, List.findIdx?_cons]
        cases h : p a
        · simp only [isFalse, Bool.not_false, if_true, Bool.false_eq_true, if_false, Option.map_map]
          congr 2
          funext k
          simp only [Function.comp]; omega
        · simp [isFalse]
    have := key x 0
    simp only [listIndex, ne_eq, not_true_eq_false, if_false, List.all_cons, List.all_nil, Bool.and_true]
    rw [this]
    simp

/-! ## Prefixes -/

/-- C56: `take-while`, `drop-while`, `span` and `break` split the list before the first element that does
not satisfy (satisfies, for `break`) the predicate, which is not applied to any later element. -/
theorem C56_span_first (satisfy : α → m B) (before : List α) (x : α) (rest : List α) (r : α → B)
    (hb : ∀ y ∈ before, satisfy y = pure (r y) ∧ isFalse (r y) = false)
    (hx : satisfy x = pure (r x) ∧ isFalse (r x) = true) :
    takeWhile satisfy (before ++ x :: rest) = pure before ∧
    dropWhile satisfy (before ++ x :: rest) = pure (x :: rest) ∧
    span satisfy (before ++ x :: rest) = pure (before, x :: rest) := by
  induction before with
  | nil => simp [takeWhile, dropWhile, span, hx.1, hx.2]
  | cons y ys ih =>
    have hy := hb y (by simp)
    obtain ⟨h1, h2, h3⟩ := ih (fun z hz => hb z (by simp [hz]))
    simp [takeWhile, dropWhile, span, hy.1, hy.2, h1, h2, h3]

/-- C56: the same for a list whose elements all satisfy the predicate. -/
theorem C56_span_all (satisfy : α → m B) (xs : List α) (r : α → B)
    (hb : ∀ y ∈ xs, satisfy y = pure (r y) ∧ isFalse (r y) = false) :
    takeWhile satisfy xs = pure xs ∧ dropWhile satisfy xs = pure [] ∧ span satisfy xs = pure (xs, []) := by
  induction xs with
  | nil => exact ⟨rfl, rfl, rfl⟩
  | cons y ys ih =>
    have hy := hb y (by simp)
    obtain ⟨h1, h2, h3⟩ := ih (fun z hz => hb z (by simp [hz]))
    simp [takeWhile, dropWhile, span, hy.1, hy.2, h1, h2, h3]

/-- C56: `break` is `span` with the opposite predicate. -/
theorem C56_break_first (satisfy : α → m B) (before : List α) (x : α) (rest : List α) (r : α → B)
    (hb : ∀ y ∈ before, satisfy y = pure (r y) ∧ isFalse (r y) = true)
    (hx : satisfy x = pure (r x) ∧ isFalse (r x) = false) :
    «break» satisfy (before ++ x :: rest) = pure (before, x :: rest) := by
  refine (C56_span_first _ before x rest (fun y => negate (r y)) ?_ ?_).2.2
  · intro y hy
    simp [(hb y hy).1, isFalse_negate, (hb y hy).2]
  · simp [hx.1, isFalse_negate, hx.2]

/-- How many elements at the beginning of the list satisfy the predicate. -/
def leading (satisfy : α → m B) (xs : List α) : m Nat :=
  xs.foldr (fun x later => do
    let b ← satisfy x
    if isFalse b then pure 0 else (· + 1) <$> later) (pure 0)

/-- C56: `span` with effects: the predicate is called from left to right, and not after its first
`#f`. -/
theorem C56_span (satisfy : α → m B) (xs : List α) :
    span satisfy xs = (do let k ← leading satisfy xs; pure (xs.take k, xs.drop k)) := by
  induction xs with
  | nil => simp [span, leading]
  | cons x xs ih =>
    simp only [span, ih, leading, List.foldr_cons, bind_assoc]
    refine congrArg _ (funext fun b => ?_)
    cases hb : isFalse b with
    | true => simp
    | false => simp [← bind_pure_comp]

/-- C56: `take-while` and `drop-while` with effects return the two parts that `span` finds. -/
theorem C56_takeWhile (satisfy : α → m B) : ∀ (xs : List α),
    takeWhile satisfy xs = (do let p ← span satisfy xs; pure p.1) ∧
    dropWhile satisfy xs = (do let p ← span satisfy xs; pure p.2) := by
  intro xs
  induction xs with
  | nil => simp [takeWhile, dropWhile, span]
  | cons x xs ih =>
    obtain ⟨h1, h2⟩ := ih
    constructor
    · simp only [takeWhile, span, bind_assoc, h1]
      refine congrArg _ (funext fun b => ?_)
      cases hb : isFalse b <;> simp
    · simp only [dropWhile, span, bind_assoc, h2]
      refine congrArg _ (funext fun b => ?_)
      cases hb : isFalse b <;> simp

/-! ## Comparing -/

/-- C56: `member` returns the remainder from the first element on that is equal to the object, and
`assoc` the first entry with such a key. -/
theorem C56_member (eqv : α → α → Bool) (x : α) (xs : List α) :
    member (m := Id) (fun a b => pure (eqv a b)) x xs =
      pure (if xs.any (eqv x) then some (xs.dropWhile fun y => !eqv x y) else none) := by
  induction xs with
  | nil => rfl
  | cons y ys ih =>
    simp only [member, pure_bind, ih, List.any_cons]
    by_cases h : eqv x y = true <;> simp [h, isFalse]

/-- C56: `assoc`. -/
theorem C56_assoc (eqv : α → α → Bool) (key : α) (alist : List (α × β)) :
    assoc (m := Id) (fun a b => pure (eqv a b)) key alist = pure (alist.find? fun p => eqv key p.1) := by
  induction alist with
  | nil => rfl
  | cons p rest ih =>
    obtain ⟨k, v⟩ := p
    simp only [assoc, pure_bind, ih]
    by_cases h : eqv key k = true <;> simp [h, isFalse]

/-- C56: `delete` removes exactly the elements `y` for which `(x=? x y)`. -/
theorem C56_delete {same : List α → List α → Bool} (hs : Sound same) (eqv : α → α → Bool) (x : α)
    (xs : List α) :
    delete (m := Id) same (fun a b => pure (eqv a b)) x xs = pure (xs.filter fun y => !eqv x y) := by
  have := C56_remove_pure hs (fun y => eqv x y) xs
  exact this

/-- C56: `alist-delete`. -/
theorem C56_alistDelete {same : List (α × β) → List (α × β) → Bool} (hs : Sound same)
    (eqv : α → α → Bool) (key : α) (alist : List (α × β)) :
    alistDelete (m := Id) same (fun a b => pure (eqv a b)) key alist =
      pure (alist.filter fun p => !eqv key p.1) := by
  have := C56_remove_pure hs (fun p : α × β => eqv key p.1) alist
  exact this

end

end Meevax.Srfi1
