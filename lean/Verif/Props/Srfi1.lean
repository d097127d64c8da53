import Verif.Lemmas.Srfi1

/-!
# C56: the procedures of SRFI 1

The equations hold in every lawful monad, that is, whatever the procedures supplied by the user do
besides returning a value.  On the right-hand sides stand the combinators of Lean's own list library.
-/

namespace Meevax.Srfi1

open Spec

section
variable {m : Type → Type} [Monad m] [LawfulMonad m] {α β B V : Type} [Objects B]

/-! ## Folds -/

theorem fold1_eq (f : α → β → m β) : ∀ (xs : List α) (z : β),
    fold1 f xs z = xs.foldlM (fun acc x => f x acc) z := by
  intro xs
  induction xs with
  | nil => intro z; rfl
  | cons x xs ih => intro z; simp only [fold1, ih, List.foldlM_cons]

theorem foldN_eq (f : List V → m V) : ∀ (xss : List (List V)), xss ≠ [] → ∀ z,
    foldN f xss z = (columns xss).foldlM (fun acc col => f (col ++ [acc])) z := by
  apply several
  · intro xss h z
    rw [foldN, columns_stop h, carsCdrsPlus_stop z h]
    split <;> rfl
  · intro xss hne h ih z
    rw [foldN, dif_neg hne, columns_step hne h]
    simp only [carsCdrsPlus_step z h, List.append_eq_nil_iff, List.cons_ne_self, and_false,
      List.foldlM_cons, ih]
    rfl

/-- C56: `fold` calls the procedure once for each position up to the end of the shortest list, from left
to right, with the elements at that position and the result so far. -/
theorem C56_fold (f : List V → m V) (z : V) (x : List V) (xs : List (List V)) :
    fold f z x xs = (columns (x :: xs)).foldlM (fun acc col => f (col ++ [acc])) z := by
  unfold fold
  split
  · exact foldN_eq f _ (by simp) z
  · rename_i h
    have : xs = [] := by simpa using h
    subst this
    rw [fold1_eq, columns_one, List.foldlM_map]
    rfl

theorem foldRight1_eq (f : α → β → m β) (z : β) : ∀ (xs : List α),
    foldRight1 f z xs = xs.foldrM f z := by
  intro xs
  induction xs with
  | nil => rfl
  | cons x xs ih => simp only [foldRight1, ih, List.foldrM_cons]

theorem foldRightN_eq (f : List V → m V) (z : V) : ∀ (xss : List (List V)), xss ≠ [] →
    foldRightN f z xss = (columns xss).foldrM (fun col acc => f (col ++ [acc])) z := by
  apply several
  · intro xss h
    rw [foldRightN, columns_stop h, dif_pos (cdrs_stop h)]
    rfl
  · intro xss hne h ih
    have hc : cdrs xss ≠ [] := by rw [cdrs_step h]; exact tails_ne hne
    rw [foldRightN, dif_neg hc, columns_step hne h, cdrs_step h]
    simp only [carsPlus_eq, List.foldrM_cons, ih]

/-- C56: `fold-right` calls the procedure once for each position, from right to left, with the elements
at that position and the result so far. -/
theorem C56_foldRight (f : List V → m V) (z : V) (x : List V) (xs : List (List V)) :
    foldRight f z x xs = (columns (x :: xs)).foldrM (fun col acc => f (col ++ [acc])) z := by
  unfold foldRight
  split
  · exact foldRightN_eq f z _ (by simp)
  · rename_i h
    have : xs = [] := by simpa using h
    subst this
    rw [foldRight1_eq, columns_one, List.foldrM_map]
    rfl

theorem pairFold1_eq (f : List (List V) → β → m β) : ∀ (xs : List V) (z : β),
    pairFold1 (fun x ans => f [x] ans) xs z = (suffixes [xs]).foldlM (fun acc col => f col acc) z := by
  intro xs
  induction xs with
  | nil => intro z; rfl
  | cons x xs ih =>
    intro z
    simp only [pairFold1, suffixes_one_cons, List.foldlM_cons, ih]

theorem pairFoldN_eq (f : List (List V) → β → m β) : ∀ (xss : List (List V)), xss ≠ [] → ∀ z,
    pairFoldN f xss z = (suffixes xss).foldlM (fun acc col => f col acc) z := by
  apply several
  · intro xss h z
    rw [pairFoldN, suffixes_stop h, dif_pos (cdrs_stop h)]
    rfl
  · intro xss hne h ih z
    have hc : cdrs xss ≠ [] := by rw [cdrs_step h]; exact tails_ne hne
    rw [pairFoldN, dif_neg hc, suffixes_step hne h, cdrs_step h]
    simp only [List.foldlM_cons, ih]

/-- C56: `pair-fold` calls the procedure with the successive remainders of the lists. -/
theorem C56_pairFold (f : List (List V) → β → m β) (z : β) (x : List V) (xs : List (List V)) :
    pairFold f z x xs = (suffixes (x :: xs)).foldlM (fun acc col => f col acc) z := by
  unfold pairFold
  split
  · exact pairFoldN_eq f _ (by simp) z
  · rename_i h
    have : xs = [] := by simpa using h
    subst this
    exact pairFold1_eq f x z

theorem pairFoldRight1_eq (f : List (List V) → β → m β) (z : β) : ∀ (xs : List V),
    pairFoldRight1 (fun x ans => f [x] ans) z xs = (suffixes [xs]).foldrM f z := by
  intro xs
  induction xs with
  | nil => rfl
  | cons x xs ih => simp only [pairFoldRight1, suffixes_one_cons, List.foldrM_cons, ih]

theorem pairFoldRightN_eq (f : List (List V) → β → m β) (z : β) : ∀ (xss : List (List V)), xss ≠ [] →
    pairFoldRightN f z xss = (suffixes xss).foldrM f z := by
  apply several
  · intro xss h
    rw [pairFoldRightN, suffixes_stop h, dif_pos (cdrs_stop h)]
    rfl
  · intro xss hne h ih
    have hc : cdrs xss ≠ [] := by rw [cdrs_step h]; exact tails_ne hne
    rw [pairFoldRightN, dif_neg hc, suffixes_step hne h, cdrs_step h]
    simp only [List.foldrM_cons, ih]

/-- C56: `pair-fold-right` calls the procedure with the remainders of the lists, the shortest ones
first. -/
theorem C56_pairFoldRight (f : List (List V) → β → m β) (z : β) (x : List V) (xs : List (List V)) :
    pairFoldRight f z x xs = (suffixes (x :: xs)).foldrM f z := by
  unfold pairFoldRight
  split
  · exact pairFoldRightN_eq f z _ (by simp)
  · rename_i h
    have : xs = [] := by simpa using h
    subst this
    exact pairFoldRight1_eq f z x

/-- C56: `reduce` is a fold from the first element on, and its identity is used for the empty list
only. -/
theorem C56_reduce (f : α → α → m α) (ridentity : α) (xs : List α) :
    reduce f ridentity xs =
      match xs with
      | [] => pure ridentity
      | x :: xs => xs.foldlM (fun acc y => f y acc) x := by
  cases xs with
  | nil => rfl
  | cons x xs => exact fold1_eq f xs x

theorem reduceRightLoop_eq (f : α → α → m α) : ∀ (xs : List α) (x last : α),
    reduceRightLoop f x (xs ++ [last]) = (x :: xs).foldrM f last := by
  intro xs
  induction xs with
  | nil => intro x last; simp [reduceRightLoop]
  | cons y ys ih => intro x last; simp only [List.cons_append, reduceRightLoop, ih, List.foldrM_cons]

/-- C56: `reduce-right` is a fold from the last element on. -/
theorem C56_reduceRight (f : α → α → m α) (ridentity : α) :
    reduceRight f ridentity [] = pure ridentity ∧
      ∀ (xs : List α) (last : α), reduceRight f ridentity (xs ++ [last]) = xs.foldrM f last := by
  refine ⟨rfl, fun xs last => ?_⟩
  cases xs with
  | nil => simp [reduceRight, reduceRightLoop]
  | cons x xs => simp only [List.cons_append, reduceRight, reduceRightLoop_eq]

theorem count1_eq (satisfy : α → m B) : ∀ (xs : List α) (i : Nat),
    count1 satisfy xs i = (do let bs ← xs.mapM satisfy; pure (i + bs.countP fun b => !isFalse b)) := by
  intro xs
  induction xs with
  | nil => intro i; simp [count1]
  | cons x xs ih =>
    intro i
    simp only [count1, ih, List.mapM_cons, bind_assoc, pure_bind]
    refine congrArg _ (funext fun b => ?_)
    refine congrArg _ (funext fun bs => ?_)
    congr 1
    cases h : isFalse b <;> simp [h, List.countP_cons] <;> omega

theorem countN_eq (satisfy : List V → m B) : ∀ (x : List V) (xs : List (List V)), xs ≠ [] → ∀ (i : Nat),
    countN satisfy x xs i =
      (do let bs ← (columns (x :: xs)).mapM satisfy; pure (i + bs.countP fun b => !isFalse b)) := by
  intro x
  induction x with
  | nil => intro xs _ i; rw [columns_stop (by simp)]; simp [countN]
  | cons a d ih =>
    intro xs hne i
    by_cases h : [] ∈ xs
    · rw [columns_stop (by simp [h])]
      simp [countN, carsCdrs_stop h]
    · have hn : ¬ [] ∈ (a :: d) :: xs := by simpa using h
      have hc := cars_ne hne h
      rw [columns_step (by simp) hn]
      simp only [countN, carsCdrs_step h, hc, if_false, ih _ (tails_ne hne), List.mapM_cons, bind_assoc,
        pure_bind]
      show (satisfy (cars ((a :: d) :: xs)) >>= _) = _
      refine congrArg _ (funext fun b => ?_)
      refine congrArg _ (funext fun bs => ?_)
      congr 1
      cases h : isFalse b <;> simp [h, List.countP_cons] <;> omega

/-- C56: `count` applies the predicate at every position, from left to right, and counts how often it
does not return `#f`. -/
theorem C56_count (satisfy : List V → m B) (x : List V) (xs : List (List V)) :
    count satisfy x xs =
      (do let bs ← (columns (x :: xs)).mapM satisfy; pure (bs.countP fun b => !isFalse b)) := by
  unfold count
  split
  · rename_i h
    rw [countN_eq satisfy x xs h]
    simp
  · rename_i h
    have : xs = [] := by simpa using h
    subst this
    rw [count1_eq, columns_one, List.mapM_map]
    simp
    rfl

/-! ## Maps -/

theorem mapLoop_eq (f : α → m β) : ∀ (xs : List α) (a : List β),
    mapLoop f xs a = (do let ys ← xs.mapM f; pure (a.reverse ++ ys)) := by
  intro xs
  induction xs with
  | nil => intro a; simp [mapLoop]
  | cons x xs ih => intro a; simp [mapLoop, ih, List.mapM_cons]

theorem mapN_eq (f : List V → m β) : ∀ (xss : List (List V)), xss ≠ [] → ∀ (a : List β),
    mapN f xss a = (do let ys ← (columns xss).mapM f; pure (a.reverse ++ ys)) := by
  apply several
  · intro xss h a
    have hne : xss ≠ [] := by intro e; subst e; simp at h
    rw [mapN, dif_neg hne, dif_pos (someEmpty_iff.mpr h), columns_stop h]
    simp
  · intro xss hne h ih a
    have hs : ¬ someEmpty xss = true := fun e => h (someEmpty_iff.mp e)
    rw [mapN, dif_neg hne, dif_neg hs, columns_step hne h]
    simp [ih, List.mapM_cons]

/-- C56: `map` calls the procedure once for each position up to the end of the shortest list, from left
to right, and returns the list of the results. -/
theorem C56_map (f : List V → m β) (x : List V) (xs : List (List V)) :
    map f x xs = (columns (x :: xs)).mapM f := by
  unfold map
  split
  · rename_i h
    subst h
    rw [mapLoop_eq, columns_one, List.mapM_map]
    simp
    rfl
  · rw [mapN_eq f _ (by simp)]
    simp

theorem forEachLoop_eq (f : α → m β) : ∀ (xs : List α),
    forEachLoop f xs = (do let _ ← xs.mapM f; pure ()) := by
  intro xs
  induction xs with
  | nil => simp [forEachLoop]
  | cons x xs ih => simp [forEachLoop, ih, List.mapM_cons]

/-- C56: `for-each` calls the procedure once for each position, from left to right. -/
theorem C56_forEach (f : List V → m β) (x : List V) (xs : List (List V)) :
    forEach f x xs = (do let _ ← (columns (x :: xs)).mapM f; pure ()) := by
  unfold forEach
  split
  · rename_i h
    subst h
    rw [forEachLoop_eq, columns_one, List.mapM_map]
    rfl
  · rw [C56_map]

theorem mapInOrder1_eq (f : α → m β) : ∀ (xs : List α), mapInOrder1 f xs = xs.mapM f := by
  intro xs
  induction xs with
  | nil => simp [mapInOrder1]
  | cons x xs ih => simp [mapInOrder1, ih, List.mapM_cons]

theorem mapInOrderN_eq (f : List V → m β) : ∀ (xss : List (List V)), xss ≠ [] →
    mapInOrderN f xss = (columns xss).mapM f := by
  apply several
  · intro xss h
    rw [mapInOrderN, columns_stop h, carsCdrs_stop h]
    simp
  · intro xss hne h ih
    have hc := cars_ne hne h
    rw [mapInOrderN, columns_step hne h, carsCdrs_step h]
    simp [hc, ih, List.mapM_cons]

/-- C56: `map-in-order` is `map`. -/
theorem C56_mapInOrder (f : List V → m β) (x : List V) (xs : List (List V)) :
    mapInOrder f x xs = (columns (x :: xs)).mapM f := by
  unfold mapInOrder
  split
  · exact mapInOrderN_eq f _ (by simp)
  · rename_i h
    have : xs = [] := by simpa using h
    subst this
    rw [mapInOrder1_eq, columns_one, List.mapM_map]
    rfl

theorem appendMapLoop_eq (f : α → m (List β)) : ∀ (xs : List α) (x : α),
    appendMapLoop f x xs = (do let yss ← (x :: xs).mapM f; pure yss.flatten) := by
  intro xs
  induction xs with
  | nil => intro x; simp [appendMapLoop]
  | cons y ys ih => intro x; rw [appendMapLoop, ih]; simp [List.mapM_cons]

theorem appendMapLoopN_eq (f : List V → m (List β)) : ∀ (xss : List (List V)), xss ≠ [] → ∀ heads,
    appendMapLoopN f heads xss = (do let yss ← (heads :: columns xss).mapM f; pure yss.flatten) := by
  apply several
  · intro xss h heads
    rw [appendMapLoopN, columns_stop h, carsCdrs_stop h]
    simp
  · intro xss hne h ih heads
    have hc := cars_ne hne h
    rw [appendMapLoopN, columns_step hne h, carsCdrs_step h]
    simp [hc, ih, List.mapM_cons]

/-- C56: `append-map` appends the results of `map`. -/
theorem C56_appendMap (f : List V → m (List β)) (x : List V) (xs : List (List V)) :
    appendMap f x xs = (do let yss ← (columns (x :: xs)).mapM f; pure yss.flatten) := by
  unfold appendMap
  split
  · by_cases h : [] ∈ x :: xs
    · rw [carsCdrs_stop h, columns_stop h]
      simp
    · have hc := cars_ne (by simp) h
      rw [carsCdrs_step h, columns_step (by simp) h]
      simp only [hc, if_false]
      exact appendMapLoopN_eq f _ (tails_ne (by simp)) _
  · rename_i h
    have : xs = [] := by simpa using h
    subst this
    rw [columns_one, List.mapM_map]
    cases x with
    | nil => simp
    | cons a d => exact appendMapLoop_eq _ d a

theorem pairForEach1_eq (f : List (List V) → m β) : ∀ (xs : List V),
    pairForEach1 (fun x => f [x]) xs = (do let _ ← (suffixes [xs]).mapM f; pure ()) := by
  intro xs
  induction xs with
  | nil => simp [pairForEach1, suffixes_one_nil]
  | cons x xs ih => simp [pairForEach1, ih, suffixes_one_cons, List.mapM_cons]

theorem pairForEachN_eq (f : List (List V) → m β) : ∀ (xss : List (List V)), xss ≠ [] →
    pairForEachN f xss = (do let _ ← (suffixes xss).mapM f; pure ()) := by
  apply several
  · intro xss h
    rw [pairForEachN, suffixes_stop h, dif_pos (cdrs_stop h)]
    simp
  · intro xss hne h ih
    have hc : cdrs xss ≠ [] := by rw [cdrs_step h]; exact tails_ne hne
    rw [pairForEachN, dif_neg hc, suffixes_step hne h, cdrs_step h]
    simp [ih, List.mapM_cons]

/-- C56: `pair-for-each` calls the procedure with the successive remainders. -/
theorem C56_pairForEach (f : List (List V) → m β) (x : List V) (xs : List (List V)) :
    pairForEach f x xs = (do let _ ← (suffixes (x :: xs)).mapM f; pure ()) := by
  unfold pairForEach
  split
  · exact pairForEachN_eq f _ (by simp)
  · rename_i h
    have : xs = [] := by simpa using h
    subst this
    exact pairForEach1_eq f x

/-- C56: `filter-map` on one list calls the procedure from right to left. -/
theorem C56_filterMap_one (f : List V → m B) (x : List V) :
    filterMap f x [] =
      (columns [x]).foldrM (fun col rest => do let y ← f col; pure (if isFalse y then rest else y :: rest)) []
      := by
  simp only [filterMap, ne_eq, not_true_eq_false, if_false, columns_one, List.foldrM_map]
  induction x with
  | nil => rfl
  | cons a d ih => simp only [filterMap1, ih, List.foldrM_cons]

theorem filterMapN_eq (f : List V → m B) : ∀ (xss : List (List V)), xss ≠ [] →
    filterMapN f xss = (do let ys ← (columns xss).mapM f; pure (ys.filter fun y => !isFalse y)) := by
  apply several
  · intro xss h
    rw [filterMapN, columns_stop h, carsCdrs_stop h]
    simp
  · intro xss hne h ih
    have hc := cars_ne hne h
    rw [filterMapN, columns_step hne h, carsCdrs_step h]
    simp only [hc, dif_neg, not_false_eq_true, ih, List.mapM_cons, bind_assoc, pure_bind]
    refine congrArg _ (funext fun y => ?_)
    cases hy : isFalse y <;> simp [hy]

/-- C56: `filter-map` on several lists calls the procedure from left to right, and returns the results
other than `#f`. -/
theorem C56_filterMap_several (f : List V → m B) (x y : List V) (xs : List (List V)) :
    filterMap f x (y :: xs) =
      (do let ys ← (columns (x :: y :: xs)).mapM f; pure (ys.filter fun y => !isFalse y)) := by
  simp only [filterMap, ne_eq, reduceCtorEq, not_false_eq_true, if_true]
  exact filterMapN_eq f _ (by simp)

theorem listTabulate_eq (f : Nat → m β) : ∀ (left i : Nat),
    listTabulate f left i =
      (List.range' i left).foldrM (fun i rest => do let x ← f i; pure (x :: rest)) [] := by
  intro left
  induction left with
  | zero => intro i; rfl
  | succ left ih => intro i; simp only [listTabulate, ih, List.range'_succ, List.foldrM_cons]

/-- C56: `list-tabulate` calls the procedure for the indices below `k`, the greatest first, and returns
the results in the order of the indices. -/
theorem C56_tabulate (f : Nat → m β) (k : Nat) :
    listTabulate f k 0 = (List.range k).foldrM (fun i rest => do let x ← f i; pure (x :: rest)) [] := by
  rw [listTabulate_eq, List.range_eq_range']

/-- C56: `unfold`, for a predicate and a successor without effects: with `n` the first number of steps
after which the predicate holds, the list has the elements for the seeds before that; the procedure that
makes the elements is called from right to left. -/
theorem C56_unfold (p : α → B) (f : α → m β) (g : α → α) (generate : α → m (List β)) :
    ∀ (n fuel : Nat) (seed : α), n < fuel → (∀ i < n, isFalse (p (after g i seed)) = true) →
      isFalse (p (after g n seed)) = false →
      unfold (fun s => pure (p s)) f (fun s => pure (g s)) generate fuel seed =
        (do let rest ← generate (after g n seed)
            let xs ← ((List.range n).map fun i => after g i seed).foldrM
              (fun s rest => do let x ← f s; pure (x :: rest)) rest
            pure (some xs)) := by
  intro n
  induction n with
  | zero =>
    intro fuel seed hf _ hstop
    cases fuel with
    | zero => omega
    | succ fuel =>
      have hstop' : isFalse (p seed) = false := hstop
      simp [unfold, hstop', after]
  | succ n ih =>
    intro fuel seed hf hgo hstop
    cases fuel with
    | zero => omega
    | succ fuel =>
      have h0 : isFalse (p seed) = true := hgo 0 (by omega)
      have hrec := ih fuel (g seed) (by omega)
        (fun i hi => hgo (i + 1) (by omega)) hstop
      simp only [unfold, pure_bind, h0, if_true, hrec, List.range_succ_eq_map, List.map_cons, List.map_map,
        List.foldrM_cons, bind_assoc]
      refine congrArg _ (funext fun rest => ?_)
      refine congrArg _ (funext fun xs => ?_)
      rfl

/-- C56: `unfold` of a seed that never stops does not end. -/
theorem C56_unfold_forever (p : α → B) (f : α → m β) (g : α → α) (generate : α → m (List β)) :
    ∀ (fuel : Nat) (seed : α), (∀ i, isFalse (p (after g i seed)) = true) →
      unfold (fun s => pure (p s)) f (fun s => pure (g s)) generate fuel seed = pure none := by
  intro fuel
  induction fuel with
  | zero => intro seed _; rfl
  | succ fuel ih =>
    intro seed h
    have h0 : isFalse (p seed) = true := h 0
    have hrec := ih (g seed) (fun i => h (i + 1))
    simp [unfold, h0, hrec]

/-- C56: `unfold-right`: the elements for the seeds before the predicate holds, in reverse order, before
the given tail; the procedure is called from the first seed on. -/
theorem C56_unfoldRight (p : α → B) (f : α → m β) (g : α → α) :
    ∀ (n fuel : Nat) (seed : α) (tail : List β), n < fuel →
      (∀ i < n, isFalse (p (after g i seed)) = true) → isFalse (p (after g n seed)) = false →
      unfoldRight (fun s => pure (p s)) f (fun s => pure (g s)) fuel seed tail =
        (do let xs ← ((List.range n).map fun i => after g i seed).mapM f
            pure (some (xs.reverse ++ tail))) := by
  intro n
  induction n with
  | zero =>
    intro fuel seed tail hf _ hstop
    cases fuel with
    | zero => omega
    | succ fuel =>
      have hstop' : isFalse (p seed) = false := hstop
      simp [unfoldRight, hstop']
  | succ n ih =>
    intro fuel seed tail hf hgo hstop
    cases fuel with
    | zero => omega
    | succ fuel =>
      have h0 : isFalse (p seed) = true := hgo 0 (by omega)
      have hrec := fun t => ih fuel (g seed) t (by omega)
        (fun i hi => hgo (i + 1) (by omega)) hstop
      simp only [unfoldRight, pure_bind, h0, if_true, hrec, List.range_succ_eq_map, List.map_cons,
        List.map_map, List.mapM_cons, bind_assoc]
      refine congrArg _ (funext fun x => ?_)
      refine congrArg _ (funext fun xs => ?_)
      simp

end

end Meevax.Srfi1
