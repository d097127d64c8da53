import Verif.Model.Circular
import Verif.Spec.Circular
import Verif.Props.Srfi1Search
import Mathlib.Data.Nat.Find

/-!
C106: the procedures of SRFI 1 on lists some of which are circular.
-/

namespace Meevax.Srfi1.Circular
open Spec

variable {m : Type → Type} [Monad m] [LawfulMonad m] {A V β B : Type} [Objects B]

/-! ### Lists -/

theorem tail_add (s : Cells A V) : ∀ (i j : Nat) (a : A), tail s (i + j) a = (tail s i a).bind (tail s j) := by
  intro i
  induction i with
  | zero => intro j a; simp [tail]
  | succ i ih =>
    intro j a
    rw [show i + 1 + j = (i + j) + 1 by omega, tail, tail]
    cases s a with
    | none => rfl
    | some p => exact ih j p.2

theorem element_zero (s : Cells A V) (a : A) : element s 0 a = (s a).map Prod.fst := rfl

theorem element_succ (s : Cells A V) (i : Nat) (a : A) :
    element s (i + 1) a = ((s a).map Prod.snd).bind (element s i) := by
  unfold element
  rw [tail]
  cases s a with
  | none => rfl
  | some p => rfl

/-- Without an element at a position there is none at any later one. -/
theorem element_none {s : Cells A V} {i : Nat} {a : A} (h : element s i a = none) :
    ∀ j, element s (i + j) a = none := by
  intro j
  unfold element at h ⊢
  rw [tail_add]
  cases ht : tail s i a with
  | none => rfl
  | some d =>
    rw [ht] at h
    simp only [Option.map_eq_none_iff] at h
    simp only [Option.bind_some]
    cases j with
    | zero => simp [tail, h]
    | succ j => simp [tail, h]

/-- **C106 (circular lists).** A circular list has an element at every position. -/
theorem C106_circular {s : Cells A V} {a : A} (h : IsCircular s a) (i : Nat) : element s i a ≠ none := by
  obtain ⟨j, k, d, hk, hj, hd⟩ := h
  have hloop : ∀ n, tail s (k * n) d = some d := by
    intro n
    induction n with
    | zero => rfl
    | succ n ih => rw [Nat.mul_succ, tail_add, ih]; exact hd
  have htail : tail s (j + k * (i + 1)) a = some d := by
    rw [tail_add, hj]
    exact hloop _
  intro hi
  have hge : i + 1 ≤ k * (i + 1) := Nat.le_mul_of_pos_left _ hk
  have h1 := element_none hi (j + k * (i + 1) - 1 - i)
  rw [show i + (j + k * (i + 1) - 1 - i) = j + k * (i + 1) - 1 by omega] at h1
  unfold element at h1
  have h2 : tail s (j + k * (i + 1)) a = (tail s (j + k * (i + 1) - 1) a).bind (tail s 1) := by
    rw [← tail_add]
    congr 1
    omega
  rw [htail] at h2
  cases ht : tail s (j + k * (i + 1) - 1) a with
  | none => rw [ht] at h2; cases h2
  | some e =>
    rw [ht] at h1 h2
    simp only [Option.map_eq_none_iff] at h1
    simp [tail, h1] at h2

/-- **C106 (shortest).** Of lists one of which has an end, one is the shortest. -/
theorem C106_shortest {s : Cells A V} {as : List A} (h : ∃ a ∈ as, IsProper s a) : ∃ n, Shortest s as n := by
  classical
  have h' : ∃ n, ∃ a ∈ as, element s n a = none := by
    obtain ⟨a, ha, n, hn⟩ := h
    exact ⟨n, a, ha, hn⟩
  refine ⟨Nat.find h', fun i hi a ha he => Nat.find_min h' hi ⟨a, ha, he⟩, Nat.find_spec h'⟩

theorem carsCdrsLoop_eq (s : Cells A V) : ∀ as : List A,
    carsCdrsLoop s as = if someNull s as then none else some (cars s as, cdrs s as) := by
  intro as
  induction as with
  | nil => rfl
  | cons a as ih =>
    rw [carsCdrsLoop]
    cases h : s a with
    | none => simp [someNull, h]
    | some p =>
      obtain ⟨v, d⟩ := p
      simp only [ih]
      have e1 : someNull s (a :: as) = someNull s as := by simp [someNull, h]
      have e2 : cars s (a :: as) = v :: cars s as := by simp [cars, h]
      have e3 : cdrs s (a :: as) = d :: cdrs s as := by simp [cdrs, h]
      rw [e1, e2, e3]
      split <;> simp_all

theorem Spec.Shortest.zero {s : Cells A V} {as : List A} (h : Shortest s as 0) : someNull s as = true := by
  obtain ⟨_, a, ha, hn⟩ := h
  rw [element_zero, Option.map_eq_none_iff] at hn
  exact List.any_eq_true.2 ⟨a, ha, by simp [hn]⟩

theorem columns_succ (s : Cells A V) (as : List A) (n : Nat) :
    columns s as (n + 1) = cars s as :: columns s (cdrs s as) n := by
  simp only [columns, List.range_succ_eq_map, List.map_cons, List.map_map, cdrs, List.filterMap_filterMap]
  refine congrArg (List.cons _) (List.map_congr_left fun i _ => ?_)
  exact congrArg (fun g => List.filterMap g as) (funext fun a => element_succ s i a)

theorem Spec.Shortest.succ {s : Cells A V} {as : List A} {n : Nat} (h : Shortest s as (n + 1)) :
    someNull s as = false ∧ cars s as ≠ [] ∧ Shortest s (cdrs s as) n := by
  obtain ⟨h1, a, ha, hn⟩ := h
  have hpair : ∀ b ∈ as, ∃ p, s b = some p := by
    intro b hb
    have := h1 0 (by omega) b hb
    rw [element_zero] at this
    cases hs : s b with
    | none => simp [hs] at this
    | some p => exact ⟨p, rfl⟩
  refine ⟨?_, ?_, ?_, ?_⟩
  · rw [someNull, List.any_eq_false]
    intro b hb
    obtain ⟨p, hp⟩ := hpair b hb
    simp [hp]
  · obtain ⟨p, hp⟩ := hpair a ha
    intro hc
    have : p.1 ∈ cars s as := List.mem_filterMap.2 ⟨a, ha, by simp [hp]⟩
    rw [hc] at this
    cases this
  · intro i hi d hd
    obtain ⟨b, hb, hbd⟩ := List.mem_filterMap.1 hd
    have := h1 (i + 1) (by omega) b hb
    rw [element_succ, hbd] at this
    exact this
  · obtain ⟨p, hp⟩ := hpair a ha
    refine ⟨p.2, List.mem_filterMap.2 ⟨a, ha, by simp [hp]⟩, ?_⟩
    rw [element_succ, hp] at hn
    exact hn

theorem carsCdrs_stop {s : Cells A V} {as : List A} (h : someNull s as = true) : carsCdrs s as = ([], []) := by
  rw [carsCdrs, carsCdrsLoop_eq, if_pos h]

theorem carsCdrs_step {s : Cells A V} {as : List A} (h : someNull s as = false) :
    carsCdrs s as = (cars s as, cdrs s as) := by
  rw [carsCdrs, carsCdrsLoop_eq, if_neg (by simp [h])]

theorem cars_isEmpty {s : Cells A V} {as : List A} (h : cars s as ≠ []) : (cars s as).isEmpty = false := by
  cases hc : cars s as with
  | nil => exact absurd hc h
  | cons _ _ => rfl

/-! ### Several lists -/

theorem mapN_eq (s : Cells A V) (f : List V → m β) : ∀ (n k : Nat) (as : List A) (a : List β), n < k →
    Shortest s as n →
    mapN s f k as a = (do let ys ← (columns s as n).mapM f; pure (some (a.reverse ++ ys))) := by
  intro n
  induction n with
  | zero =>
    intro k as a hk h
    obtain ⟨k, rfl⟩ : ∃ j, k = j + 1 := ⟨k - 1, by omega⟩
    rw [mapN, if_pos h.zero]
    simp [columns]
  | succ n ih =>
    intro k as a hk h
    obtain ⟨k, rfl⟩ : ∃ j, k = j + 1 := ⟨k - 1, by omega⟩
    obtain ⟨h1, h2, h3⟩ := h.succ
    rw [mapN, if_neg (by simp [h1]), columns_succ]
    simp only [ih k _ _ (by omega) h3, List.mapM_cons, List.reverse_cons, bind_assoc, pure_bind,
      List.append_assoc, List.singleton_append]

/-- **C106 (map, for-each).** With several lists the shortest of which has `n` elements, be the others circular or
not, `map` ends, calls the procedure on the first `n` columns in order and returns its results; so does
`for-each`. -/
theorem C106_map {s : Cells A V} (f : List V → m β) {n k : Nat} {as : List A} (h : Shortest s as n) (hk : n < k) :
    map s f k as = (do let ys ← (columns s as n).mapM f; pure (some ys)) ∧
    forEach s f k as = (do let _ ← (columns s as n).mapM f; pure (some ())) := by
  have : map s f k as = (do let ys ← (columns s as n).mapM f; pure (some ys)) := by
    rw [map, mapN_eq s f n k as [] hk h]
    rfl
  refine ⟨this, ?_⟩
  rw [forEach, this]
  simp

/-- **C106 (fold).** -/
theorem C106_fold {s : Cells A V} (f : List V → m V) : ∀ {n k : Nat} {as : List A} (z : V), Shortest s as n → n < k →
    fold s f k as z =
      (do let r ← (columns s as n).foldlM (fun acc col => f (col ++ [acc])) z; pure (some r)) := by
  intro n
  induction n with
  | zero =>
    intro k as z h hk
    obtain ⟨k, rfl⟩ : ∃ j, k = j + 1 := ⟨k - 1, by omega⟩
    have : carsCdrsPlus s as z = ([], []) := by rw [carsCdrsPlus, carsCdrsLoop_eq, if_pos h.zero]
    rw [fold, this]
    simp [columns]
  | succ n ih =>
    intro k as z h hk
    obtain ⟨k, rfl⟩ : ∃ j, k = j + 1 := ⟨k - 1, by omega⟩
    obtain ⟨h1, h2, h3⟩ := h.succ
    have : carsCdrsPlus s as z = (cars s as ++ [z], cdrs s as) := by
      rw [carsCdrsPlus, carsCdrsLoop_eq, if_neg (by simp [h1])]
    rw [fold, this, columns_succ]
    have hne : (cars s as ++ [z]).isEmpty = false := by simp
    simp only [hne, Bool.false_eq_true, if_false, List.foldlM_cons, bind_assoc]
    exact congrArg _ (funext fun y => ih y h3 (show n < k by omega))

/-- **C106 (map-in-order).** -/
theorem C106_map_in_order {s : Cells A V} (f : List V → m β) : ∀ {n k : Nat} {as : List A}, Shortest s as n → n < k →
    mapInOrder s f k as = (do let ys ← (columns s as n).mapM f; pure (some ys)) := by
  intro n
  induction n with
  | zero =>
    intro k as h hk
    obtain ⟨k, rfl⟩ : ∃ j, k = j + 1 := ⟨k - 1, by omega⟩
    rw [mapInOrder, carsCdrs_stop h.zero]
    simp [columns]
  | succ n ih =>
    intro k as h hk
    obtain ⟨k, rfl⟩ : ∃ j, k = j + 1 := ⟨k - 1, by omega⟩
    obtain ⟨h1, h2, h3⟩ := h.succ
    rw [mapInOrder, carsCdrs_step h1, columns_succ]
    simp only [cars_isEmpty h2, Bool.false_eq_true, if_false, ih h3 (show n < k by omega), List.mapM_cons,
      bind_assoc, pure_bind, Option.map_some]

/-- **C106 (filter-map).** -/
theorem C106_filter_map {s : Cells A V} (f : List V → m B) : ∀ {n k : Nat} {as : List A}, Shortest s as n → n < k →
    filterMap s f k as =
      (do let ys ← (columns s as n).mapM f; pure (some (ys.filter fun y => !isFalse y))) := by
  intro n
  induction n with
  | zero =>
    intro k as h hk
    obtain ⟨k, rfl⟩ : ∃ j, k = j + 1 := ⟨k - 1, by omega⟩
    rw [filterMap, carsCdrs_stop h.zero]
    simp [columns]
  | succ n ih =>
    intro k as h hk
    obtain ⟨k, rfl⟩ : ∃ j, k = j + 1 := ⟨k - 1, by omega⟩
    obtain ⟨h1, h2, h3⟩ := h.succ
    rw [filterMap, carsCdrs_step h1, columns_succ]
    simp only [cars_isEmpty h2, Bool.false_eq_true, if_false, ih h3 (show n < k by omega), List.mapM_cons,
      bind_assoc, pure_bind, Option.map_some]
    refine congrArg _ (funext fun y => congrArg _ (funext fun ys => ?_))
    cases hy : isFalse y <;> simp [hy]

theorem countLoop_eq {s : Cells A V} (satisfy : List V → m B) : ∀ {n k : Nat} {x : A} {xs : List A} (i : Nat),
    xs ≠ [] → Shortest s (x :: xs) n → n < k →
    countLoop s satisfy k x xs i =
      (do let bs ← (columns s (x :: xs) n).mapM satisfy; pure (some (i + bs.countP fun b => !isFalse b))) := by
  intro n
  induction n with
  | zero =>
    intro k x xs i hx h hk
    obtain ⟨k, rfl⟩ : ∃ j, k = j + 1 := ⟨k - 1, by omega⟩
    rw [countLoop]
    have h0 := h.zero
    cases hs : s x with
    | none => simp [columns]
    | some p =>
      have : someNull s xs = true := by
        simpa [someNull, hs] using h0
      simp [carsCdrs_stop this, columns]
  | succ n ih =>
    intro k x xs i hx h hk
    obtain ⟨k, rfl⟩ : ∃ j, k = j + 1 := ⟨k - 1, by omega⟩
    obtain ⟨h1, h2, h3⟩ := h.succ
    cases hs : s x with
    | none => simp [someNull, hs] at h1
    | some p =>
      obtain ⟨v, d⟩ := p
      have e1 : someNull s xs = false := by simpa [someNull, hs] using h1
      have e2 : cars s (x :: xs) = v :: cars s xs := by simp [cars, hs]
      have e3 : cdrs s (x :: xs) = d :: cdrs s xs := by simp [cdrs, hs]
      have e4 : cars s xs ≠ [] ∧ cdrs s xs ≠ [] := by
        obtain ⟨y, ys, rfl⟩ := List.exists_cons_of_ne_nil hx
        cases hy : s y with
        | none => simp [someNull, hy] at e1
        | some q => exact ⟨by simp [cars, hy], by simp [cdrs, hy]⟩
      rw [countLoop, columns_succ, e2]
      simp only [hs, carsCdrs_step e1, cars_isEmpty e4.1, Bool.false_eq_true, if_false, List.mapM_cons, bind_assoc,
        pure_bind]
      rw [e3] at h3 ⊢
      refine congrArg _ (funext fun b => ?_)
      rw [ih _ e4.2 h3 (by omega)]
      refine congrArg _ (funext fun bs => ?_)
      rw [List.countP_cons]
      cases hb : isFalse b <;> simp [hb, Nat.add_assoc, Nat.add_comm 1]

/-- **C106 (count).** -/
theorem C106_count {s : Cells A V} (satisfy : List V → m B) {n k : Nat} {x y : A} {xs : List A}
    (h : Shortest s (x :: y :: xs) n) (hk : n < k) :
    countLoop s satisfy k x (y :: xs) 0 =
      (do let bs ← (columns s (x :: y :: xs) n).mapM satisfy; pure (some (bs.countP fun b => !isFalse b))) := by
  rw [countLoop_eq satisfy 0 (by simp) h hk]
  simp

theorem anyLoop_eq {s : Cells A V} (satisfy : List V → m B) : ∀ {n k : Nat} {as : List A} (heads : List V),
    Shortest s as n → n < k →
    anyLoop s satisfy k heads as =
      (do let b ← firstTrue satisfy (heads :: columns s as n); pure (some b)) := by
  intro n
  induction n with
  | zero =>
    intro k as heads h hk
    obtain ⟨k, rfl⟩ : ∃ j, k = j + 1 := ⟨k - 1, by omega⟩
    rw [anyLoop, carsCdrs_stop h.zero]
    simp only [List.isEmpty_nil, if_true, columns, List.range_zero, List.map_nil, firstTrue, List.foldr_cons,
      List.foldr_nil, bind_assoc]
    refine congrArg _ (funext fun b => ?_)
    by_cases hb : isFalse b = true
    · rw [if_pos hb, (Objects.isFalse_iff b).1 hb, pure_bind]
    · rw [if_neg hb, pure_bind]
  | succ n ih =>
    intro k as heads h hk
    obtain ⟨k, rfl⟩ : ∃ j, k = j + 1 := ⟨k - 1, by omega⟩
    obtain ⟨h1, h2, h3⟩ := h.succ
    rw [anyLoop, carsCdrs_step h1, columns_succ]
    simp only [cars_isEmpty h2, Bool.false_eq_true, if_false, ih _ h3 (show n < k by omega)]
    conv => rhs; rw [firstTrue, List.foldr_cons, bind_assoc]
    refine congrArg _ (funext fun b => ?_)
    by_cases hb : isFalse b = true
    · rw [if_pos hb, if_pos hb]
      rfl
    · rw [if_neg hb, if_neg hb, pure_bind]

/-- **C106 (any).** `any` returns the first result other than `#f`, and does not call the predicate after that. -/
theorem C106_any {s : Cells A V} (satisfy : List V → m B) {n k : Nat} {as : List A} (h : Shortest s as n) (hk : n < k) :
    any s satisfy k as = (do let b ← firstTrue satisfy (columns s as n); pure (some b)) := by
  cases n with
  | zero =>
    rw [any, carsCdrs_stop h.zero]
    simp [columns, firstTrue]
  | succ n =>
    obtain ⟨h1, h2, h3⟩ := h.succ
    rw [any, carsCdrs_step h1, columns_succ]
    simp only [cars_isEmpty h2, Bool.false_eq_true, if_false]
    exact anyLoop_eq satisfy _ h3 (by omega)

theorem everyLoop_eq {s : Cells A V} (satisfy : List V → m B) : ∀ {n k : Nat} {as : List A} (heads : List V),
    Shortest s as n → n < k →
    everyLoop s satisfy k heads as =
      (do let b ← Srfi1.everyLoop satisfy heads (columns s as n); pure (some b)) := by
  intro n
  induction n with
  | zero =>
    intro k as heads h hk
    obtain ⟨k, rfl⟩ : ∃ j, k = j + 1 := ⟨k - 1, by omega⟩
    rw [everyLoop, carsCdrs_stop h.zero]
    rfl
  | succ n ih =>
    intro k as heads h hk
    obtain ⟨k, rfl⟩ : ∃ j, k = j + 1 := ⟨k - 1, by omega⟩
    obtain ⟨h1, h2, h3⟩ := h.succ
    rw [everyLoop, carsCdrs_step h1, columns_succ]
    simp only [cars_isEmpty h2, Bool.false_eq_true, if_false, ih _ h3 (show n < k by omega), Srfi1.everyLoop,
      bind_assoc]
    refine congrArg _ (funext fun b => ?_)
    by_cases hb : isFalse b = true
    · rw [if_pos hb, if_pos hb, pure_bind]
    · rw [if_neg hb, if_neg hb]

/-- **C106 (every).** `every` returns `#t` if the shortest list is empty, and otherwise the last result if all
are other than `#f`; it stops at the first `#f`. -/
theorem C106_every {s : Cells A V} (satisfy : List V → m B) {n k : Nat} {as : List A} (h : Shortest s as n)
    (hk : n < k) :
    (n = 0 → every s satisfy k as = pure (some yes)) ∧
    (∀ cols last, columns s as n = cols ++ [last] →
      every s satisfy k as = (do let b ← lastTrue satisfy cols last; pure (some b))) := by
  constructor
  · rintro rfl
    rw [every, carsCdrs_stop h.zero]
    rfl
  · intro cols last hc
    cases n with
    | zero => simp [columns] at hc
    | succ n =>
      obtain ⟨h1, h2, h3⟩ := h.succ
      rw [columns_succ] at hc
      rw [every, carsCdrs_step h1]
      simp only [cars_isEmpty h2, Bool.false_eq_true, if_false]
      rw [everyLoop_eq satisfy _ h3 (by omega)]
      cases cols with
      | nil =>
        simp only [List.nil_append, List.cons.injEq] at hc
        rw [hc.1, hc.2]
        rfl
      | cons c cs =>
        simp only [List.cons_append, List.cons.injEq] at hc
        rw [hc.1, hc.2, Srfi1.everyLoop_eq]

theorem listIndex_eq {s : Cells A V} (satisfy : List V → m B) : ∀ {n k : Nat} {as : List A} (i : Nat),
    Shortest s as n → n < k →
    listIndex s satisfy k as i = (do let r ← firstIndex satisfy (columns s as n) i; pure (some r)) := by
  intro n
  induction n with
  | zero =>
    intro k as i h hk
    obtain ⟨k, rfl⟩ : ∃ j, k = j + 1 := ⟨k - 1, by omega⟩
    rw [listIndex, carsCdrs_stop h.zero]
    simp [columns, firstIndex]
  | succ n ih =>
    intro k as i h hk
    obtain ⟨k, rfl⟩ : ∃ j, k = j + 1 := ⟨k - 1, by omega⟩
    obtain ⟨h1, h2, h3⟩ := h.succ
    rw [listIndex, carsCdrs_step h1, columns_succ]
    simp only [cars_isEmpty h2, Bool.false_eq_true, if_false, ih _ h3 (show n < k by omega), firstIndex, bind_assoc]
    refine congrArg _ (funext fun b => ?_)
    by_cases hb : isFalse b = true
    · rw [if_pos hb, if_pos hb]
    · rw [if_neg hb, if_neg hb, pure_bind]

/-- **C106 (list-index).** -/
theorem C106_list_index {s : Cells A V} (satisfy : List V → m B) {n k : Nat} {as : List A} (h : Shortest s as n)
    (hk : n < k) :
    listIndex s satisfy k as 0 = (do let r ← firstIndex satisfy (columns s as n) 0; pure (some r)) :=
  listIndex_eq satisfy 0 h hk

theorem cdrsOrNull_stop {s : Cells A V} {as : List A} (h : someNull s as = true) : cdrsOrNull s as = [] := by
  rw [cdrsOrNull, carsCdrsLoop_eq, if_pos h]

theorem cdrsOrNull_step {s : Cells A V} {as : List A} (h : someNull s as = false) :
    cdrsOrNull s as = cdrs s as := by
  rw [cdrsOrNull, carsCdrsLoop_eq, if_neg (by simp [h])]

theorem cdrs_isEmpty {s : Cells A V} {as : List A} (h : cars s as ≠ []) : (cdrs s as).isEmpty = false := by
  have : (cars s as).length = (cdrs s as).length := by
    induction as with
    | nil => rfl
    | cons a as ih =>
      by_cases hc : cars s as = []
      · have : cdrs s as = [] := by
          rw [cars, List.filterMap_eq_nil_iff] at hc
          rw [cdrs, List.filterMap_eq_nil_iff]
          intro b hb
          have := hc b hb
          simp only [Option.map_eq_none_iff] at this ⊢
          exact this
        simp only [cars, cdrs, List.filterMap_cons] at hc this ⊢
        cases s a <;> simp [hc, this]
      · have := ih hc
        simp only [cars, cdrs, List.filterMap_cons] at this ⊢
        cases s a <;> simp [this]
  cases hd : cdrs s as with
  | nil =>
    rw [hd] at this
    exact absurd (List.length_eq_zero_iff.1 this) h
  | cons _ _ => rfl

/-- **C106 (fold-right).** -/
theorem C106_fold_right {s : Cells A V} (f : List V → m V) (z : V) : ∀ {n k : Nat} {as : List A}, Shortest s as n →
    n < k →
    foldRight s f z k as =
      (do let r ← (columns s as n).foldrM (fun col acc => f (col ++ [acc])) z; pure (some r)) := by
  intro n
  induction n with
  | zero =>
    intro k as h hk
    obtain ⟨k, rfl⟩ : ∃ j, k = j + 1 := ⟨k - 1, by omega⟩
    rw [foldRight, cdrsOrNull_stop h.zero]
    simp [columns]
  | succ n ih =>
    intro k as h hk
    obtain ⟨k, rfl⟩ : ∃ j, k = j + 1 := ⟨k - 1, by omega⟩
    obtain ⟨h1, h2, h3⟩ := h.succ
    rw [foldRight, cdrsOrNull_step h1, columns_succ]
    simp only [cdrs_isEmpty h2, Bool.false_eq_true, if_false, ih h3 (show n < k by omega), List.foldrM_cons,
      bind_assoc, pure_bind, carsPlus]

theorem tails_succ (s : Cells A V) (as : List A) (n : Nat) :
    tailsAt s as (n + 1) = as :: tailsAt s (cdrs s as) n := by
  simp only [tailsAt, List.range_succ_eq_map, List.map_cons, List.map_map, cdrs, List.filterMap_filterMap]
  have h0 : as.filterMap (tail s 0) = as := by
    induction as with
    | nil => rfl
    | cons a as ih => simp [tail, ih]
  rw [h0]
  refine congrArg (List.cons _) (List.map_congr_left fun i _ => ?_)
  refine congrArg (fun g => List.filterMap g as) (funext fun a => ?_)
  change tail s (i + 1) a = _
  rw [tail]
  cases s a <;> rfl

/-- **C106 (pair-for-each).** The procedure is called on the lists, then on their tails, and so on. -/
theorem C106_pair_for_each {s : Cells A V} (f : List A → m β) : ∀ {n k : Nat} {as : List A}, Shortest s as n → n < k →
    pairForEach s f k as = (do let _ ← (tailsAt s as n).mapM f; pure (some ())) := by
  intro n
  induction n with
  | zero =>
    intro k as h hk
    obtain ⟨k, rfl⟩ : ∃ j, k = j + 1 := ⟨k - 1, by omega⟩
    rw [pairForEach, cdrsOrNull_stop h.zero]
    simp [tailsAt]
  | succ n ih =>
    intro k as h hk
    obtain ⟨k, rfl⟩ : ∃ j, k = j + 1 := ⟨k - 1, by omega⟩
    obtain ⟨h1, h2, h3⟩ := h.succ
    rw [pairForEach, cdrsOrNull_step h1, tails_succ]
    simp only [cdrs_isEmpty h2, Bool.false_eq_true, if_false, ih h3 (show n < k by omega), List.mapM_cons,
      bind_assoc, pure_bind]

theorem appendMapLoop_eq {s : Cells A V} (f : List V → m (List β)) : ∀ {n k : Nat} {as : List A} (heads : List V),
    Shortest s as n → n < k →
    appendMapLoop s f k heads as =
      (do let ys ← (heads :: columns s as n).mapM f; pure (some ys.flatten)) := by
  intro n
  induction n with
  | zero =>
    intro k as heads h hk
    obtain ⟨k, rfl⟩ : ∃ j, k = j + 1 := ⟨k - 1, by omega⟩
    rw [appendMapLoop, carsCdrs_stop h.zero]
    simp [columns]
  | succ n ih =>
    intro k as heads h hk
    obtain ⟨k, rfl⟩ : ∃ j, k = j + 1 := ⟨k - 1, by omega⟩
    obtain ⟨h1, h2, h3⟩ := h.succ
    rw [appendMapLoop, carsCdrs_step h1, columns_succ]
    simp only [cars_isEmpty h2, Bool.false_eq_true, if_false, ih _ h3 (show n < k by omega), List.mapM_cons,
      bind_assoc, pure_bind, Option.map_some, List.flatten_cons]

/-- **C106 (append-map).** -/
theorem C106_append_map {s : Cells A V} (f : List V → m (List β)) {n k : Nat} {as : List A} (h : Shortest s as n)
    (hk : n < k) :
    appendMap s f k as = (do let ys ← (columns s as n).mapM f; pure (some ys.flatten)) := by
  cases n with
  | zero =>
    rw [appendMap, carsCdrs_stop h.zero]
    simp [columns]
  | succ n =>
    obtain ⟨h1, h2, h3⟩ := h.succ
    rw [appendMap, carsCdrs_step h1, columns_succ]
    simp only [cars_isEmpty h2, Bool.false_eq_true, if_false]
    exact appendMapLoop_eq f _ h3 (by omega)

/-! ### One list -/

theorem front_succ {s : Cells A V} {a : A} {v : V} {d : A} (h : s a = some (v, d)) (n : Nat) :
    front s (n + 1) a = v :: front s n d := by
  have h0 : element s 0 a = some v := by rw [element_zero, h]; rfl
  simp only [front, List.range_succ_eq_map, List.filterMap_cons, h0, List.filterMap_map]
  refine congrArg (List.cons v) (congrArg (fun g => List.filterMap g _) (funext fun i => ?_))
  change element s (i + 1) a = _
  rw [element_succ, h]
  rfl

theorem Spec.First.zero {s : Cells A V} {p : V → Bool} {a : A} {v : V} (h : First s p a 0 v) :
    p v = true ∧ ∃ d, s a = some (v, d) := by
  obtain ⟨h1, h2, _⟩ := h
  rw [element_zero] at h1
  cases hs : s a with
  | none => simp [hs] at h1
  | some q =>
    rw [hs] at h1
    cases h1
    exact ⟨h2, q.2, rfl⟩

theorem Spec.First.succ {s : Cells A V} {p : V → Bool} {a : A} {n : Nat} {v : V} (h : First s p a (n + 1) v) :
    ∃ w d, s a = some (w, d) ∧ p w = false ∧ First s p d n v ∧ tail s (n + 1) a = tail s n d := by
  obtain ⟨h1, h2, h3⟩ := h
  obtain ⟨w, hw, hp⟩ := h3 0 (by omega)
  rw [element_zero] at hw
  cases hs : s a with
  | none => simp [hs] at hw
  | some q =>
    rw [hs] at hw
    cases hw
    refine ⟨q.1, q.2, rfl, hp, ⟨?_, h2, fun i hi => ?_⟩, by rw [tail, hs]⟩
    · rw [element_succ, hs] at h1
      exact h1
    · obtain ⟨u, hu, hpu⟩ := h3 (i + 1) (by omega)
      rw [element_succ, hs] at hu
      exact ⟨u, hu, hpu⟩

section
variable {s : Cells A V} {satisfy : V → m B} {note : V → m Unit} {q : V → B}

theorem findTail_eq (hs : Answers satisfy note q) : ∀ {n k : Nat} {a : A} {v : V},
    First s (fun v => !isFalse (q v)) a n v → n < k →
    findTail s satisfy k a = (do (front s (n + 1) a).forM note; pure (some (tail s n a))) := by
  intro n
  induction n with
  | zero =>
    intro k a v h hk
    obtain ⟨k, rfl⟩ : ∃ j, k = j + 1 := ⟨k - 1, by omega⟩
    obtain ⟨h1, d, h2⟩ := h.zero
    simp only [Bool.not_eq_true'] at h1
    rw [findTail, front_succ h2]
    simp [h2, h1, hs v, front, tail]
  | succ n ih =>
    intro k a v h hk
    obtain ⟨k, rfl⟩ : ∃ j, k = j + 1 := ⟨k - 1, by omega⟩
    obtain ⟨w, d, h1, h2, h3, h4⟩ := h.succ
    simp only [Bool.not_eq_false'] at h2
    rw [findTail, front_succ h1]
    simp [h1, hs w, h2, h4, ih h3 (show n < k by omega)]

theorem listIndexOne_eq (hs : Answers satisfy note q) : ∀ {n k : Nat} {a : A} {v : V} (i : Nat),
    First s (fun v => !isFalse (q v)) a n v → n < k →
    listIndexOne s satisfy k a i = (do (front s (n + 1) a).forM note; pure (some (some (i + n)))) := by
  intro n
  induction n with
  | zero =>
    intro k a v i h hk
    obtain ⟨k, rfl⟩ : ∃ j, k = j + 1 := ⟨k - 1, by omega⟩
    obtain ⟨h1, d, h2⟩ := h.zero
    simp only [Bool.not_eq_true'] at h1
    rw [listIndexOne, front_succ h2]
    simp [h2, h1, hs v, front, tail]
  | succ n ih =>
    intro k a v i h hk
    obtain ⟨k, rfl⟩ : ∃ j, k = j + 1 := ⟨k - 1, by omega⟩
    obtain ⟨w, d, h1, h2, h3, h4⟩ := h.succ
    simp only [Bool.not_eq_false'] at h2
    rw [listIndexOne, front_succ h1]
    simp [h1, hs w, h2, h4, ih (i + 1) h3 (show n < k by omega), Nat.add_assoc, Nat.add_comm 1]

theorem takeWhile_eq (hs : Answers satisfy note q) : ∀ {n k : Nat} {a : A} {v : V},
    First s (fun v => isFalse (q v)) a n v → n < k →
    takeWhile s satisfy k a = (do (front s (n + 1) a).forM note; pure (some (front s n a))) := by
  intro n
  induction n with
  | zero =>
    intro k a v h hk
    obtain ⟨k, rfl⟩ : ∃ j, k = j + 1 := ⟨k - 1, by omega⟩
    obtain ⟨h1, d, h2⟩ := h.zero
    rw [takeWhile, front_succ h2]
    simp [h2, h1, hs v, front, tail]
  | succ n ih =>
    intro k a v h hk
    obtain ⟨k, rfl⟩ : ∃ j, k = j + 1 := ⟨k - 1, by omega⟩
    obtain ⟨w, d, h1, h2, h3, h4⟩ := h.succ
    rw [takeWhile, front_succ h1]
    simp [h1, hs w, h2, h4, ih h3 (show n < k by omega), front_succ h1]

theorem span_eq (hs : Answers satisfy note q) : ∀ {n k : Nat} {a : A} {v : V},
    First s (fun v => isFalse (q v)) a n v → n < k →
    span s satisfy k a = (do (front s (n + 1) a).forM note; pure (some (front s n a, tail s n a))) := by
  intro n
  induction n with
  | zero =>
    intro k a v h hk
    obtain ⟨k, rfl⟩ : ∃ j, k = j + 1 := ⟨k - 1, by omega⟩
    obtain ⟨h1, d, h2⟩ := h.zero
    rw [span, front_succ h2]
    simp [h2, h1, hs v, front, tail]
  | succ n ih =>
    intro k a v h hk
    obtain ⟨k, rfl⟩ : ∃ j, k = j + 1 := ⟨k - 1, by omega⟩
    obtain ⟨w, d, h1, h2, h3, h4⟩ := h.succ
    rw [span, front_succ h1]
    simp [h1, hs w, h2, h4, ih h3 (show n < k by omega), front_succ h1]

theorem anyOne_eq (hs : Answers satisfy note q) : ∀ {n k : Nat} {a d : A} {u v : V}, s a = some (u, d) →
    First s (fun v => !isFalse (q v)) a n v → n < k →
    anyOne s satisfy k u d = (do (front s (n + 1) a).forM note; pure (some (q v))) := by
  intro n
  induction n with
  | zero =>
    intro k a d u v ha h hk
    obtain ⟨k, rfl⟩ : ∃ j, k = j + 1 := ⟨k - 1, by omega⟩
    obtain ⟨h1, d', h2⟩ := h.zero
    rw [ha] at h2
    cases h2
    simp only [Bool.not_eq_true'] at h1
    rw [anyOne, front_succ ha]
    cases hd : s d <;> simp [h1, hs u, front]
  | succ n ih =>
    intro k a d u v ha h hk
    obtain ⟨k, rfl⟩ : ∃ j, k = j + 1 := ⟨k - 1, by omega⟩
    obtain ⟨w, d', h1, h2, h3, -⟩ := h.succ
    rw [ha] at h1
    cases h1
    simp only [Bool.not_eq_false'] at h2
    obtain ⟨p, hp⟩ : ∃ p, s d = some p := by
      cases n with
      | zero => exact ⟨_, h3.zero.2.choose_spec⟩
      | succ n =>
        obtain ⟨w, e, he, _⟩ := h3.succ
        exact ⟨_, he⟩
    rw [anyOne, front_succ ha]
    simp [hp, hs u, h2, ih hp h3 (show n < k by omega)]

theorem everyOne_eq (hs : Answers satisfy note q) : ∀ {n k : Nat} {a d : A} {u v : V}, s a = some (u, d) →
    First s (fun v => isFalse (q v)) a n v → n < k →
    everyOne s satisfy k u d = (do (front s (n + 1) a).forM note; pure (some no)) := by
  intro n
  induction n with
  | zero =>
    intro k a d u v ha h hk
    obtain ⟨k, rfl⟩ : ∃ j, k = j + 1 := ⟨k - 1, by omega⟩
    obtain ⟨h1, d', h2⟩ := h.zero
    rw [ha] at h2
    cases h2
    rw [everyOne, front_succ ha]
    cases hd : s d with
    | none => simp [hs u, front, (Objects.isFalse_iff _).1 h1]
    | some p => simp [h1, hs u, front]
  | succ n ih =>
    intro k a d u v ha h hk
    obtain ⟨k, rfl⟩ : ∃ j, k = j + 1 := ⟨k - 1, by omega⟩
    obtain ⟨w, d', h1, h2, h3, -⟩ := h.succ
    rw [ha] at h1
    cases h1
    obtain ⟨p, hp⟩ : ∃ p, s d = some p := by
      cases n with
      | zero => exact ⟨_, h3.zero.2.choose_spec⟩
      | succ n =>
        obtain ⟨w, e, he, _⟩ := h3.succ
        exact ⟨_, he⟩
    rw [everyOne, front_succ ha]
    simp [hp, hs u, h2, ih hp h3 (show n < k by omega)]

/-- **C106 (searching).** If the first element of a list, circular or not, for which the predicate does not
return `#f` is at position `n`, then `find-tail`, `find`, `any` and `list-index` end after they have called the
predicate on the elements up to that one, and return the tail there, the element, the value of the predicate and
the position. -/
theorem C106_search {n k : Nat} {a : A} {v : V} (hs : Answers satisfy note q)
    (h : First s (fun v => !isFalse (q v)) a n v) (hk : n < k) :
    findTail s satisfy k a = (do (front s (n + 1) a).forM note; pure (some (tail s n a))) ∧
    find s satisfy k a = (do (front s (n + 1) a).forM note; pure (some (some v))) ∧
    any1 s satisfy k a = (do (front s (n + 1) a).forM note; pure (some (q v))) ∧
    listIndexOne s satisfy k a 0 = (do (front s (n + 1) a).forM note; pure (some (some n))) := by
  have hf := findTail_eq hs h hk
  refine ⟨hf, ?_, ?_, ?_⟩
  · have he : (tail s n a).bind (fun d => (s d).map Prod.fst) = some v := by
      rw [← h.1, element]
      cases tail s n a <;> rfl
    rw [find, hf]
    simp [he]
  · obtain ⟨p, hp⟩ : ∃ p, s a = some p := by
      cases n with
      | zero => exact ⟨_, h.zero.2.choose_spec⟩
      | succ n =>
        obtain ⟨w, e, he, _⟩ := h.succ
        exact ⟨_, he⟩
    rw [any1]
    simp only [hp]
    exact anyOne_eq hs hp h hk
  · have := listIndexOne_eq hs 0 h hk
    rwa [Nat.zero_add] at this

/-- **C106 (prefixes).** If the first element for which the predicate returns `#f` is at position `n`, then
`every`, `take-while` and `span` end after they have called the predicate on the elements up to that one, and
return `#f`, the elements before it, and these and the tail there. -/
theorem C106_prefix {n k : Nat} {a : A} {v : V} (hs : Answers satisfy note q)
    (h : First s (fun v => isFalse (q v)) a n v) (hk : n < k) :
    every1 s satisfy k a = (do (front s (n + 1) a).forM note; pure (some no)) ∧
    takeWhile s satisfy k a = (do (front s (n + 1) a).forM note; pure (some (front s n a))) ∧
    span s satisfy k a = (do (front s (n + 1) a).forM note; pure (some (front s n a, tail s n a))) := by
  refine ⟨?_, takeWhile_eq hs h hk, span_eq hs h hk⟩
  obtain ⟨p, hp⟩ : ∃ p, s a = some p := by
    cases n with
    | zero => exact ⟨_, h.zero.2.choose_spec⟩
    | succ n =>
      obtain ⟨w, e, he, _⟩ := h.succ
      exact ⟨_, he⟩
  rw [every1]
  simp only [hp]
  exact everyOne_eq hs hp h hk

end

/-! ### Examples -/

/-- `#0=(1 2 . #0#)` at 0 and `(3 4 5)` at 2. -/
def exampleCells : Cells Nat Nat := fun a =>
  if a = 0 then some (1, 1) else if a = 1 then some (2, 0) else if a = 2 then some (3, 3)
  else if a = 3 then some (4, 4) else if a = 4 then some (5, 5) else none

/-- The hypotheses of C106 hold of a circular list beside a proper one. -/
theorem C106_example :
    IsCircular exampleCells 0 ∧ Shortest exampleCells [0, 2] 3 ∧
    columns exampleCells [0, 2] 3 = [[1, 3], [2, 4], [1, 5]] ∧
    First exampleCells (fun v => v == 2) 0 1 2 := by
  refine ⟨⟨0, 2, 0, by omega, rfl, rfl⟩, ⟨?_, 2, by simp, rfl⟩, rfl, rfl, rfl, ?_⟩
  · intro i hi a ha
    simp only [List.mem_cons, List.not_mem_nil, or_false] at ha
    rcases ha with rfl | rfl
    · exact C106_circular ⟨0, 2, 0, by omega, rfl, rfl⟩ i
    · match i, hi with
      | 0, _ => simp [element, tail, exampleCells]
      | 1, _ => simp [element, tail, exampleCells]
      | 2, _ => simp [element, tail, exampleCells]
  · intro i hi
    obtain rfl : i = 0 := by omega
    exact ⟨1, rfl, rfl⟩

end Meevax.Srfi1.Circular
