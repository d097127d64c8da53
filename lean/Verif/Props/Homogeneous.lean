import Verif.Model.Homogeneous
import Verif.Spec.Homogeneous
import Verif.Props.Sequence
import Verif.Props.InexactArith

/-
C79: homogeneous vectors.
-/

namespace Meevax.Homogeneous
open Meevax.Number Meevax.Seq

variable {T : Type}

/-! ### Casts -/

theorem wrap_fits {s : Bool} {bits : Nat} (hb : Width bits) {z : Int} (h : Fits s bits z) :
    wrap s bits z = z := by
  cases s
  · simp only [Fits, Bool.false_eq_true, if_false] at h
    simp only [wrap, Bool.false_eq_true, if_false]
    rcases hb with rfl | rfl | rfl | rfl <;> omega
  · simp only [Fits, if_true] at h
    simp only [wrap, if_true]
    rcases hb with rfl | rfl | rfl | rfl <;> norm_num at h ⊢ <;> omega

theorem fits_wrap {s : Bool} {bits : Nat} (hb : Width bits) (z : Int) : Fits s bits (wrap s bits z) := by
  cases s
  · simp only [Fits, Bool.false_eq_true, if_false, wrap]
    rcases hb with rfl | rfl | rfl | rfl <;> omega
  · simp only [Fits, if_true, wrap]
    rcases hb with rfl | rfl | rfl | rfl <;> norm_num <;> omega

theorem inputInt_fits {s : Bool} {bits : Nat} (hb : Width bits) {z : Int} (h : Fits s bits z) {x : Real}
    (hx : Stands x z) : inputInt s bits x = .value z := by
  obtain ⟨n, rfl, ⟨rfl, h1, h2⟩ | rfl⟩ := hx
  · simp only [inputInt, wrap_fits hb h]
  · simp only [inputInt]
    cases s
    · have h' := h
      simp only [Fits, Bool.false_eq_true, if_false] at h'
      have e : ((z.natAbs % 2 ^ 64 : ℕ) : Int) = z := by
        rcases hb with rfl | rfl | rfl | rfl <;> omega
      simp only [Bool.false_eq_true, if_false]
      have e2 : ((z.natAbs : Int) % 2 ^ 64) = z := by exact_mod_cast e
      rw [e2, wrap_fits hb h]
    · have h' := h
      simp only [Fits, if_true] at h'
      have e : mpzGetSi z = z := by
        rw [mpzGetSi, if_pos]
        rcases hb with rfl | rfl | rfl | rfl <;> norm_num at h' ⊢ <;> omega
      simp only [if_true, e, wrap_fits hb h]

/-! ### Lists -/

theorem inputAll_spec {E : Elem T} {xs : List Real} {ys : List T}
    (h : List.Forall₂ (fun x y => E.input x = .value y) xs ys) : inputAll E xs = .value ys := by
  induction h with
  | nil => rfl
  | cons h _ ih => simp [inputAll, h, ih]

theorem inputAll_raised {E : Elem T} {xs : List Real} {x : Real} {rest : List Real} {ys : List T}
    (h : List.Forall₂ (fun x y => E.input x = .value y) xs ys) (hx : E.input x = .raised) :
    inputAll E (xs ++ x :: rest) = .raised := by
  induction h with
  | nil => simp only [List.nil_append, inputAll, hx]; rfl
  | cons h _ ih => simp only [List.cons_append, inputAll, h, ih]; rfl

theorem toList_all {E : Elem T} {σ : Store T} {a : Nat} {ys : List T} (h : σ[a]? = some ys) :
    toList E σ a [] = .value (ys.map E.output) := by
  obtain ⟨zs, _, h1, h2⟩ := C50_list_partial h (range := []) .all
  have : zs = ys := by rw [h2.eq (le_refl _)]; simp
  simp [toList, h1, this]

/-- **C79 (lists of integers).** For each of the eight integer types: a list of any number of exact
integers in the range of the type, in whatever representation, makes a new vector; converting it to
a list gives exact integers with the same values, in the same order. -/
theorem C79_list {s : Bool} {bits : Nat} (hb : Width bits) (σ : Store Int) {xs : List Real} {zs : List Int}
    (h : List.Forall₂ Stands xs zs) (hz : ∀ z ∈ zs, Fits s bits z) :
    ∃ a τ ys, ofList (int s bits) σ xs = .value (a, τ) ∧ New σ zs a τ ∧
      toList (int s bits) τ a [] = .value ys ∧ List.Forall₂ Stands ys zs := by
  have h' : List.Forall₂ (fun x y => (int s bits).input x = .value y) xs zs := by
    induction h with
    | nil => exact .nil
    | cons h _ ih =>
      exact .cons (inputInt_fits hb (hz _ (by simp)) h) (ih fun z hz' => hz z (by simp [hz']))
  have hn := new_allocate σ zs
  refine ⟨_, _, _, ?_, hn, toList_all hn.2.1, ?_⟩
  · simp [ofList, inputAll_spec h']
  · clear h h' hn hz
    induction zs with
    | nil => exact .nil
    | cons z zs ih => exact .cons ⟨.large z, rfl, Or.inr rfl⟩ ih

/-- **C79 (ranges).** Part of a vector as a list. -/
theorem C79_list_range {s : Bool} {bits : Nat} {σ : Store Int} {a : Nat} {zs : List Int}
    (ha : σ[a]? = some zs) {range : List Num} {i j : Nat} (hr : Designates zs.length range i j) :
    ∃ ys part, toList (int s bits) σ a range = .value ys ∧ IsRange zs i j part ∧
      List.Forall₂ Stands ys part := by
  obtain ⟨part, h0, h1, h2⟩ := C50_list_partial ha hr
  refine ⟨part.map (int s bits).output, part, by simp only [toList, h1, Seq.bind_value], h2, ?_⟩
  clear h0 h1 h2
  induction part with
  | nil => exact .nil
  | cons z zs ih => exact .cons ⟨.large z, rfl, Or.inr rfl⟩ ih

/-- **C79 (elements).** Storing an exact integer in range and reading it again gives its value; the
other elements and the other vectors stay as they are. -/
theorem C79_set_ref {s : Bool} {bits : Nat} (hb : Width bits) {σ : Store Int} {a : Nat} {zs : List Int}
    (ha : σ[a]? = some zs) {k : Nat} {n : Num} (hn : IsIndex k n) (hk : k < zs.length) {x : Real} {z : Int}
    (hx : Stands x z) (hz : Fits s bits z) :
    ∃ τ, set (int s bits) σ a n x = .value τ ∧ OnlyAt a σ τ ∧
      (∀ n', IsIndex k n' → ∃ y, ref (int s bits) τ a n' = .value y ∧ Stands y z) ∧
      (∀ k' n', IsIndex k' n' → k' ≠ k → k' < zs.length →
        ref (int s bits) τ a n' = ref (int s bits) σ a n' ∧
          ∃ y, zs[k']? = some y ∧ ref (int s bits) τ a n' = .value (.exact (.large y))) := by
  obtain ⟨τ, ys, h1, _, h3, h4, h5, h6⟩ := C50_set_partial ha hn hk z
  refine ⟨τ, ?_, h3, fun n' hn' => ?_, fun k' n' hn' hne hlt => ?_⟩
  · have : (int s bits).input x = .value z := inputInt_fits hb hz hx
    simp [set, this, h1]
  · have hy : ys[k]? = some z := by simpa using h6 k
    have := (C50_ref_partial h4 hn' hy).1
    exact ⟨_, by simp only [ref, this, Seq.bind_value]; rfl, .large z, rfl, Or.inr rfl⟩
  · obtain ⟨y, hy⟩ : ∃ y, zs[k']? = some y := ⟨_, List.getElem?_eq_getElem hlt⟩
    have hy' : ys[k']? = some y := by
      have e := h6 k'
      rw [if_neg (by simp; omega)] at e
      rw [e, hy]
    have e1 := (C50_ref_partial h4 hn' hy').1
    have e2 := (C50_ref_partial ha hn' hy).1
    refine ⟨?_, y, hy, ?_⟩
    · simp only [ref, e1, e2]
    · simp only [ref, e1, Seq.bind_value]
      rfl

/-- **C79 (`make-`).** A vector of the given length, whose elements are the given integer, or zero. -/
theorem C79_make {s : Bool} {bits : Nat} (hb : Width bits) (σ : Store Int) {k : Nat} {n : Num}
    (hn : IsIndex k n) {x : Real} {z : Int} (hx : Stands x z) (hz : Fits s bits z) :
    (∃ a τ, make (int s bits) σ n (some x) = .value (a, τ) ∧ New σ (List.replicate k z) a τ) ∧
    (∃ a τ, make (int s bits) σ n none = .value (a, τ) ∧ New σ (List.replicate k 0) a τ) := by
  have h1 : (int s bits).input x = .value z := inputInt_fits hb hz hx
  constructor
  · exact ⟨_, _, by simp [make, h1, sizeCast_index hn], new_allocate σ _⟩
  · exact ⟨_, _, by simp [make, int, sizeCast_index hn], new_allocate σ _⟩

/-- Whatever number is stored, what can be read is in the range of the type. -/
theorem C79_in_range {s : Bool} {bits : Nat} (hb : Width bits) {x : Real} {z : Int}
    (h : inputInt s bits x = .value z) : Fits s bits z := by
  cases x with
  | exact n =>
    cases n with
    | small i => simp only [inputInt, Outcome.value.injEq] at h; exact h ▸ fits_wrap hb _
    | large i => simp only [inputInt, Outcome.value.injEq] at h; exact h ▸ fits_wrap hb _
    | ratio q => simp [inputInt] at h
  | flo d =>
    cases d with
    | finite t m =>
      simp only [inputInt, castDouble] at h
      split at h
      · rename_i hc
        simp only [Outcome.value.injEq] at h
        rw [← h, ← hc]
        exact fits_wrap hb _
      · simp at h
    | inf t => simp [inputInt, castDouble] at h
    | nan => simp [inputInt, castDouble] at h

/-- **C79 (flonums in integer vectors).** An inexact integer in range is stored as that integer. -/
theorem C79_inexact {s : Bool} {bits : Nat} (hb : Width bits) {d : Flo} {z : Int} (hd : d.Valid)
    (h : d.Is z) (hz : Fits s bits z) : inputInt s bits (.flo d) = .value z := by
  obtain ⟨t, m, rfl, hm⟩ := h
  have h0 : 0 ≤ m := Rep.nonneg hd
  have e : stdTrunc (Number.signed t m) = z := by
    change Number.signed t m = z at hm
    rw [hm, stdTrunc]
    by_cases hn : (z : ℚ) < 0
    · rw [if_pos hn, abs_of_neg hn, ← Int.cast_neg, Int.floor_intCast, neg_neg]
    · rw [if_neg hn, abs_of_nonneg (not_lt.1 hn), Int.floor_intCast]
  simp only [inputInt, castDouble, e, wrap_fits hb hz, if_true]

/-! ### f64vectors -/

/-- **C79 (f64vectors).** Flonums are stored and read without any change: signed zeros, subnormal
numbers, infinities and NaN included. -/
theorem C79_f64_list (σ : Store Flo) (ds : List Flo) :
    ∃ a τ, ofList f64 σ (ds.map .flo) = .value (a, τ) ∧ New σ ds a τ ∧
      toList f64 τ a [] = .value (ds.map .flo) := by
  have h' : List.Forall₂ (fun x y => f64.input x = .value y) (ds.map .flo) ds := by
    induction ds with
    | nil => exact .nil
    | cons d ds ih => exact .cons rfl ih
  have hn := new_allocate σ ds
  exact ⟨_, _, by simp [ofList, inputAll_spec h'], hn, toList_all hn.2.1⟩

/-- **C79 (f64vectors).** An exact integer below 2^53 is stored as the flonum of the same value. -/
theorem C79_f64_exact {x : Real} {z : Int} (hx : Stands x z) (h : |z| < 2 ^ 53) :
    ∃ d, inputF64 x = .value d ∧ d.Is z ∧ d.Valid := by
  obtain ⟨n, rfl, ⟨rfl, h1, h2⟩ | rfl⟩ := hx
  · obtain ⟨h3, h4⟩ := castFixnum_spec h1 h2
    exact ⟨_, rfl, h3, h4⟩
  · have hr := Rep.int h
    have hv := ofInteger_val z
    obtain ⟨s, t, e, ht, hs⟩ := (castRatio_spec (Mpq.ofInteger z)).1 (by rw [hv]; exact hr.lt)
    rw [hv] at ht hs
    have htz := ht.unique (Truncates.self hr)
    refine ⟨_, rfl, ⟨s, t, e, ?_⟩, ?_⟩
    · rw [hs, htz]
      split
      · rename_i hn
        rw [abs_of_neg hn, neg_neg]
      · rename_i hn
        rw [abs_of_nonneg (not_lt.1 hn)]
    · rw [castLarge, e, htz]
      exact hr

/-- **C79 (f64vectors, elements).** -/
theorem C79_f64_set_ref {σ : Store Flo} {a : Nat} {ds : List Flo} (ha : σ[a]? = some ds) {k : Nat} {n : Num}
    (hn : IsIndex k n) (hk : k < ds.length) (d : Flo) :
    ∃ τ, set f64 σ a n (.flo d) = .value τ ∧ OnlyAt a σ τ ∧
      (∀ n', IsIndex k n' → ref f64 τ a n' = .value (.flo d)) ∧
      (∀ k' n', IsIndex k' n' → k' ≠ k → k' < ds.length → ref f64 τ a n' = ref f64 σ a n') := by
  obtain ⟨τ, ys, h1, _, h3, h4, h5, h6⟩ := C50_set_partial ha hn hk d
  refine ⟨τ, ?_, h3, fun n' hn' => ?_, fun k' n' hn' hne hlt => ?_⟩
  · have : f64.input (.flo d) = .value d := rfl
    simp [set, this, h1]
  · have hy : ys[k]? = some d := by simpa using h6 k
    have := (C50_ref_partial h4 hn' hy).1
    simp only [ref, this, Seq.bind_value]
    rfl
  · obtain ⟨y, hy⟩ : ∃ y, ds[k']? = some y := ⟨_, List.getElem?_eq_getElem hlt⟩
    have hy' : ys[k']? = some y := by
      have e := h6 k'
      rw [if_neg (by simp; omega)] at e
      rw [e, hy]
    have e1 := (C50_ref_partial h4 hn' hy').1
    have e2 := (C50_ref_partial ha hn' hy).1
    simp only [ref, e1, e2]

/-! ### What fails -/

/-- **C79 fails beyond the range**: integers are reduced to the type without an error, and differently
for the two representations of the same integer: minus one becomes 255 as a fixnum, and 1 as a
bignum (which `u8vector-ref` and `*` of bignums give).  A flonum beyond the range is undefined
behaviour. -/
theorem C79_range_fails :
    inputInt false 8 (.exact (.small 256)) = .value 0 ∧
    inputInt false 8 (.exact (.small (-1))) = .value 255 ∧
    inputInt false 8 (.exact (.large (-1))) = .value 1 ∧
    inputInt true 8 (.exact (.small 128)) = .value (-128) ∧
    inputInt false 8 (.flo (.inf false)) = .undefined := by
  refine ⟨by decide, by decide, by decide, by decide, rfl⟩

/-- **C79 fails for ratios**: no vector takes them, not even an f64vector, wherever they are in the
list. -/
theorem C79_ratio_fails (σ : Store Flo) (ds : List Flo) (q : Mpq) (rest : List Real) :
    ofList f64 σ (ds.map .flo ++ .exact (.ratio q) :: rest) = .raised := by
  have h' : List.Forall₂ (fun x y => f64.input x = .value y) (ds.map .flo) ds := by
    induction ds with
    | nil => exact .nil
    | cons d ds ih => exact .cons rfl ih
  simp only [ofList, inputAll_raised h' (x := .exact (.ratio q)) (rest := rest) rfl]
  rfl

/-! ### Examples -/

example : ∃ a τ ys, ofList (int true 16) [] [.exact (.small (-5)), .exact (.large 32767)] = .value (a, τ) ∧
    New [] [-5, 32767] a τ ∧ toList (int true 16) τ a [] = .value ys ∧
    List.Forall₂ Stands ys [-5, 32767] :=
  C79_list (by simp [Width]) []
    (.cons ⟨_, rfl, Or.inl ⟨rfl, by norm_num, by norm_num⟩⟩ (.cons ⟨_, rfl, Or.inr rfl⟩ .nil))
    (by simp [Fits])

example : ∃ τ, set (int false 64) [[1, 2, 3]] 0 (.small 1) (.exact (.large (2 ^ 64 - 1))) = .value τ ∧
    OnlyAt 0 [[1, 2, 3]] τ := by
  obtain ⟨τ, h1, h2, _⟩ := C79_set_ref (s := false) (bits := 64) (by simp [Width]) (σ := [[1, 2, 3]]) (a := 0)
    (zs := [1, 2, 3]) rfl (k := 1) (n := .small 1) ⟨by norm_num, Or.inl rfl⟩ (by simp)
    (x := .exact (.large (2 ^ 64 - 1))) (z := 2 ^ 64 - 1) ⟨_, rfl, Or.inr rfl⟩ (by simp [Fits])
  exact ⟨τ, h1, h2⟩

end Meevax.Homogeneous
