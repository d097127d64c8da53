import Verif.Lemmas.Single
import Verif.Props.Homogeneous
import Verif.Props.InexactDivision

/-
C104: numbers of single precision and f32vectors.
-/

namespace Meevax.Single
open Meevax.Number (Flo Real Num Mpq Outcome signed castLarge castRatio mpzCmpD Fits32 IsInt)
open Meevax.Seq

/-! ### Lemmas -/

theorem signed_abs {s : Bool} {m : ℚ} (h : 0 ≤ m) : |signed s m| = m := by
  unfold signed
  split
  · rw [abs_neg, abs_of_nonneg h]
  · exact abs_of_nonneg h

theorem Rounds.valid {d : Flo} {x : ℚ} (h : Rounds d x) : Valid d := by
  rw [Rounds] at h
  split at h
  · subst h; trivial
  · obtain ⟨s, v, rfl, _, _, h3⟩ := h
    exact h3.1

/-- The sign of what is rounded. -/
theorem roundEven_sign {s : Bool} {m : ℚ} (h : 0 ≤ m) :
    roundEven s (signed s m) = .inf s ∨ ∃ v, roundEven s (signed s m) = .finite s v := by
  have hr := roundEven_spec s (signed s m)
  rcases h.lt_or_eq with h | h
  · have hs : decide (signed s m < 0) = s := by
      cases s
      · simpa [signed] using h.le
      · simpa [signed] using h
    rw [roundEven]
    split
    · exact Or.inr ⟨_, rfl⟩
    · dsimp only
      rw [hs]
      generalize (ulp (signed s m) * _ : ℚ) = p
      by_cases hp : (2 : ℚ) ^ 128 ≤ p
      · exact Or.inl (if_pos hp)
      · exact Or.inr ⟨p, if_neg hp⟩
  · subst h
    right
    refine ⟨0, ?_⟩
    rw [roundEven, if_pos (by simp [signed])]

/-- Rounding what needs no rounding. -/
theorem roundEven_rep (s : Bool) {m : ℚ} (hm : Rep m) : roundEven s (signed s m) = .finite s m := by
  have h0 := hm.nonneg
  have hr := roundEven_spec s (signed s m)
  have hi := hr.rep (by rwa [signed_abs h0])
  obtain ⟨t, n, e, hn⟩ := hi
  rcases roundEven_sign (s := s) h0 with h | ⟨v, h⟩
  · rw [h] at e; cases e
  · rw [h] at e ⊢
    cases e
    congr 1
    cases s <;> simpa [signed] using hn

/-- Every value of single precision is one of double precision. -/
theorem Rep.double {v : ℚ} (h : Rep v) : Number.Rep v := by
  obtain ⟨m, e, h1, h2, h3, rfl⟩ := h
  exact ⟨m, e, h1.trans (by norm_num), by omega, by omega, rfl⟩

theorem Valid.double {d : Flo} (h : Valid d) : d.Valid := by
  cases d with
  | finite s m => exact Rep.double h
  | inf s => trivial
  | nan => trivial

theorem ofDouble_rep {d : Flo} (h : Valid d) : ofDouble d = d := by
  cases d with
  | finite s m => exact roundEven_rep s h
  | inf s => rfl
  | nan => rfl

theorem ofDouble_rounds {d : Flo} {v : ℚ} (h : d.Is v) : Rounds (ofDouble d) v := by
  obtain ⟨s, m, rfl, hv⟩ := h
  have : signed s m = v := hv
  simp only [ofDouble, this]
  exact roundEven_spec _ _

/-- `mpz_get_d` of an integer that needs no more than 53 bits. -/
theorem castLarge_is {z : Int} (h : |z| < 2 ^ 53) : (castLarge z).Is z := by
  obtain ⟨d, h1, h2, _⟩ := Homogeneous.C79_f64_exact (x := .exact (.large z)) ⟨_, rfl, Or.inr rfl⟩ h
  simp only [Homogeneous.inputF64, Outcome.value.injEq] at h1
  rwa [h1]

theorem ofFixnum_is {i : Int} (h : |i| ≤ 2 ^ 24) : (ofFixnum i).Is i := by
  refine (roundEven_spec false i).rep ?_
  rcases h.lt_or_eq with h | h
  · exact Rep.int h
  · refine ⟨2 ^ 23, 1, by norm_num, by norm_num, by norm_num, ?_⟩
    rw [← Int.cast_abs, h]
    norm_num

/-! ### Storing numbers in f32vectors -/

/-- **C104 (flonums).** Of every flonum an f32vector holds the nearest number of single precision,
the even one of two; from half a unit beyond the greatest one on, an infinity. The sign is kept, also
that of zero; infinities and NaN stay what they are. -/
theorem C104_flonum (d : Flo) : ∃ e, inputF32 (.real (.flo d)) = .value e ∧ (∀ v, d.Is v → Rounds e v) ∧
    (∀ s m, d = .finite s m → 0 ≤ m → e = .inf s ∨ ∃ v, e = .finite s v) ∧
    (∀ s, d = .inf s → e = .inf s) ∧ (d = .nan → e = .nan) := by
  refine ⟨_, rfl, fun v hv => ofDouble_rounds hv, ?_, ?_, ?_⟩
  · rintro s m rfl h
    exact roundEven_sign h
  · rintro s rfl
    rfl
  · rintro rfl
    rfl

/-- **C104 (fixnums).** Of every fixnum an f32vector holds the nearest number of single precision. -/
theorem C104_fixnum (i : Int) : ∃ e, inputF32 (.real (.exact (.small i))) = .value e ∧ Rounds e i :=
  ⟨_, rfl, roundEven_spec _ _⟩

/-- **C104 (large integers).** The same for large integers of no more than 53 bits. Missing: the
others, for which it is false. -/
theorem C104_large_partial {z : Int} (h : |z| < 2 ^ 53) :
    ∃ e, inputF32 (.real (.exact (.large z))) = .value e ∧ Rounds e z :=
  ⟨_, rfl, ofDouble_rounds (castLarge_is h)⟩

/-- **C104 (numbers of single precision).** A list of any number of numbers of single precision
makes a new f32vector; converting it to a list gives the very same numbers, in the same order. -/
theorem C104_list (σ : Store Flo) (ds : List Flo) :
    ∃ a τ, ofList σ (ds.map .single) = .value (a, τ) ∧ New σ ds a τ ∧
      toList τ a [] = .value (ds.map .single) := by
  have h' : inputAll (ds.map .single) = .value ds := by
    induction ds with
    | nil => rfl
    | cons d ds ih => simp [inputAll, inputF32, ih]
  have hn := new_allocate σ ds
  obtain ⟨zs, _, h1, h2⟩ := C50_list_partial hn.2.1 (range := []) .all
  have : zs = ds := by rw [h2.eq (le_refl _)]; simp
  exact ⟨_, _, by simp [ofList, h'], hn, by simp [toList, h1, this]⟩

theorem inputF32_holds {x : Wide} (h : Storable x) : ∃ d, inputF32 x = .value d ∧ Holds x d := by
  cases x with
  | single e => exact ⟨e, rfl, rfl⟩
  | real r =>
    cases r with
    | flo e =>
      refine ⟨_, rfl, ?_⟩
      cases e with
      | finite s m => exact ofDouble_rounds ⟨s, m, rfl, rfl⟩
      | inf s => rfl
      | nan => rfl
    | exact n =>
      cases n with
      | small i => exact ⟨_, rfl, roundEven_spec false i⟩
      | large z =>
        exact ⟨_, rfl, ofDouble_rounds (castLarge_is (h.2 z rfl))⟩
      | ratio q => exact absurd rfl (h.1 q)

/-- **C104 (mixed lists).** A list of any number of flonums, fixnums, large integers of no more than 53 bits and
numbers of single precision makes a new f32vector of what it has to hold for each of them, in the
same order, and the list of its elements is a list of numbers of single precision. -/
theorem C104_list_any (σ : Store Flo) {xs : List Wide} (h : ∀ x ∈ xs, Storable x) :
    ∃ a τ ds, ofList σ xs = .value (a, τ) ∧ List.Forall₂ Holds xs ds ∧ New σ ds a τ ∧
      toList τ a [] = .value (ds.map .single) := by
  obtain ⟨ds, h1, h2⟩ : ∃ ds, inputAll xs = .value ds ∧ List.Forall₂ Holds xs ds := by
    induction xs with
    | nil => exact ⟨[], rfl, .nil⟩
    | cons x xs ih =>
      obtain ⟨d, hd, hh⟩ := inputF32_holds (h x (by simp))
      obtain ⟨ds, h1, h2⟩ := ih fun y hy => h y (by simp [hy])
      exact ⟨d :: ds, by simp [inputAll, hd, h1], .cons hh h2⟩
  have hn := new_allocate σ ds
  obtain ⟨zs, _, h3, h4⟩ := C50_list_partial hn.2.1 (range := []) .all
  have : zs = ds := by rw [h4.eq (le_refl _)]; simp
  exact ⟨_, _, ds, by simp [ofList, h1], h2, hn, by simp [toList, h3, this]⟩

/-- **C104 (`f32vector-set!` and `f32vector-ref`).** What is stored is read back as a number of
single precision; no other element and no other vector changes. -/
theorem C104_set_ref {σ : Store Flo} {a : Nat} {ds : List Flo} (ha : σ[a]? = some ds) {k : Nat} {n : Num}
    (hn : IsIndex k n) (hk : k < ds.length) {x : Wide} {d : Flo} (hx : inputF32 x = .value d) :
    ∃ τ, set σ a n x = .value τ ∧ OnlyAt a σ τ ∧
      (∀ n', IsIndex k n' → ref τ a n' = .value (.single d)) ∧
      (∀ k' n', IsIndex k' n' → k' ≠ k → k' < ds.length →
        ∃ e, ds[k']? = some e ∧ ref τ a n' = .value (.single e)) := by
  obtain ⟨τ, ys, h1, _, h3, h4, h5, h6⟩ := C50_set_partial ha hn hk d
  refine ⟨τ, by simp [set, hx, h1], h3, fun n' hn' => ?_, fun k' n' hn' hne hlt => ?_⟩
  · have hy : ys[k]? = some d := by simpa using h6 k
    simp only [ref, (C50_ref_partial h4 hn' hy).1, Seq.bind_value]
  · obtain ⟨y, hy⟩ : ∃ y, ds[k']? = some y := ⟨_, List.getElem?_eq_getElem hlt⟩
    have hy' : ys[k']? = some y := by
      have e := h6 k'
      rw [if_neg (by simp; omega)] at e
      rw [e, hy]
    exact ⟨y, hy, by simp only [ref, (C50_ref_partial h4 hn' hy').1, Seq.bind_value]⟩

/-- **C104 (`make-f32vector`).** The length and the fill asked for; zeros without a fill. -/
theorem C104_make (σ : Store Flo) {k : Nat} {n : Num} (hn : IsIndex k n) {x : Wide} {d : Flo}
    (hx : inputF32 x = .value d) :
    (∃ a τ, make σ n (some x) = .value (a, τ) ∧ New σ (List.replicate k d) a τ) ∧
    (∃ a τ, make σ n none = .value (a, τ) ∧ New σ (List.replicate k (.finite false 0)) a τ) := by
  constructor
  · exact ⟨_, _, by simp [make, hx, sizeCast_index hn], new_allocate σ _⟩
  · exact ⟨_, _, by simp [make, sizeCast_index hn], new_allocate σ _⟩

/-- **C104 (other precisions).** A number of single precision is a flonum too: `inexact` gives the
flonum of the same value, an f64vector takes it as it is, and the flonum goes back into an f32vector
as the same number of single precision. -/
theorem C104_inexact {d : Flo} (h : Valid d) :
    Wide.inexact (.single d) = .real (.flo d) ∧ d.Valid ∧ inputF64 (.single d) = .value d ∧
      inputF32 (Wide.inexact (.single d)) = .value d :=
  ⟨rfl, h.double, rfl, by simp only [Wide.inexact, inputF32, ofDouble_rep h]⟩

/-- **C104 (integer types).** The vectors of the eight integer types take a number of single precision
that is an integer in their range, by value. -/
theorem C104_integer {s : Bool} {bits : Nat} (hb : Homogeneous.Width bits) {d : Flo} {z : Int} (hd : Valid d)
    (h : d.Is z) (hz : Homogeneous.Fits s bits z) : inputInt s bits (.single d) = .value z :=
  Homogeneous.C79_inexact hb hd.double h hz

/-- **C104 (`exact`).** `exact` of a finite number of single precision has its value. -/
theorem C104_exact {d : Flo} {v : ℚ} (h : d.Is v) :
    ∃ n : Num, Wide.toExact (.single d) = .value (.real (.exact n)) ∧ n.Valid ∧ n.val = v := by
  obtain ⟨n, e, h1, h2⟩ := Number.exactFlo_spec h
  exact ⟨n, by simp [Wide.toExact, e], h1, h2⟩

/-- **C104 (ratios).** An f32vector takes no ratio: an error, and nothing changes. -/
theorem C104_ratio_fails (σ : Store Flo) (a : Nat) (n : Num) (q : Mpq) :
    inputF32 (.real (.exact (.ratio q))) = .raised ∧ set σ a n (.real (.exact (.ratio q))) = .raised := by
  exact ⟨rfl, rfl⟩

/-! ### Comparison -/

theorem ofFixnum_place {i : Int} (h : |i| ≤ 2 ^ 24) :
    (ofFixnum i).place = some (((i : ℚ) : WithTop ℚ) : WithBot (WithTop ℚ)) := (ofFixnum_is h).place

/-- **C104 (order).** `<` and `>` of two numbers, of which at least one is of single precision and
neither is a ratio or a fixnum of more than 24 bits, say how they lie on the extended number line. -/
theorem C104_order {x y : Wide} {a b : WithBot (WithTop ℚ)} (hs : SomeSingle x y)
    (hx : x.Comparable) (hy : y.Comparable) (ha : x.place = some a) (hb : y.place = some b) :
    (∃ r, x.lessThan y = .value r ∧ (r = true ↔ a < b)) ∧
    (∃ r, x.greaterThan y = .value r ∧ (r = true ↔ b < a)) := by
  rcases hs with ⟨d, rfl⟩ | ⟨d, rfl⟩
  · cases y with
    | single e => exact ⟨⟨_, rfl, Number.Flo.lt_iff ha hb⟩, ⟨_, rfl, Number.Flo.lt_iff hb ha⟩⟩
    | real r =>
      cases r with
      | flo e => exact ⟨⟨_, rfl, Number.Flo.lt_iff ha hb⟩, ⟨_, rfl, Number.Flo.lt_iff hb ha⟩⟩
      | exact n =>
        simp only [Wide.place, Real.place, Option.some.injEq] at hb
        subst hb
        cases n with
        | small i =>
          have hp := ofFixnum_place (hy.2 i rfl)
          exact ⟨⟨_, rfl, Number.Flo.lt_iff ha hp⟩, ⟨_, rfl, Number.Flo.lt_iff hp ha⟩⟩
        | large z =>
          obtain ⟨c, hc, h1, _, h3⟩ := Number.mpzCmpD_spec (z := z) ha
          refine ⟨⟨decide (0 < c), by simp [Wide.lessThan, hc], ?_⟩,
            ⟨decide (0 > c), by simp [Wide.greaterThan, hc], ?_⟩⟩
          · rw [decide_eq_true_iff, h3]; rfl
          · rw [decide_eq_true_iff, gt_iff_lt, h1]; rfl
        | ratio q => exact absurd rfl (hy.1 q)
  · cases x with
    | single e => exact ⟨⟨_, rfl, Number.Flo.lt_iff ha hb⟩, ⟨_, rfl, Number.Flo.lt_iff hb ha⟩⟩
    | real r =>
      cases r with
      | flo e => exact ⟨⟨_, rfl, Number.Flo.lt_iff ha hb⟩, ⟨_, rfl, Number.Flo.lt_iff hb ha⟩⟩
      | exact n =>
        simp only [Wide.place, Real.place, Option.some.injEq] at ha
        subst ha
        cases n with
        | small i =>
          have hp := ofFixnum_place (hx.2 i rfl)
          exact ⟨⟨_, rfl, Number.Flo.lt_iff hp hb⟩, ⟨_, rfl, Number.Flo.lt_iff hb hp⟩⟩
        | large z =>
          obtain ⟨c, hc, h1, _, h3⟩ := Number.mpzCmpD_spec (z := z) hb
          refine ⟨⟨decide (c < 0), by simp [Wide.lessThan, hc], ?_⟩,
            ⟨decide (c > 0), by simp [Wide.greaterThan, hc], ?_⟩⟩
          · rw [decide_eq_true_iff, h1]; rfl
          · rw [decide_eq_true_iff, gt_iff_lt, h3]; rfl
        | ratio q => exact absurd rfl (hx.1 q)

/-- **C104 (`=` with exact integers).** A number of single precision, finite or infinite, is `=` to a
large integer, or to a fixnum of no more than 24 bits, exactly if it is that integer, on either
side. -/
theorem C104_equal_exact {d : Flo} {b : WithBot (WithTop ℚ)} (hd : d.place = some b) {n : Num} {z : Int}
    (hn : IsInt n z) (hs : ∀ i, n = .small i → |i| ≤ 2 ^ 24) :
    (∃ r, Wide.equals (.single d) (.real (.exact n)) = .value r ∧
      (r = true ↔ b = (((z : ℚ) : WithTop ℚ) : WithBot (WithTop ℚ)))) ∧
    (∃ r, Wide.equals (.real (.exact n)) (.single d) = .value r ∧
      (r = true ↔ b = (((z : ℚ) : WithTop ℚ) : WithBot (WithTop ℚ)))) := by
  rcases hn with ⟨rfl, h1, h2⟩ | rfl
  · have hp := ofFixnum_place (hs z rfl)
    refine ⟨⟨_, rfl, Number.Flo.eq_iff hd hp⟩, ⟨_, rfl, ?_⟩⟩
    rw [Number.Flo.eq_iff hp hd, eq_comm]
  · obtain ⟨c, hc, _, h2, _⟩ := Number.mpzCmpD_spec (z := z) hd
    refine ⟨⟨decide (0 = c), by simp [Wide.equals, hc], ?_⟩,
      ⟨decide (c = 0), by simp [Wide.equals, hc], ?_⟩⟩
    · rw [decide_eq_true_iff, eq_comm, h2, eq_comm]
    · rw [decide_eq_true_iff, h2, eq_comm]

/-- **C104 (`=` of two numbers of single precision).** Equal numbers are `=`; so are numbers that
differ by no more than `2 ^ -23`; those that differ by `2 ^ -22` or more are not. An infinity is `=`
to itself only. -/
theorem C104_equal_single {x y : Flo} {v w : ℚ} (hx : x.Is v) (hy : y.Is w) :
    (|v - w| ≤ 1 / 2 ^ 23 → Wide.equals (.single x) (.single y) = .value true) ∧
    (1 / 2 ^ 22 ≤ |v - w| → Wide.equals (.single x) (.single y) = .value false) ∧
    (∀ s, Wide.equals (.single (.inf s)) (.single x) = .value false ∧
      Wide.equals (.single x) (.single (.inf s)) = .value false) ∧
    (∀ s t, Wide.equals (.single (.inf s)) (.single (.inf t)) = .value (s == t)) := by
  obtain ⟨h1, h2⟩ := inexactEquals_finite hx hy
  refine ⟨fun h => by simp only [Wide.equals, h1 h], fun h => by simp only [Wide.equals, h2 h], ?_, ?_⟩
  · obtain ⟨t, m, rfl, _⟩ := hx
    intro s
    simp [Wide.equals, inexactEquals, Flo.isNan, Flo.isInf, Flo.eq]
  · intro s t
    simp [Wide.equals, inexactEquals, Flo.isNan, Flo.isInf, Flo.eq]

/-- **C104 (`=` with flonums).** Beside a flonum the tolerance is that of flonums. -/
theorem C104_equal_flonum {x y : Flo} {v w : ℚ} (hx : x.Is v) (hy : y.Is w) :
    (|v - w| ≤ 1 / 2 ^ 52 → Wide.equals (.single x) (.real (.flo y)) = .value true ∧
      Wide.equals (.real (.flo y)) (.single x) = .value true) ∧
    (1 / 2 ^ 51 ≤ |v - w| → Wide.equals (.single x) (.real (.flo y)) = .value false ∧
      Wide.equals (.real (.flo y)) (.single x) = .value false) := by
  obtain ⟨h1, h2⟩ := Number.inexactEquals_finite hx hy
  obtain ⟨h3, h4⟩ := Number.inexactEquals_finite hy hx
  rw [abs_sub_comm] at h3 h4
  exact ⟨fun h => by simp only [Wide.equals, h1 h, h3 h, and_self],
    fun h => by simp only [Wide.equals, h2 h, h4 h, and_self]⟩

/-! ### Arithmetic -/

theorem add_rounds {x y : Flo} {v w : ℚ} (hx : x.Is v) (hy : y.Is w) : Rounds (add x y) (v + w) := by
  obtain ⟨s, m, rfl, rfl⟩ := hx
  obtain ⟨t, n, rfl, rfl⟩ := hy
  exact roundEven_spec _ _

theorem neg_is {x : Flo} {v : ℚ} (hx : x.Is v) : x.neg.Is (-v) := by
  obtain ⟨s, m, rfl, rfl⟩ := hx
  exact ⟨!s, m, rfl, by cases s <;> simp⟩

theorem sub_rounds {x y : Flo} {v w : ℚ} (hx : x.Is v) (hy : y.Is w) : Rounds (sub x y) (v - w) := by
  rw [sub_eq_add_neg]
  exact add_rounds hx (neg_is hy)

theorem mul_rounds {x y : Flo} {v w : ℚ} (hx : x.Is v) (hy : y.Is w) : Rounds (mul x y) (v * w) := by
  obtain ⟨s, m, rfl, rfl⟩ := hx
  obtain ⟨t, n, rfl, rfl⟩ := hy
  exact roundEven_spec _ _

theorem div_rounds {x y : Flo} {v w : ℚ} (hx : x.Is v) (hy : y.Is w) (h : w ≠ 0) :
    Rounds (div x y) (v / w) := by
  obtain ⟨s, m, rfl, rfl⟩ := hx
  obtain ⟨t, n, rfl, rfl⟩ := hy
  have : n ≠ 0 := by
    rintro rfl
    exact h (by simp)
  simp only [div, if_neg this]
  exact roundEven_spec _ _

/-- **C104 (arithmetic).** The sum, difference, product and quotient of two numbers, each of single
precision or a fixnum of no more than 24 bits, and at least one of them of single precision, are the
exact results rounded once to single precision. -/
theorem C104_arithmetic {x y : Wide} {v w : ℚ} (hs : SomeSingle x y) (hx : x.Plainly v) (hy : y.Plainly w) :
    (∃ d, x.add y = .value (.single d) ∧ Rounds d (v + w)) ∧
    (∃ d, x.sub y = .value (.single d) ∧ Rounds d (v - w)) ∧
    (∃ d, x.mul y = .value (.single d) ∧ Rounds d (v * w)) ∧
    (w ≠ 0 → ∃ d, x.div y = .value (.single d) ∧ Rounds d (v / w)) := by
  rcases hx with ⟨d, rfl, hd⟩ | ⟨i, rfl, hi, rfl⟩
  · rcases hy with ⟨e, rfl, he⟩ | ⟨i, rfl, hi, rfl⟩
    · exact ⟨⟨_, rfl, add_rounds hd he⟩, ⟨_, rfl, sub_rounds hd he⟩, ⟨_, rfl, mul_rounds hd he⟩,
        fun h => ⟨_, rfl, div_rounds hd he h⟩⟩
    · have he := ofFixnum_is hi
      exact ⟨⟨_, rfl, add_rounds hd he⟩, ⟨_, rfl, sub_rounds hd he⟩, ⟨_, rfl, mul_rounds hd he⟩,
        fun h => ⟨_, rfl, div_rounds hd he h⟩⟩
  · have hd := ofFixnum_is hi
    rcases hy with ⟨e, rfl, he⟩ | ⟨j, rfl, _, rfl⟩
    · exact ⟨⟨_, rfl, add_rounds hd he⟩, ⟨_, rfl, sub_rounds hd he⟩, ⟨_, rfl, mul_rounds hd he⟩,
        fun h => ⟨_, rfl, div_rounds hd he h⟩⟩
    · rcases hs with ⟨_, h⟩ | ⟨_, h⟩ <;> cases h

/-- **C104 (arithmetic with flonums).** With a flonum the result is the flonum that flonum arithmetic
gives for the two values. -/
theorem C104_arithmetic_flonum {x y : Flo} {v w : ℚ} (hx : x.Is v) (hy : y.Is w) {a b : Wide}
    (hab : (a = .single x ∧ b = .real (.flo y)) ∨ (a = .real (.flo x) ∧ b = .single y)) :
    (∃ d : Flo, a.add b = .value (.real (.flo d)) ∧ d.Rounds (v + w)) ∧
    (∃ d : Flo, a.sub b = .value (.real (.flo d)) ∧ d.Rounds (v - w)) ∧
    (∃ d : Flo, a.mul b = .value (.real (.flo d)) ∧ d.Rounds (v * w)) ∧
    (w ≠ 0 → ∃ d : Flo, a.div b = .value (.real (.flo d)) ∧ d.Rounds (v / w)) := by
  have h1 : (x.add y).Rounds (v + w) := by
    obtain ⟨s, m, rfl, rfl⟩ := hx
    obtain ⟨t, n, rfl, rfl⟩ := hy
    exact Number.roundEven_spec _ _
  have h2 : (x.sub y).Rounds (v - w) := by
    have hy' := neg_is hy
    obtain ⟨s, m, rfl, rfl⟩ := hx
    obtain ⟨t, n, e, h⟩ := hy'
    rw [Number.Flo.sub, e, sub_eq_add_neg, ← h]
    exact Number.roundEven_spec _ _
  have h3 : (x.mul y).Rounds (v * w) := by
    obtain ⟨s, m, rfl, rfl⟩ := hx
    obtain ⟨t, n, rfl, rfl⟩ := hy
    exact Number.roundEven_spec _ _
  have h4 : w ≠ 0 → (x.div y).Rounds (v / w) := by
    intro h
    obtain ⟨s, m, rfl, rfl⟩ := hx
    obtain ⟨t, n, rfl, rfl⟩ := hy
    have : n ≠ 0 := by
      rintro rfl
      exact h (by simp)
    simp only [Number.Flo.div, if_neg this]
    exact Number.roundEven_spec _ _
  rcases hab with ⟨rfl, rfl⟩ | ⟨rfl, rfl⟩ <;>
    exact ⟨⟨_, rfl, h1⟩, ⟨_, rfl, h2⟩, ⟨_, rfl, h3⟩, fun h => ⟨_, rfl, h4 h⟩⟩

/-! ### What fails -/

/-- Half way between a power of two and the next number of single precision. -/
theorem roundEven_half {z : Bool} {e : ℕ} (he : e < 100) :
    roundEven z (2 ^ (24 + e) + 2 ^ e) = .finite false (2 ^ (24 + e)) := by
  have hpos : (0 : ℚ) < 2 ^ e := by positivity
  have hx : (0 : ℚ) < 2 ^ (24 + e) + 2 ^ e := by positivity
  have hlog : Int.log 2 |(2 : ℚ) ^ (24 + e) + 2 ^ e| = 24 + e := by
    rw [abs_of_pos hx, show (2 : ℚ) ^ (24 + e) + 2 ^ e = ((2 ^ (24 + e) + 2 ^ e : ℕ) : ℚ) by push_cast; ring,
      Int.log_natCast]
    have : Nat.log 2 (2 ^ (24 + e) + 2 ^ e) = 24 + e := by
      rw [Nat.log_eq_iff (Or.inl (by omega))]
      have h0 : 0 < 2 ^ e := by positivity
      constructor
      · omega
      · rw [pow_succ, pow_add]
        omega
    rw [this]
    push_cast
    rfl
  have hulp : ulp (2 ^ (24 + e) + 2 ^ e) = 2 * 2 ^ e := by
    rw [ulp, hlog, max_eq_left (by omega), show (24 + e - 23 : ℤ) = ((e + 1 : ℕ) : ℤ) by push_cast; ring,
      zpow_natCast, pow_succ]
    ring
  have hq : |(2 : ℚ) ^ (24 + e) + 2 ^ e| / (2 * 2 ^ e) = 2 ^ 23 + 1 / 2 := by
    rw [abs_of_pos hx, pow_add]
    field_simp
  have hf : ⌊(2 : ℚ) ^ 23 + 1 / 2⌋ = 2 ^ 23 := by
    rw [Int.floor_eq_iff]
    norm_num
  have hm : (2 : ℚ) * 2 ^ e * ((2 ^ 23 : ℤ) : ℚ) = 2 ^ (24 + e) := by
    rw [pow_add]
    push_cast
    ring
  have hlt : (2 : ℚ) ^ (24 + e) < 2 ^ 128 := Number.two_pow_lt (by omega)
  rw [roundEven, if_neg hx.ne', hulp, hq, hf]
  dsimp only
  rw [if_pos (Or.inr ⟨by push_cast; ring, by norm_num⟩), hm, if_neg (not_le.2 hlt)]
  simp [hx.le]

/-- The nearest number of single precision is above the middle. -/
theorem not_rounds {e : ℕ} (he : e < 100) {x : ℚ} (h1 : 2 ^ (24 + e) + 2 ^ e < x)
    (h2 : x ≤ 2 ^ (24 + e) + 2 * 2 ^ e) : ¬ Rounds (.finite false (2 ^ (24 + e))) x := by
  have hpos : (0 : ℚ) < 2 ^ e := by positivity
  have hpos' : (0 : ℚ) < 2 ^ (24 + e) := by positivity
  have hrep : Rep (2 ^ (24 + e) + 2 * 2 ^ e) := by
    refine ⟨2 ^ 23 + 1, e + 1, by norm_num, by omega, by omega, ?_⟩
    rw [zpow_add₀ (by norm_num), zpow_natCast, pow_add]
    push_cast
    ring
  intro h
  rw [Rounds] at h
  split at h
  · cases h
  · obtain ⟨s, v, e', _, _, hn⟩ := h
    cases e'
    have := hn.2.1 _ hrep
    rw [abs_of_pos (show 0 < x by linarith), abs_of_pos (show 0 < x - 2 ^ (24 + e) by linarith),
      abs_of_nonpos (by linarith)] at this
    linarith

/-- **C104 is false for large integers** of more than 53 bits: they are cut off to a flonum first, and
that is rounded. For 2^60 + 2^36 + 1 an f32vector holds 2^60, although 2^60 + 2^37 is nearer. -/
theorem C104_large_fails :
    inputF32 (.real (.exact (.large (2 ^ 60 + 2 ^ 36 + 1)))) = .value (.finite false (2 ^ 60)) ∧
    ¬ Rounds (.finite false (2 ^ 60)) ((2 ^ 60 + 2 ^ 36 + 1 : ℤ) : ℚ) := by
  constructor
  · have hv := Number.ofInteger_val (2 ^ 60 + 2 ^ 36 + 1)
    have hr : Number.Rep (2 ^ 60 + 2 ^ 36) :=
      ⟨2 ^ 24 + 1, 36, by norm_num, by norm_num, by norm_num, by norm_num⟩
    have ht' : Number.Truncates |((2 ^ 60 + 2 ^ 36 + 1 : ℤ) : ℚ)| (2 ^ 60 + 2 ^ 36) := by
      refine ⟨hr, by norm_num, fun w hw hle => ?_⟩
      norm_num at hle ⊢
      rcases hw.onGrid (E := 8) with ⟨j, rfl⟩ | ⟨hj, _⟩
      · have h1 : (256 : ℚ) * j ≤ 1152921573326323713 := by
          refine le_trans (le_of_eq ?_) hle
          norm_num
        have h2 : (256 : ℤ) * j ≤ 1152921573326323713 := by exact_mod_cast h1
        have h3 : (256 : ℤ) * j ≤ 1152921573326323712 := by omega
        have h4 : (256 : ℚ) * j ≤ 1152921573326323712 := by exact_mod_cast h3
        refine le_trans (le_of_eq ?_) h4
        norm_num
      · refine hj.le.trans ?_
        norm_num
    have hlt : |((2 ^ 60 + 2 ^ 36 + 1 : ℤ) : ℚ)| < 2 ^ 1024 := by
      have h1 : |((2 ^ 60 + 2 ^ 36 + 1 : ℤ) : ℚ)| < 2 ^ 61 := by norm_num
      exact h1.trans (Number.two_pow_lt (by norm_num))
    obtain ⟨s, t, e, ht, hs⟩ := (Number.castRatio_spec (Mpq.ofInteger (2 ^ 60 + 2 ^ 36 + 1))).1
      (by rw [hv]; exact hlt)
    rw [hv] at ht hs
    have e2 := ht.unique ht'
    subst e2
    have hs' : s = false := by
      cases s with
      | false => rfl
      | true => norm_num at hs
    subst hs'
    have h36 := roundEven_half (z := false) (e := 36) (by norm_num)
    simp only [inputF32, ofLarge, castLarge, e, ofDouble, signed, Bool.false_eq_true, if_false, Outcome.value.injEq]
    exact h36
  · exact not_rounds (e := 36) (by norm_num) (by norm_num) (by norm_num)

/-- **C104 is false for fixnums** of more than 24 bits: beside a number of single precision they are
rounded first. The number 16777216 of single precision is `=` to the fixnum 16777217 and not less
than it, though it is less than 16777217 as a large integer and as a flonum, and `=` to the fixnum
16777216; `=` is not transitive. -/
theorem C104_fixnum_fails :
    Rep 16777216 ∧
    Wide.equals (.single (.finite false 16777216)) (.real (.exact (.small 16777217))) = .value true ∧
    Wide.equals (.single (.finite false 16777216)) (.real (.exact (.small 16777216))) = .value true ∧
    Wide.equals (.real (.exact (.small 16777216))) (.real (.exact (.small 16777217))) = .value false ∧
    Wide.lessThan (.single (.finite false 16777216)) (.real (.exact (.small 16777217))) = .value false ∧
    Wide.lessThan (.single (.finite false 16777216)) (.real (.exact (.large 16777217))) = .value true ∧
    Wide.lessThan (.single (.finite false 16777216)) (.real (.flo (.finite false 16777217))) = .value true := by
  have h : ofFixnum 16777217 = .finite false 16777216 := by
    have := roundEven_half (z := false) (e := 0) (by norm_num)
    norm_num at this
    simpa [ofFixnum] using this
  have h' : ofFixnum 16777216 = .finite false 16777216 := by
    have := roundEven_rep false (m := 16777216) ⟨2 ^ 23, 1, by norm_num, by norm_num, by norm_num, by norm_num⟩
    simpa [ofFixnum, signed] using this
  refine ⟨⟨2 ^ 23, 1, by norm_num, by norm_num, by norm_num, by norm_num⟩, ?_, ?_, ?_, ?_, ?_, ?_⟩
  · simp [Wide.equals, h, Flo.eq, signed]
  · simp [Wide.equals, h', Flo.eq, signed]
  · rfl
  · simp [Wide.lessThan, h, Flo.lt, signed]
  · norm_num [Wide.lessThan, mpzCmpD, signed]
  · norm_num [Wide.lessThan, Flo.lt, signed]

/-- **C104 is false for arithmetic with fixnums** of more than 24 bits: 16777217 plus 1 of single
precision is 16777216, though 16777218 is a number of single precision. -/
theorem C104_arithmetic_fails :
    Wide.add (.real (.exact (.small 16777217))) (.single (.finite false 1)) =
      .value (.single (.finite false 16777216)) ∧
    ¬ Rounds (.finite false 16777216) (16777217 + 1) ∧ Rep (16777217 + 1) := by
  have h : ofFixnum 16777217 = .finite false 16777216 := by
    have := roundEven_half (z := false) (e := 0) (by norm_num)
    norm_num at this
    simpa [ofFixnum] using this
  refine ⟨?_, ?_, ⟨2 ^ 23 + 1, 1, by norm_num, by norm_num, by norm_num, by norm_num⟩⟩
  · have h2 : roundEven false (16777216 + 1) = .finite false 16777216 := by
      have := roundEven_half (z := false) (e := 0) (by norm_num)
      norm_num at this ⊢
      exact this
    simp only [Wide.add, lift, ofNum, h, add, signed, Bool.false_eq_true, if_false, Bool.and_false, h2]
  · have := not_rounds (e := 0) (x := 16777217 + 1) (by norm_num) (by norm_num) (by norm_num)
    norm_num at this ⊢
    exact this

/-- **C104 is false for `=`**: the least positive number of single precision is `=` to zero. -/
theorem C104_equal_fails :
    Rep (1 / 2 ^ 149) ∧ Wide.equals (.single (.finite false (1 / 2 ^ 149))) (.single (.finite false 0)) = .value true ∧
    Wide.lessThan (.single (.finite false 0)) (.single (.finite false (1 / 2 ^ 149))) = .value true := by
  refine ⟨⟨1, -149, by norm_num, by norm_num, by norm_num, by norm_num⟩, ?_, ?_⟩
  · refine (C104_equal_single (v := 1 / 2 ^ 149) (w := 0) ⟨false, _, rfl, rfl⟩ ⟨false, _, rfl, rfl⟩).1 ?_
    norm_num
  · norm_num [Wide.lessThan, Flo.lt, signed]

/-- Witnesses: 16777217 is not a number of single precision, and has no more than 53 bits; 1/2 and 3
are the values of an operand of single precision and of a fixnum. -/
example : ¬ Rep (16777217 : ℚ) ∧ |(16777217 : Int)| < 2 ^ 53 := by
  refine ⟨fun h => ?_, by norm_num⟩
  rcases h.onGrid (E := 1) with ⟨j, hj⟩ | ⟨hj, _⟩
  · have : (16777217 : ℤ) = 2 * j := by
      have : (16777217 : ℚ) = 2 * j := by simpa using hj
      exact_mod_cast this
    omega
  · norm_num at hj

example : SomeSingle (.single (.finite false (1 / 2))) (.real (.exact (.small 3))) ∧
    Wide.Plainly (.single (.finite false (1 / 2))) (1 / 2) ∧ Wide.Plainly (.real (.exact (.small 3))) 3 ∧
    Wide.Comparable (.real (.exact (.small 3))) ∧ Valid (.finite false (1 / 2)) ∧
    Storable (.real (.flo (.finite true (1 / 10)))) :=
  ⟨Or.inl ⟨_, rfl⟩, Or.inl ⟨_, rfl, false, _, rfl, rfl⟩, Or.inr ⟨3, rfl, by norm_num, by norm_num⟩,
    ⟨fun q => by simp, fun i h => by cases h; norm_num⟩,
    ⟨1, -1, by norm_num, by norm_num, by norm_num, by norm_num⟩, ⟨fun q => by simp, fun z h => by simp at h⟩⟩

/-! ### `remainder` -/

/-- The remainder of two magnitudes of single precision is one. -/
theorem Rep.mod {m n : ℚ} (hm : Rep m) (hn : Rep n) (h0 : n ≠ 0) : Rep (m - n * ⌊m / n⌋) := by
  have hn0 : 0 < n := lt_of_le_of_ne hn.double.nonneg (Ne.symm h0)
  have hm0 := hm.double.nonneg
  have hf0 : 0 ≤ ⌊m / n⌋ := Int.floor_nonneg.2 (div_nonneg hm0 hn0.le)
  have hle : n * ⌊m / n⌋ ≤ m := by
    have := Int.floor_le (m / n)
    rw [le_div_iff₀ hn0] at this
    linarith
  have hlt : m < n * ⌊m / n⌋ + n := by
    have := Int.lt_floor_add_one (m / n)
    rw [div_lt_iff₀ hn0] at this
    linarith
  generalize ⌊m / n⌋ = k at *
  have hk0 : (0 : ℚ) ≤ k := by exact_mod_cast hf0
  obtain ⟨a, e, ha, he1, he2, rfl⟩ := hm
  obtain ⟨b, f, hb, hf1, hf2, rfl⟩ := hn
  rcases le_total e f with hef | hef
  · -- a multiple of 2^e, not above a 2^e
    obtain ⟨j, rfl⟩ := Int.le.dest hef
    have hp := Number.two_zpow_pos e
    have hpow : (2 : ℚ) ^ (e + (j : ℤ)) = 2 ^ e * 2 ^ j := by
      rw [zpow_add₀ (by norm_num), zpow_natCast]
    have hval : (a : ℚ) * 2 ^ e - b * 2 ^ (e + (j : ℤ)) * k =
        ((a - b * 2 ^ j * k : ℤ) : ℚ) * 2 ^ e := by
      rw [hpow]
      push_cast
      ring
    rw [hval]
    have hc0 : (0 : ℚ) ≤ ((a - b * 2 ^ j * k : ℤ) : ℚ) := by
      have : 0 ≤ ((a - b * 2 ^ j * k : ℤ) : ℚ) * 2 ^ e := by rw [← hval]; linarith
      exact nonneg_of_mul_nonneg_left this hp
    have hc1 : 0 ≤ (a - b * 2 ^ j * k : ℤ) := by exact_mod_cast hc0
    obtain ⟨c, hc⟩ := Int.eq_ofNat_of_zero_le hc1
    refine ⟨c, e, ?_, he1, he2, by rw [hc]; simp⟩
    have hpos : (0 : ℤ) ≤ b * 2 ^ j * k := by positivity
    have hca : (c : ℤ) ≤ a := by rw [← hc]; omega
    omega
  · -- a multiple of 2^f, below b 2^f
    obtain ⟨j, rfl⟩ := Int.le.dest hef
    have hp := Number.two_zpow_pos f
    have hpow : (2 : ℚ) ^ (f + (j : ℤ)) = 2 ^ f * 2 ^ j := by
      rw [zpow_add₀ (by norm_num), zpow_natCast]
    have hval : (a : ℚ) * 2 ^ (f + (j : ℤ)) - b * 2 ^ f * k =
        ((a * 2 ^ j - b * k : ℤ) : ℚ) * 2 ^ f := by
      rw [hpow]
      push_cast
      ring
    rw [hval]
    have hc0 : (0 : ℚ) ≤ ((a * 2 ^ j - b * k : ℤ) : ℚ) := by
      have : 0 ≤ ((a * 2 ^ j - b * k : ℤ) : ℚ) * 2 ^ f := by rw [← hval]; linarith
      exact nonneg_of_mul_nonneg_left this hp
    have hc1 : 0 ≤ (a * 2 ^ j - b * k : ℤ) := by exact_mod_cast hc0
    obtain ⟨c, hc⟩ := Int.eq_ofNat_of_zero_le hc1
    refine ⟨c, f, ?_, hf1, hf2, by rw [hc]; simp⟩
    have h1 : ((a * 2 ^ j - b * k : ℤ) : ℚ) * 2 ^ f < b * 2 ^ f := by rw [← hval]; linarith
    have h2 : ((a * 2 ^ j - b * k : ℤ) : ℚ) < b := lt_of_mul_lt_mul_right h1 hp.le
    rw [hc] at h2
    have h3 : c < b := by exact_mod_cast h2
    omega

/-- **C104**: `remainder` of two finite numbers, one of them of single precision and the other inexact or any
fixnum, is exactly the remainder with the sign of the dividend. It is of single precision if both are, else a
flonum. What is missing: other exact operands; `C104_remainder_fails`. -/
theorem C104_remainder_partial {x y : Wide} {v w : ℚ} (hx : x.Finite v) (hy : y.Finite w) (hs : SomeSingle x y)
    (hw : w ≠ 0) :
    ∃ z r, ∃ k : Int, x.remainder y = .value z ∧
      Wide.Inexactly (isBinary32 x && isBinary32 y) z r ∧ v = w * k + r ∧ |r| < |w| ∧ 0 ≤ r * v := by
  rcases hx with ⟨d, rfl, hd, hdi⟩ | ⟨a, rfl, ha⟩
  · rcases hy with ⟨e, rfl, he, hei⟩ | ⟨b, rfl, hb⟩
    · obtain ⟨r, k, -, hr, h⟩ := Number.fmod_is hdi hei hd.double he.double hw
      refine ⟨_, r, k, rfl, ⟨_, hr, rfl, ?_⟩, h⟩
      obtain ⟨s, m, rfl, -⟩ := hdi
      obtain ⟨t, n, rfl, hw'⟩ := hei
      have hn : n ≠ 0 := by
        rintro rfl
        exact hw (by rw [← hw']; simp)
      simp only [Flo.fmod, if_neg hn]
      exact Rep.mod hd he hn
    · rcases hb with ⟨j, rfl, h4, h5, rfl⟩ | ⟨e, rfl, h4, h5⟩
      · obtain ⟨c1, c2⟩ := Number.castFixnum_spec h4 h5
        obtain ⟨r, k, hv, hr, h⟩ := Number.fmod_is hdi c1 hd.double c2 hw
        exact ⟨_, r, k, rfl, ⟨_, hr, rfl, hv⟩, h⟩
      · obtain ⟨r, k, hv, hr, h⟩ := Number.fmod_is hdi h5 hd.double h4 hw
        exact ⟨_, r, k, rfl, ⟨_, hr, rfl, hv⟩, h⟩
  · rcases hy with ⟨e, rfl, he, hei⟩ | ⟨b, rfl, hb⟩
    · rcases ha with ⟨j, rfl, h4, h5, rfl⟩ | ⟨d, rfl, h4, h5⟩
      · obtain ⟨c1, c2⟩ := Number.castFixnum_spec h4 h5
        obtain ⟨r, k, hv, hr, h⟩ := Number.fmod_is c1 hei c2 he.double hw
        exact ⟨_, r, k, rfl, ⟨_, hr, rfl, hv⟩, h⟩
      · obtain ⟨r, k, hv, hr, h⟩ := Number.fmod_is h5 hei h4 he.double hw
        exact ⟨_, r, k, rfl, ⟨_, hr, rfl, hv⟩, h⟩
    · rcases hs with ⟨d, hd⟩ | ⟨d, hd⟩ <;> cases hd

/-- **C104** fails: `(remainder 4398046511104 5f0)` is -1, not 4: with an exact operand that is not a
fixnum the multiple nearest to the dividend is taken off. -/
theorem C104_remainder_fails :
    ∃ d, Wide.remainder (.real (.exact (.large 4398046511104))) (.single (.finite false 5)) = .value (.single d) ∧
      d.Is (-1) := by
  have hr : Rep 4398046511104 := ⟨1, 42, by norm_num, by norm_num, by norm_num, by norm_num⟩
  obtain ⟨c, hc, ⟨s, m, rfl, hv⟩, hok⟩ := Homogeneous.C79_f64_exact (x := .exact (.large 4398046511104))
    (z := 4398046511104) ⟨_, rfl, Or.inr rfl⟩ (by norm_num)
  simp only [Homogeneous.inputF64, Outcome.value.injEq] at hc
  have hm : castLarge 4398046511104 = .finite s m := hc
  have hm0 : 0 ≤ m := Number.Rep.nonneg hok
  have hs : s = false := by
    cases s
    · rfl
    · simp only [if_true] at hv
      norm_num at hv
      linarith
  subst hs
  simp only [Bool.false_eq_true, if_false] at hv
  push_cast at hv
  subst hv
  have e1 : ofLarge 4398046511104 = .finite false 4398046511104 := by
    rw [ofLarge, hm, ofDouble, roundEven_rep false hr]
  refine ⟨_, by rw [Wide.remainder, Wide.rem, e1], ?_⟩
  have hf : ⌊(4398046511104 : ℚ) / 5⌋ = 879609302220 := by
    rw [Int.floor_eq_iff]
    norm_num
  have hne : Number.nearestEven (4398046511104 / 5) = 879609302221 := by
    rw [Number.nearestEven, hf, if_neg (by norm_num)]
    norm_num
  simp only [Flo.remainder, if_neg (show (5 : ℚ) ≠ 0 by norm_num), hne]
  refine ⟨_, _, rfl, ?_⟩
  norm_num

/-- A witness for `C104_remainder_partial`: `(remainder 7.5f0 2)`. -/
example : (Wide.single (.finite false (15 / 2))).Finite (15 / 2) ∧ (Wide.real (.exact (.small 2))).Finite 2 := by
  refine ⟨.inl ⟨_, rfl, ⟨15, -1, by norm_num, by norm_num, by norm_num, by norm_num⟩, _, _, rfl, by norm_num⟩,
    .inr ⟨_, rfl, .inl ⟨2, rfl, by norm_num, by norm_num, by norm_num⟩⟩⟩

/-! ### `modulo` -/

theorem rounds_double {d : Flo} {x : ℚ} (h : d.Rounds x) : d.Valid := by
  rw [Number.Flo.Rounds] at h
  split at h
  · subst h; trivial
  · obtain ⟨s, v, rfl, _, _, h3⟩ := h
    exact h3.1

/-- The remainder of an inexact number. -/
theorem rem_inexact {s : Bool} {x y : Wide} {v w : ℚ} (hx : Wide.Inexactly s x v) (hy : y.Finite w)
    (hs : s = true → isBinary32 y = true) (hw : w ≠ 0) :
    ∃ z r, ∃ k : Int, x.rem y = .value z ∧ Wide.Inexactly s z r ∧ v = w * k + r ∧ |r| < |w| ∧ 0 ≤ r * v := by
  obtain ⟨d, hd, hx⟩ := hx
  cases s with
  | true =>
    obtain ⟨rfl, hv⟩ := hx
    obtain ⟨z, r, k, e, h, h'⟩ := C104_remainder_partial (.inl ⟨d, rfl, hv, hd⟩) hy (.inl ⟨d, rfl⟩) hw
    rw [hs rfl] at h
    exact ⟨z, r, k, e, h, h'⟩
  | false =>
    obtain ⟨rfl, hv⟩ := hx
    rcases hy with ⟨e, rfl, he, hei⟩ | ⟨b, rfl, hb⟩
    · exact C104_remainder_partial (x := .real (.flo d)) (.inr ⟨_, rfl, .inr ⟨d, rfl, hv, hd⟩⟩)
        (.inl ⟨e, rfl, he, hei⟩) (.inr ⟨e, rfl⟩) hw
    · obtain ⟨c, r, k, e, h1, h2, h⟩ := Number.C75_remainder_partial (x := .flo d) (.inr ⟨d, rfl, hv, hd⟩) hb
        (.inl rfl) hw
      rw [Number.Real.remainder] at e
      exact ⟨_, r, k, by simp only [Wide.rem, e]; rfl, ⟨c, h2, rfl, h1⟩, h⟩

/-- The sum of an inexact number and another one is exact if it is an integer of no more than 24 bits. -/
theorem add_inexact {s : Bool} {x y : Wide} {v w : Int} (hx : Wide.Inexactly s x v) (hy : y.Finite w)
    (hs : s = true → isBinary32 y = true) (hb : |v + w| < 2 ^ 24) :
    ∃ z, x.add y = .value z ∧ Wide.Inexactly s z (v + w : Int) := by
  have hr : Rep |((v + w : Int) : ℚ)| := Rep.int hb
  push_cast at hr ⊢
  obtain ⟨d, hd, hx⟩ := hx
  cases s with
  | true =>
    obtain ⟨rfl, hv⟩ := hx
    rcases hy with ⟨e, rfl, he, hei⟩ | ⟨b, rfl, hb⟩
    · have := add_rounds hd hei
      exact ⟨_, rfl, _, this.rep hr, rfl, this.valid⟩
    · exact absurd (hs rfl) (by simp [isBinary32])
  | false =>
    obtain ⟨rfl, hv⟩ := hx
    rcases hy with ⟨e, rfl, he, hei⟩ | ⟨b, rfl, hb⟩
    · obtain ⟨c, ec, hc⟩ := (C104_arithmetic_flonum hd hei (.inr ⟨rfl, rfl⟩)).1
      exact ⟨_, ec, c, hc.rep hr.double, rfl, rounds_double hc⟩
    · have hyhas : b.Has w := by
        rcases hb with ⟨i, rfl, h1, h2, h3⟩ | ⟨d, rfl, _, h2⟩
        · have hiw : w = i := by exact_mod_cast h3
          subst hiw
          exact Or.inl ⟨_, rfl, ⟨h1, h2⟩, rfl, Number.Rep.int (abs_lt.2 ⟨by omega, by omega⟩)⟩
        · exact Or.inr ⟨d, rfl, h2⟩
      obtain ⟨c, ec, hc⟩ := (Number.C74_closest_partial (x := .flo d) (Or.inr ⟨d, rfl, hd⟩) hyhas (Or.inl rfl)).1
      exact ⟨_, by simp only [Wide.add, lift, ec]; rfl, c, hc.rep hr.double, rfl, rounds_double hc⟩

/-- **C104**: `modulo` of two integers, one of them of single precision and the other inexact or a fixnum,
with a divisor of magnitude at most 2^23, is exactly the remainder with the sign of the divisor. It is of single
precision if both are, else a flonum. What is missing: other exact operands and greater divisors, with which the
sum in between may be rounded; `C104_modulo_fails`. -/
theorem C104_modulo_partial {x y : Wide} {v w : Int} (hx : x.Finite v) (hy : y.Finite w) (hs : SomeSingle x y)
    (hw : w ≠ 0) (hb : |w| ≤ 2 ^ 23) :
    ∃ z, ∃ r k : Int, x.modulo y = .value z ∧
      Wide.Inexactly (isBinary32 x && isBinary32 y) z r ∧ v = w * k + r ∧ |r| < |w| ∧ 0 ≤ r * w := by
  have hwq : (w : ℚ) ≠ 0 := by exact_mod_cast hw
  obtain ⟨z1, r1, k1, e1, hz1, hk1, hl1, _⟩ := C104_remainder_partial hx hy hs hwq
  obtain ⟨i1, rfl⟩ : ∃ i : Int, r1 = i := ⟨v - w * k1, by push_cast; linarith⟩
  have hl1' : |i1| < |w| := by exact_mod_cast hl1
  have hk1' : v = w * k1 + i1 := by exact_mod_cast hk1
  have hsum : |i1 + w| < 2 ^ 24 := by
    have := abs_add_le i1 w
    omega
  have hy32 : (isBinary32 x && isBinary32 y) = true → isBinary32 y = true := by
    simp only [Bool.and_eq_true]
    exact fun h => h.2
  obtain ⟨z2, e2, hz2⟩ := add_inexact hz1 hy hy32 hsum
  obtain ⟨z3, r3, k3, e3, hz3, hk3, hl3, hs3⟩ := rem_inexact hz2 hy hy32 hwq
  obtain ⟨i3, rfl⟩ : ∃ i : Int, r3 = i := ⟨i1 + w - w * k3, by push_cast at hk3 ⊢; linarith⟩
  have hl3' : |i3| < |w| := by exact_mod_cast hl3
  have hk3' : i1 + w = w * k3 + i3 := by exact_mod_cast hk3
  have hs3' : 0 ≤ i3 * (i1 + w) := by exact_mod_cast hs3
  refine ⟨z3, i3, k1 + k3 - 1, ?_, hz3, by rw [hk1']; linarith, hl3', ?_⟩
  · rw [Wide.remainder] at e1
    simp only [Wide.modulo, e1, e2, Number.bind_value]
    exact e3
  · rcases lt_or_gt_of_ne hw with h | h
    · have h1 : i1 + w < 0 := by
        have := (abs_lt.1 hl1').2
        rw [abs_of_neg h] at this
        omega
      have h2 : i3 ≤ 0 := by
        by_contra hc
        nlinarith
      nlinarith
    · have h1 : 0 < i1 + w := by
        have := (abs_lt.1 hl1').1
        rw [abs_of_pos h] at this
        omega
      have h2 : 0 ≤ i3 := by
        by_contra hc
        nlinarith
      nlinarith

/-- **C104** fails: `(modulo 1f0 16777216f0)` is 0, not 1: the sum of the remainder and the divisor is rounded. -/
theorem C104_modulo_fails :
    Wide.modulo (.single (.finite false 1)) (.single (.finite false 16777216)) = .value (.single (.finite false 0)) ∧
    Valid (.finite false 16777216) := by
  have h1 : (Flo.finite false 1).fmod (.finite false 16777216) = .finite false 1 := by
    rw [Flo.fmod, if_neg (by norm_num), show ⌊(1 : ℚ) / 16777216⌋ = 0 by rw [Int.floor_eq_iff]; norm_num]
    norm_num
  have h2 : (Flo.finite false 16777216).fmod (.finite false 16777216) = .finite false 0 := by
    rw [Flo.fmod, if_neg (by norm_num), div_self (by norm_num), Int.floor_one]
    norm_num
  have h3 : add (.finite false 1) (.finite false 16777216) = .finite false 16777216 := by
    have := roundEven_half (z := false) (e := 0) (by norm_num)
    norm_num at this
    simp only [add, signed, Bool.false_eq_true, if_false, Bool.and_false]
    rw [show (1 : ℚ) + 16777216 = 16777217 by norm_num, this]
  refine ⟨?_, ⟨1, 24, by norm_num, by norm_num, by norm_num, by norm_num⟩⟩
  simp only [Wide.modulo, Wide.rem, h1, Number.bind_value, Wide.add, lift, h3, h2]

/-- A witness for `C104_modulo_partial`: `(modulo -7f0 2)`. -/
example : (Wide.single (.finite true 7)).Finite ((-7 : Int) : ℚ) ∧
    (Wide.real (.exact (.small 2))).Finite ((2 : Int) : ℚ) := by
  refine ⟨.inl ⟨_, rfl, ⟨7, 0, by norm_num, by norm_num, by norm_num, by norm_num⟩, _, _, rfl, by norm_num⟩,
    .inr ⟨_, rfl, .inl ⟨2, rfl, by norm_num, by norm_num, rfl⟩⟩⟩

/-! ### Nearest integers -/

/-- Numbers of single precision from 2^23 on are integers. -/
theorem Rep.integer {x : ℚ} (h : Rep x) (hx : 2 ^ 23 ≤ x) : ∃ w : ℤ, x = w := by
  obtain ⟨m, e, h1, h2, h3, rfl⟩ := h
  rcases le_or_gt 0 e with he | he
  · obtain ⟨n, rfl⟩ := Int.eq_ofNat_of_zero_le he
    refine ⟨m * 2 ^ n, ?_⟩
    push_cast
    rfl
  · exfalso
    have hm : (m : ℚ) < 2 ^ 24 := by exact_mod_cast h1
    have hp : (2 : ℚ) ^ e ≤ 1 / 2 := by
      have : (2 : ℚ) ^ e ≤ 2 ^ (-1 : ℤ) := zpow_le_zpow_right₀ (by norm_num) (by omega)
      norm_num at this ⊢
      exact this
    have hp0 := Number.two_zpow_pos e
    have hm0 : (0 : ℚ) ≤ m := Nat.cast_nonneg m
    have h4 : (m : ℚ) * 2 ^ e ≤ m * (1 / 2) := mul_le_mul_of_nonneg_left hp hm0
    linarith

/-- Integers next to numbers of single precision are numbers of single precision. -/
theorem Rep.near {v : ℚ} {z : ℤ} (h : Rep |v|) (h1 : |(z : ℚ) - v| < 1) : Rep |(z : ℚ)| := by
  rcases lt_or_ge |v| (2 ^ 23) with hs | hs
  · refine Rep.int ?_
    have h2 : |(z : ℚ)| < 2 ^ 23 + 1 := by
      have := abs_sub_abs_le_abs_sub (z : ℚ) v
      linarith
    have h3 : ((|z| : ℤ) : ℚ) < ((2 ^ 23 + 1 : ℤ) : ℚ) := by
      rw [Int.cast_abs]
      refine lt_of_lt_of_eq h2 ?_
      norm_num
    have h4 : |z| < 2 ^ 23 + 1 := by exact_mod_cast h3
    omega
  · obtain ⟨w, hw⟩ := h.integer hs
    have hz : ∃ u : ℤ, v = u := by
      rcases abs_choice v with h | h
      · exact ⟨w, by rw [← h, hw]⟩
      · exact ⟨-w, by push_cast; linarith⟩
    obtain ⟨u, rfl⟩ := hz
    have h2 : |z - u| < 1 := by exact_mod_cast h1
    have h3 : z = u := by
      have := Int.abs_lt_one_iff.1 h2
      omega
    rw [h3]
    exact h

theorem is_rep {d : Flo} {v : ℚ} (h : d.Is v) (hd : Valid d) : Rep |v| := by
  obtain ⟨s, m, rfl, hv⟩ := h
  have hm : Rep m := hd
  rw [← hv]
  cases s <;> simpa [abs_of_nonneg hm.double.nonneg] using hm

theorem valid_of_rep {d : Flo} {v : ℚ} (h : d.Is v) (hd : d.Valid) (hr : Rep |v|) : Valid d := by
  obtain ⟨s, m, rfl, hv⟩ := h
  have hm : 0 ≤ m := Number.Rep.nonneg hd
  rw [← hv] at hr
  change Rep m
  cases s <;> simpa [abs_of_nonneg hm] using hr

/-- **C104 (nearest integers).** `floor` and `ceiling` of a finite number of single precision are the integers
below and above it, `truncate` the integer part, `abs` the absolute value, in single precision. -/
theorem C104_floor {d : Flo} {v : ℚ} (h : d.Is v) (hd : Valid d) :
    (∃ e, Wide.floor (.single d) = .value (.single e) ∧ Valid e ∧ e.Is ⌊v⌋) ∧
    (∃ e, Wide.ceiling (.single d) = .value (.single e) ∧ Valid e ∧ e.Is ⌈v⌉) ∧
    (∃ e z, Wide.truncate (.single d) = .value (.single e) ∧ Valid e ∧ e.Is z ∧ (∃ i : Int, z = i) ∧
      |z| ≤ |v| ∧ |v| < |z| + 1 ∧ 0 ≤ z * v) ∧
    (∃ e, Wide.abs (.single d) = .value (.single e) ∧ Valid e ∧ e.Is |v|) := by
  have hr := is_rep h hd
  obtain ⟨⟨e1, h1, h1v, h1i⟩, ⟨e2, h2, h2v, h2i⟩, ⟨e3, z, h3, h3v, h3i, ⟨i, rfl⟩, ha, hb, hc⟩⟩ :=
    Number.C74_floor h hd.double
  obtain ⟨e4, h4, h4v, h4i⟩ := Number.C74_abs h hd.double
  cases h1
  cases h2
  cases h3
  cases h4
  refine ⟨⟨_, rfl, valid_of_rep h1i h1v (hr.near ?_), h1i⟩, ⟨_, rfl, valid_of_rep h2i h2v (hr.near ?_), h2i⟩,
    ⟨_, _, rfl, valid_of_rep h3i h3v (hr.near ?_), h3i, ⟨i, rfl⟩, ha, hb, hc⟩,
    ⟨_, rfl, valid_of_rep h4i h4v (by rwa [abs_abs]), h4i⟩⟩
  · have h1 := Int.floor_le v
    have h2 := Int.lt_floor_add_one v
    rw [abs_lt]
    constructor <;> linarith
  · have h1 := Int.le_ceil v
    have h2 := Int.ceil_lt_add_one v
    rw [abs_lt]
    constructor <;> linarith
  · rcases lt_trichotomy v 0 with hv | hv | hv
    · have hi : (i : ℚ) ≤ 0 := by
        by_contra hh
        nlinarith
      rw [abs_of_nonpos hi, abs_of_neg hv] at ha hb
      rw [abs_lt]
      constructor <;> linarith
    · subst hv
      rw [abs_zero] at ha
      have : (i : ℚ) = 0 := abs_nonpos_iff.1 ha
      rw [this]
      norm_num
    · have hi : 0 ≤ (i : ℚ) := by
        by_contra hh
        nlinarith
      rw [abs_of_nonneg hi, abs_of_pos hv] at ha hb
      rw [abs_lt]
      constructor <;> linarith

/-- **C104**, partly: `round` of a finite number of single precision is an integer that is no further away than
any other, in single precision. R7RS asks for the even one of two; `C104_round_fails`. -/
theorem C104_round_partial {d : Flo} {v : ℚ} (h : d.Is v) (hd : Valid d) :
    ∃ e, ∃ z : Int, Wide.round (.single d) = .value (.single e) ∧ Valid e ∧ e.Is z ∧ |v - z| ≤ 1 / 2 := by
  obtain ⟨e, z, h1, h2, h3, h4⟩ := Number.C74_round_partial h hd.double
  cases h1
  refine ⟨_, z, rfl, valid_of_rep h3 h2 ((is_rep h hd).near ?_), h3, h4⟩
  rw [abs_sub_comm]
  linarith

/-- **C104** fails: `(round 2.5f0)` is 3, not the even 2. -/
theorem C104_round_fails :
    Wide.round (.single (.finite false (5 / 2))) = .value (.single (.finite false 3)) := by
  have := Number.C74_round_fails
  simp only [Number.Real.round, Number.Real.nearest, Outcome.value.injEq, Real.flo.injEq] at this
  simp only [Wide.round, Wide.nearest, this]

/-- Just below a positive integer there is a representable number. -/
theorem Rep.below {n : ℕ} (h0 : 0 < n) (h1 : n < 2 ^ 24) :
    ∃ m : ℚ, Rep m ∧ m < n ∧ n - m ≤ n / 2 ^ 23 := by
  have hk := Nat.log2_self_le (n := n) (by omega)
  have hku : n < 2 ^ (n.log2 + 1) := Nat.lt_log2_self
  have hk23 : n.log2 ≤ 23 := by
    have : 2 ^ n.log2 < 2 ^ 24 := lt_of_le_of_lt hk h1
    have := (Nat.pow_lt_pow_iff_right (by norm_num : 1 < 2)).1 this
    omega
  generalize n.log2 = k at *
  obtain ⟨j, hj⟩ := Nat.exists_eq_add_of_le hk23
  have hp : (0 : ℚ) < 2 ^ j := by positivity
  have hj' : (2 : ℚ) ^ (-(j : ℤ)) = 1 / 2 ^ j := by rw [zpow_neg, zpow_natCast, one_div]
  refine ⟨n - 1 / 2 ^ j, ⟨n * 2 ^ j - 1, -j, ?_, by omega, by omega, ?_⟩, ?_, ?_⟩
  · have : n * 2 ^ j < 2 ^ (k + 1) * 2 ^ j := Nat.mul_lt_mul_of_pos_right hku (by positivity)
    rw [← pow_add, show k + 1 + j = 24 by omega] at this
    omega
  · have h1 : 1 ≤ n * 2 ^ j := Nat.mul_pos h0 (by positivity)
    rw [Nat.cast_sub h1, hj']
    push_cast
    field_simp
  · have : 0 < 1 / (2 : ℚ) ^ j := by positivity
    linarith
  · have hkq : (2 : ℚ) ^ k ≤ n := by exact_mod_cast hk
    have h23 : (2 : ℚ) ^ 23 = 2 ^ k * 2 ^ j := by rw [← pow_add, ← hj]
    rw [sub_sub_cancel, h23, div_le_div_iff₀ hp (by positivity)]
    nlinarith

/-- Rounding the quotient of two integers does not carry it to the next integer. -/
theorem Nearest.floor {v w : ℕ} {p : ℚ} (hv : v + 1 < 2 ^ 24) (hw : 0 < w)
    (h : Nearest (v / w) p) : ⌊p⌋ = ((v / w : ℕ) : Int) := by
  have hwq : (0 : ℚ) < w := by exact_mod_cast hw
  have hq1 : ((v / w : ℕ) : ℚ) * w ≤ v := by exact_mod_cast Nat.div_mul_le_self v w
  have hnat : v + 1 ≤ (v / w + 1) * w := by
    have h1 := Nat.div_add_mod v w
    have h2 := Nat.mod_lt v hw
    rw [Nat.add_mul, Nat.one_mul, Nat.mul_comm]
    omega
  have hn1 : v / w ≤ v := Nat.div_le_self v w
  have hrep : Rep ((v / w : ℕ) : ℚ) := by
    have := Rep.int (z := ((v / w : ℕ) : Int)) (by
      rw [abs_of_nonneg (Int.natCast_nonneg _)]
      generalize v / w = q at hn1
      omega)
    rwa [Int.cast_natCast, abs_of_nonneg (Nat.cast_nonneg _)] at this
  obtain ⟨m, hm, hmlt, hmle⟩ := Rep.below (n := v / w + 1) (Nat.succ_pos _)
    (by generalize v / w = q at hn1; omega)
  generalize v / w = q at *
  have hx1 : (q : ℚ) ≤ v / w := (le_div_iff₀ hwq).2 hq1
  have hnq : (v : ℚ) + 1 ≤ (q + 1) * w := by exact_mod_cast hnat
  have hx2 : (v : ℚ) / w < q + 1 := by
    rw [div_lt_iff₀ hwq]
    linarith
  have hvq : (v : ℚ) + 1 < 2 ^ 24 := by exact_mod_cast hv
  have hxw : (v : ℚ) = v / w * w := by field_simp
  generalize (v : ℚ) / w = x at *
  rw [Int.floor_eq_iff]
  push_cast at hmlt hmle ⊢
  constructor
  · have h1 := h.2.1 _ hrep
    rw [abs_of_nonneg (by linarith : 0 ≤ x - q)] at h1
    have := (abs_le.1 h1).2
    linarith
  · by_contra hc
    rw [not_lt] at hc
    have h1 := h.2.1 _ hm
    rw [abs_of_nonpos (by linarith : x - p ≤ 0)] at h1
    rcases lt_or_ge x m with hxm | hxm
    · rw [abs_of_neg (by linarith : x - m < 0)] at h1
      linarith
    · rw [abs_of_nonneg (by linarith : 0 ≤ x - m)] at h1
      have h2 : ((q : ℚ) + 1) * (1 - 1 / 2 ^ 24) ≤ x := by
        have : ((q : ℚ) + 1) / 2 ^ 23 = 2 * ((q + 1) * (1 / 2 ^ 24)) := by ring
        rw [this] at hmle
        linarith
      have h3 : ((q : ℚ) + 1) * (1 - 1 / 2 ^ 24) * w ≤ x * w :=
        mul_le_mul_of_nonneg_right h2 hwq.le
      have h4 : ((v : ℚ) + 1) * (1 - 1 / 2 ^ 24) ≤ (q + 1) * w * (1 - 1 / 2 ^ 24) :=
        mul_le_mul_of_nonneg_right hnq (by norm_num)
      have h5 : ((v : ℚ) + 1) * (1 / 2 ^ 24) < 2 ^ 24 * (1 / 2 ^ 24) :=
        mul_lt_mul_of_pos_right hvq (by norm_num)
      rw [← hxw] at h3
      norm_num at h3 h4 h5
      linarith

/-- **C104**, partly: `quotient` of two integers, each of single precision or a fixnum of no more than 24 bits, one
of them of single precision, with a dividend of magnitude below `2 ^ 24 - 1`, is the integer quotient, in single
precision. Beyond that: `C104_quotient_fails`. -/
theorem C104_quotient_partial {x y : Wide} {v w : Int} (hs : SomeSingle x y) (hx : x.Plainly v) (hy : y.Plainly w)
    (hw : w ≠ 0) (hb : |v| + 1 < 2 ^ 24) :
    ∃ d, ∃ q : Int, x.quotient y = .value (.single d) ∧ Valid d ∧ d.Is q ∧ |q| * |w| ≤ |v| ∧
      |v| < (|q| + 1) * |w| ∧ 0 ≤ q * (v * w) := by
  have hwq : (w : ℚ) ≠ 0 := by exact_mod_cast hw
  obtain ⟨d, e, h⟩ := (C104_arithmetic hs hx hy).2.2.2 hwq
  have hvn : |v| = (v.natAbs : Int) := Int.abs_eq_natAbs v
  have hwn : |w| = (w.natAbs : Int) := Int.abs_eq_natAbs w
  have hw0 : 0 < w.natAbs := Int.natAbs_pos.2 hw
  have habs : |(v : ℚ) / w| = (v.natAbs : ℚ) / w.natAbs := by
    rw [abs_div]
    congr 1
    · rw [← Int.cast_abs, hvn, Int.cast_natCast]
    · rw [← Int.cast_abs, hwn, Int.cast_natCast]
  have hno : ¬ (2 : ℚ) ^ 128 - 2 ^ 103 ≤ |(v : ℚ) / w| := by
    have hr : Rep |(v : ℚ)| := Rep.int (by omega)
    intro hc
    refine hr.not_over (hc.trans ?_)
    rw [abs_div]
    refine div_le_self (abs_nonneg _) ?_
    have : 1 ≤ |w| := Int.one_le_abs hw
    exact_mod_cast this
  rw [Rounds, if_neg hno] at h
  obtain ⟨s, p, rfl, hneg, hpos, hnear⟩ := h
  rw [habs] at hnear
  have hfl := Nearest.floor (by omega) hw0 hnear
  have hp0 := hnear.1.double.nonneg
  have hfp : (0 : ℚ) ≤ ((v.natAbs / w.natAbs : ℕ) : ℚ) := Nat.cast_nonneg _
  have htr : |(Number.stdTrunc (signed s p) : ℚ)| = ((v.natAbs / w.natAbs : ℕ) : ℚ) := by
    have h1 : |signed s p| = p := by cases s <;> simp [signed, abs_of_nonneg hp0]
    rw [← Int.cast_abs, Number.stdTrunc, h1, hfl]
    split
    · rw [abs_neg, abs_of_nonneg (by positivity), Int.cast_natCast]
    · rw [abs_of_nonneg (by positivity), Int.cast_natCast]
  refine ⟨.finite s ((v.natAbs / w.natAbs : ℕ) : ℚ),
    (if s then -((v.natAbs / w.natAbs : ℕ) : Int) else ((v.natAbs / w.natAbs : ℕ) : Int)), ?_,
    ?_, ⟨s, _, rfl, ?_⟩, ?_, ?_, ?_⟩
  · simp only [Wide.quotient, e, Number.bind_value, Wide.truncate, Wide.nearest, Flo.nearest, htr]
  · have hle : v.natAbs / w.natAbs ≤ v.natAbs := Nat.div_le_self _ _
    have := Rep.int (z := ((v.natAbs / w.natAbs : ℕ) : Int)) (by
      rw [abs_of_nonneg (Int.natCast_nonneg _)]
      generalize v.natAbs / w.natAbs = q at hle
      omega)
    rwa [Int.cast_natCast, abs_of_nonneg (Nat.cast_nonneg _)] at this
  · cases s
    · simp only [Bool.false_eq_true, if_false, Int.cast_natCast]
    · simp only [if_true, Int.cast_neg, Int.cast_natCast]
  · have h1 : ((v.natAbs / w.natAbs : ℕ) : Int) * (w.natAbs : Int) ≤ (v.natAbs : Int) := by
      exact_mod_cast Nat.div_mul_le_self v.natAbs w.natAbs
    rw [hvn, hwn]
    cases s
    · simpa only [Bool.false_eq_true, if_false, Nat.abs_cast] using h1
    · simpa only [if_true, abs_neg, Nat.abs_cast] using h1
  · have h1 : (v.natAbs : Int) < (((v.natAbs / w.natAbs : ℕ) : Int) + 1) * (w.natAbs : Int) := by
      exact_mod_cast Nat.lt_mul_of_div_lt (Nat.lt_succ_self (v.natAbs / w.natAbs)) hw0
    rw [hvn, hwn]
    cases s
    · simpa only [Bool.false_eq_true, if_false, Nat.abs_cast] using h1
    · simpa only [if_true, abs_neg, Nat.abs_cast] using h1
  · have hw2 : (0 : ℚ) < (w : ℚ) * w := mul_self_pos.2 hwq
    have hdiv : (v : ℚ) * w = (v / w) * (w * w) := by field_simp
    have hq0 : (0 : Int) ≤ ((v.natAbs / w.natAbs : ℕ) : Int) := by positivity
    cases s
    · have : ¬ (v : ℚ) / w < 0 := fun hc => by cases hneg hc
      have h1 : (0 : ℚ) ≤ (v : ℚ) * w := by
        rw [hdiv]
        exact mul_nonneg (not_lt.1 this) hw2.le
      have h2 : 0 ≤ v * w := by exact_mod_cast h1
      simpa only [Bool.false_eq_true, if_false] using mul_nonneg hq0 h2
    · have : ¬ 0 < (v : ℚ) / w := fun hc => by cases hpos hc
      have h1 : (v : ℚ) * w ≤ 0 := by
        rw [hdiv]
        exact mul_nonpos_of_nonpos_of_nonneg (not_lt.1 this) hw2.le
      have h2 : v * w ≤ 0 := by exact_mod_cast h1
      simp only [if_true]
      nlinarith

/-- **C104** fails: `(quotient 20971524f0 4194305f0)` is 5, although five times the divisor is more than the
dividend: what is truncated is the rounded ratio. -/
theorem C104_quotient_fails :
    Wide.quotient (.single (.finite false 20971524)) (.single (.finite false 4194305)) =
      .value (.single (.finite false 5)) ∧
    Valid (.finite false 20971524) ∧ Valid (.finite false 4194305) ∧ (20971524 : ℚ) < 5 * 4194305 := by
  have hlog : Int.log 2 |(20971524 / 4194305 : ℚ)| = 2 := by
    refine le_antisymm ?_ ?_
    · refine Int.lt_add_one_iff.1 ((Int.lt_zpow_iff_log_lt (by norm_num) (by norm_num)).1 ?_)
      norm_num
    · refine (Int.zpow_le_iff_le_log (by norm_num) (by norm_num)).1 ?_
      norm_num
  have hu : ulp (20971524 / 4194305 : ℚ) = 1 / 2 ^ 21 := by
    rw [ulp, hlog, max_eq_left (by norm_num)]
    norm_num
  have hf : ⌊|(20971524 / 4194305 : ℚ)| / (1 / 2 ^ 21)⌋ = 10485759 := by
    rw [Int.floor_eq_iff]
    norm_num
  have hr : roundEven false (20971524 / 4194305) = .finite false 5 := by
    rw [roundEven, if_neg (by norm_num), hu, hf]
    dsimp only
    have hm : ¬ (|(20971524 / 4194305 : ℚ)| / (1 / 2 ^ 21) - ((10485759 : ℤ) : ℚ) < 1 / 2 ∨
        |(20971524 / 4194305 : ℚ)| / (1 / 2 ^ 21) - ((10485759 : ℤ) : ℚ) = 1 / 2 ∧
          (10485759 : ℤ) % 2 = 0) := by norm_num
    rw [if_neg hm, if_neg (by norm_num)]
    norm_num
  refine ⟨?_, ⟨5242881, 2, by norm_num, by norm_num, by norm_num, by norm_num⟩,
    ⟨4194305, 0, by norm_num, by norm_num, by norm_num, by norm_num⟩, by norm_num⟩
  have h3 : div (.finite false 20971524) (.finite false 4194305) = .finite false 5 := by
    rw [div, if_neg (by norm_num)]
    exact hr
  simp only [Wide.quotient, Wide.div, lift, h3, Number.bind_value, Wide.truncate, Wide.nearest]
  have h4 : Number.stdTrunc 5 = 5 := by norm_num [Number.stdTrunc]
  simp [Flo.nearest, signed, h4]

/-- A witness for `C104_floor`, `C104_round_partial` and `C104_quotient_partial`: `(floor -2.5f0)`,
`(quotient -7f0 2)`. -/
example : (Flo.finite true (5 / 2)).Is (-5 / 2) ∧ Valid (.finite true (5 / 2)) ∧
    (Wide.single (.finite true 7)).Plainly ((-7 : Int) : ℚ) ∧
    (Wide.real (.exact (.small 2))).Plainly ((2 : Int) : ℚ) := by
  refine ⟨⟨_, _, rfl, by norm_num⟩, ⟨5, -1, by norm_num, by norm_num, by norm_num, by norm_num⟩,
    .inl ⟨_, rfl, _, _, rfl, by norm_num⟩, .inr ⟨2, rfl, by norm_num, rfl⟩⟩

/-! ### Predicates -/

/-- **C104 (predicates).** `zero?`, `positive?`, `negative?`, `integer?`, `rational?`, `infinite?`, `nan?`, `exact?` of
a finite number of single precision. -/
theorem C104_predicates {d : Flo} {v : ℚ} (h : d.Is v) (hd : Valid d) :
    Wide.isZero (.single d) = .value (decide (v = 0)) ∧ Wide.isPositive (.single d) = .value (decide (0 < v)) ∧
    Wide.isNegative (.single d) = .value (decide (v < 0)) ∧
    (Wide.isInteger (.single d) = true ↔ ∃ z : Int, v = z) ∧ Wide.isRational (.single d) = true ∧
    Wide.isInfinite (.single d) = false ∧ Wide.isNan (.single d) = false ∧ Wide.isExact (.single d) = false := by
  obtain ⟨h1, h2, h3, h4, h5, -⟩ := Number.C74_predicates_partial h hd.double true
  obtain ⟨z1, z2, z3⟩ := Number.C73_sign h
  have h0 : ofFixnum 0 = Number.castFixnum 0 := by
    simp [ofFixnum, roundEven, Number.castFixnum, Number.roundEven]
  refine ⟨?_, ?_, ?_, h1, h2, h4, h5, rfl⟩
  · simp only [Wide.isZero, Wide.equals, h0]
    exact z1
  · simp only [Wide.isPositive, Wide.lessThan, h0]
    exact z2
  · simp only [Wide.isNegative, Wide.lessThan, h0]
    exact z3

/-- **C104 (parity).** `even?` and `odd?` of an inexact integer, of single precision or a flonum, are the parity of
its value. -/
theorem C104_even {s : Bool} {x : Wide} {z : Int} (hx : Wide.Inexactly s x z) :
    x.isEven = .value (decide (Even z)) ∧ x.isOdd = .value (decide (Odd z)) := by
  have hy : (Wide.real (.exact (.small 2))).Finite ((2 : Int) : ℚ) :=
    .inr ⟨_, rfl, .inl ⟨2, rfl, by norm_num, by norm_num, rfl⟩⟩
  have key : ∃ d r, ∃ k : Int, x.remainder (.real (.exact (.small 2))) = .value (.real (.flo d)) ∧ d.Is r ∧
      (z : ℚ) = 2 * k + r ∧ |r| < 2 := by
    cases s with
    | true =>
      obtain ⟨d, hd, rfl, hv⟩ := hx
      obtain ⟨w, r, k, e, ⟨c, hc, rfl, -⟩, h1, h2, -⟩ :=
        C104_remainder_partial (.inl ⟨d, rfl, hv, hd⟩) hy (.inl ⟨d, rfl⟩) (by norm_num)
      exact ⟨c, r, k, e, hc, by simpa using h1, by simpa using h2⟩
    | false =>
      obtain ⟨w, r, k, e, ⟨c, hc, rfl, -⟩, h1, h2, -⟩ := rem_inexact hx hy (by simp) (by norm_num)
      exact ⟨c, r, k, e, hc, by simpa using h1, by simpa using h2⟩
  obtain ⟨d, r, k, e, hd, h1, h2⟩ := key
  have hz : decide (r = 0) = decide (Even z) := by
    have hr : r = ((z - 2 * k : Int) : ℚ) := by
      push_cast
      linarith
    rw [hr] at h2 ⊢
    have h3 : |z - 2 * k| < 2 := by exact_mod_cast h2
    rw [abs_lt] at h3
    rw [decide_eq_decide, Int.cast_eq_zero, Int.even_iff]
    omega
  have he : x.isEven = .value (decide (Even z)) := by
    rw [Wide.isEven, e, Number.bind_value, ← hz]
    exact (Number.C73_sign hd).1
  refine ⟨he, ?_⟩
  rw [Wide.isOdd, he, Number.bind_value]
  simp [← Int.not_even_iff_odd]

/-- **C104 (numerator and denominator).** `numerator` and `denominator` of a finite number of single precision are
flonums with the values of lowest terms. -/
theorem C104_numerator {d : Flo} {v : ℚ} (h : d.Is v) (hd : Valid d) :
    (∃ e, Wide.numerator (.single d) = .value (.real (.flo e)) ∧ e.Is v.num) ∧
    (∃ e, Wide.denominator (.single d) = .value (.real (.flo e)) ∧ e.Is v.den) := by
  obtain ⟨⟨a, ha, ha'⟩, hb⟩ := Number.C75_numerator_partial h hd.double
  have hden : v.den < 2 ^ 1024 := by
    obtain ⟨m, e, -, h2, -, hv⟩ := is_rep h hd
    obtain ⟨j, hj⟩ := Int.eq_ofNat_of_zero_le (show 0 ≤ e + 149 by omega)
    have hN : |v| = ((m * 2 ^ j : ℕ) : ℤ) / ((2 ^ 149 : ℕ) : ℤ) := by
      rw [hv, show e = (j : ℤ) - (149 : ℕ) by push_cast; omega, zpow_sub₀ (by norm_num), zpow_natCast, zpow_natCast]
      push_cast
      ring
    have hz : ∃ z : ℤ, v = z / ((2 ^ 149 : ℕ) : ℤ) := by
      rcases abs_choice v with h | h
      · exact ⟨_, by rw [← h]; exact hN⟩
      · refine ⟨-((m * 2 ^ j : ℕ) : ℤ), ?_⟩
        rw [Int.cast_neg, neg_div, ← hN, h, neg_neg]
    obtain ⟨z, hz⟩ := hz
    have hdvd := Rat.den_dvd z ((2 ^ 149 : ℕ) : ℤ)
    rw [Rat.divInt_eq_div, ← hz, Int.natCast_dvd_natCast] at hdvd
    exact lt_of_le_of_lt (Nat.le_of_dvd (by positivity) hdvd) (Nat.pow_lt_pow_right (by norm_num) (by norm_num))
  obtain ⟨b, hb, hb'⟩ := hb hden
  refine ⟨⟨a, ?_, ha'⟩, ⟨b, ?_, hb'⟩⟩
  · obtain ⟨n, en, -, -⟩ := Number.exactFlo_spec h
    simp only [Number.Real.numerator, en, Number.bind_value, Number.pure_eq, Outcome.value.injEq] at ha
    simp only [Wide.numerator, en, Number.bind_value, Number.pure_eq, ha]
  · obtain ⟨n, en, -, -⟩ := Number.exactFlo_spec h
    have hi : (Wide.single d).isInteger = (Real.flo d).isInteger := rfl
    rw [Wide.denominator, hi]
    rw [Number.Real.denominator] at hb
    split at hb
    · rename_i hc
      rw [if_pos hc]
      cases hb
      rfl
    · rename_i hc
      rw [if_neg hc]
      simp only [en, Number.bind_value, Number.pure_eq, Outcome.value.injEq] at hb ⊢
      rw [hb]

/-- **C104** fails: `integer?` holds of infinities of single precision, which are not rational. -/
theorem C104_predicates_fails (s : Bool) :
    Wide.isInteger (.single (.inf s)) = true ∧ Wide.isRational (.single (.inf s)) = false := by
  cases s <;> exact ⟨rfl, rfl⟩

/-- A witness for `C104_even`, `C104_predicates` and `C104_numerator`: -7f0, a number of single precision and a
flonum. -/
example : Wide.Inexactly true (.single (.finite true 7)) ((-7 : Int) : ℚ) ∧
    Wide.Inexactly false (.real (.flo (.finite true 7))) ((-7 : Int) : ℚ) :=
  ⟨⟨_, ⟨_, _, rfl, by norm_num⟩, rfl, ⟨7, 0, by norm_num, by norm_num, by norm_num, by norm_num⟩⟩,
    ⟨_, ⟨_, _, rfl, by norm_num⟩, rfl, ⟨7, 0, by norm_num, by norm_num, by norm_num, by norm_num⟩⟩⟩

end Meevax.Single
