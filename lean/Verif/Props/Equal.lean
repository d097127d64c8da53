import Verif.Lemmas.EqualMain

/-! C14, C15 and C58: `eq?`, `eqv?` and `equal?`. -/

namespace Meevax.Equal

/-! ### C14: termination and exactness of `equal?` -/

/-- **C14**, for data without a cycle through a vector. `equal?` returns on every pair of objects of
a finite heap, with arbitrary sharing and arbitrary cycles through pairs, and answers `#t` iff no
finite sequence of car/cdr/vector-ref selections leads to objects that can be told apart.
Missing: cycles through vectors (`C14_cyclic_vector_fails`) and heaps with homogeneous vectors of
different lengths (`C14_bytevector_lengths_fails`). -/
theorem C14_decides_partial {numEq : Val → Val → Bool} {h : Heap} (ne : NumEquiv numEq) {N : Nat}
    (fin : Finite h N) {rank : Nat → Nat} (acyclic : VectorsAcyclic h rank) (ub : UniformBytes h)
    {x y : Val} (wx : Within N x) (wy : Within N y) :
    ∃ b, equal numEq h x y = some b ∧ (b = true ↔ Indistinguishable numEq h x y) := by
  obtain ⟨b, f, e, hb⟩ := (decides ne fin acyclic ub _ x y (Nat.le_refl _) wx wy).1
  exact ⟨b, by simp [equal, e], hb⟩

/-- Word equality, for heaps without inexact complex numbers. -/
def wordEq (x y : Val) : Bool := decide (x = y)

theorem wordEq_equiv : NumEquiv wordEq := by
  constructor
  · intro x; simp [wordEq]
  · intro x y; simp only [wordEq, decide_eq_true_eq]; exact Eq.symm
  · intro x y z; simp only [wordEq, decide_eq_true_eq]; exact Eq.trans

/-- `#0=("a" . #0#)` at 0, `#1=("a" "a" . #1#)` at 1-2, and vectors `#(#0#)` at 3 and `#(#1#)` at 4;
the strings are at 5 and 6. -/
def loops : Heap
  | 0 => .pair (.ref 5) (.ref 0)
  | 1 => .pair (.ref 6) (.ref 2)
  | 2 => .pair (.ref 5) (.ref 1)
  | 3 => .vector [.ref 0]
  | 4 => .vector [.ref 1]
  | 5 => .string [97]
  | 6 => .string [97]
  | _ => .opaque

/-- A rank for `loops`. -/
def loopsRank : Nat → Nat
  | 3 => 2
  | 4 => 2
  | _ => 1

theorem loops_finite : Finite loops 7 := by
  constructor
  · intro a c d ha e
    have : a = 0 ∨ a = 1 ∨ a = 2 ∨ a = 3 ∨ a = 4 ∨ a = 5 ∨ a = 6 := by omega
    rcases this with rfl | rfl | rfl | rfl | rfl | rfl | rfl <;> simp [loops] at e <;>
      obtain ⟨rfl, rfl⟩ := e <;> simp [Within]
  · intro a xs ha e v hv
    have : a = 0 ∨ a = 1 ∨ a = 2 ∨ a = 3 ∨ a = 4 ∨ a = 5 ∨ a = 6 := by omega
    rcases this with rfl | rfl | rfl | rfl | rfl | rfl | rfl <;> simp [loops] at e <;> subst e <;>
      simp at hv <;> subst hv <;> simp [Within]

theorem loops_acyclic : VectorsAcyclic loops loopsRank := by
  constructor
  · intro a c d e
    unfold loops at e
    split at e <;> cases e <;> simp [rankVal, loopsRank]
  · intro a xs e v hv
    unfold loops at e
    split at e <;> cases e <;> simp at hv <;> subst hv <;> simp [rankVal, loopsRank]

theorem loops_uniform : UniformBytes loops := by
  intro a b s t e
  unfold loops at e
  split at e <;> cases e

/-- The hypotheses of C14 are met by two vectors holding cyclic lists of different periods … -/
example : ∃ b, equal wordEq loops (.ref 3) (.ref 4) = some b ∧
    (b = true ↔ Indistinguishable wordEq loops (.ref 3) (.ref 4)) :=
  C14_decides_partial wordEq_equiv loops_finite loops_acyclic loops_uniform (by simp [Within])
    (by simp [Within])

/-- … which are indistinguishable, so that `equal?` answers `#t`. -/
theorem loops_equal : equal wordEq loops (.ref 3) (.ref 4) = some true := by
  obtain ⟨b, e, hb⟩ := C14_decides_partial wordEq_equiv loops_finite loops_acyclic loops_uniform
    (x := .ref 3) (y := .ref 4) (by simp [Within]) (by simp [Within])
  rw [e, hb.2]
  refine Indistinguishable.of_bisimulation
    (R := fun x y => (x = .ref 3 ∧ y = .ref 4) ∨ (x = .ref 0 ∧ (y = .ref 1 ∨ y = .ref 2)) ∨
      (x = .ref 5 ∧ (y = .ref 5 ∨ y = .ref 6))) ?_ (Or.inl ⟨rfl, rfl⟩)
  rintro x y (⟨rfl, rfl⟩ | ⟨rfl, rfl | rfl⟩ | ⟨rfl, rfl | rfl⟩)
  · exact Or.inr (Or.inr ⟨3, 4, _, _, rfl, rfl, rfl, rfl, by simp⟩)
  · exact Or.inr (Or.inl ⟨0, 1, _, _, _, _, rfl, rfl, rfl, rfl, by simp, by simp⟩)
  · exact Or.inr (Or.inl ⟨0, 2, _, _, _, _, rfl, rfl, rfl, rfl, by simp, by simp⟩)
  · exact Or.inl (.same _)
  · exact Or.inl (.string (s := [97]) rfl rfl)

/-- Two vectors, each its own only element. -/
def selfVectors : Heap
  | 0 => .vector [.ref 0]
  | 1 => .vector [.ref 1]
  | _ => .opaque

/-- **C14 is false for cyclic vectors**: comparing two vectors that contain themselves never
returns, although no selection tells them apart. -/
theorem C14_cyclic_vector_fails (numEq : Val → Val → Bool) :
    equal numEq selfVectors (.ref 0) (.ref 1) = none ∧
      Indistinguishable numEq selfVectors (.ref 0) (.ref 1) := by
  constructor
  · have key := cellEqv.mutual_partial_correctness numEq selfVectors
      (fun a b _ => ¬ (a = 0 ∧ b = 1))
      (fun xs ys _ => ¬ (xs = [.ref 0] ∧ ys = [.ref 1]))
      (fun _ x y _ => ¬ (x = .ref 0 ∧ y = .ref 1))
      (fun x y _ => ¬ (x = .ref 0 ∧ y = .ref 1))
      (by
        rintro el ih a b r e ⟨rfl, rfl⟩
        simp only [selfVectors, List.length_cons, if_true] at e
        exact ih _ _ _ e ⟨rfl, rfl⟩)
      (by
        rintro el eq ih ih' xs ys r e ⟨rfl, rfl⟩
        cases he : eq Forest.empty (.ref 0) (.ref 1) with
        | none => simp [he] at e
        | some v => exact ih' _ _ _ _ he ⟨rfl, rfl⟩)
      (by
        rintro eq ev ih ih' f x y r e ⟨rfl, rfl⟩
        cases he : ev (.ref 0) (.ref 1) with
        | none => simp [he] at e
        | some v => exact ih' _ _ _ he ⟨rfl, rfl⟩)
      (by
        rintro ce ih x y r e ⟨rfl, rfl⟩
        cases he : ce 0 1 with
        | none => simp [he, eq] at e
        | some v => exact ih _ _ _ he ⟨rfl, rfl⟩)
    cases he : equalIn numEq selfVectors Forest.empty (.ref 0) (.ref 1) with
    | none => simp [equal, he]
    | some v => exact (key.2.2.1 _ _ _ _ he ⟨rfl, rfl⟩).elim
  · refine Indistinguishable.of_bisimulation (R := fun x y => x = .ref 0 ∧ y = .ref 1) ?_ ⟨rfl, rfl⟩
    rintro x y ⟨rfl, rfl⟩
    exact Or.inr (Or.inr ⟨0, 1, _, _, rfl, rfl, rfl, rfl, by simp⟩)

/-- **C14 is false for homogeneous vectors of different lengths**: comparing them is undefined
(`std::valarray` comparison requires equal lengths), so `equal?` guarantees no answer. -/
theorem C14_bytevector_lengths_fails (numEq : Val → Val → Bool) {h : Heap} {a b : Nat}
    {s t : List Nat} (ha : h a = .bytes s) (hb : h b = .bytes t) (ne : s.length ≠ t.length) :
    equal numEq h (.ref a) (.ref b) = none ∧
      ¬ Indistinguishable numEq h (.ref a) (.ref b) := by
  have nab : a ≠ b := by
    rintro rfl
    rw [ha] at hb
    cases hb
    exact ne rfl
  constructor
  · rw [equal, equalIn.eq_def, eqv.eq_def]
    simp [eq, nab, cellEqv, ha, hb, ne]
  · intro i
    rcases i.unfolds with l | ⟨_, _, _, _, _, _, e1, _, h1, -⟩ | ⟨_, _, _, _, e1, _, h1, -⟩
    · rw [leafEq_ref] at l
      simp [nab, ha, hb] at l
      exact ne (by rw [l])
    · cases e1; rw [ha] at h1; cases h1
    · cases e1; rw [ha] at h1; cases h1

/-! ### C15: nested equivalences -/

/-- **C15**: `eq?` implies `eqv?` implies `equal?`, on every heap. -/
theorem C15_nested (numEq : Val → Val → Bool) (h : Heap) (x y : Val) :
    (eq x y = true → eqv numEq h x y = some true) ∧
      (eqv numEq h x y = some true → equal numEq h x y = some true) := by
  constructor
  · intro e
    rw [eqv.eq_def]
    simp [e]
  · intro e
    rw [equal, equalIn.eq_def]
    simp [e]

/-- **C15**: all three are reflexive, on every heap. -/
theorem C15_reflexive (numEq : Val → Val → Bool) (h : Heap) (x : Val) :
    eq x x = true ∧ eqv numEq h x x = some true ∧ equal numEq h x x = some true := by
  have e : eq x x = true := by simp [eq]
  have e' := (C15_nested numEq h x x).1 e
  exact ⟨e, e', (C15_nested numEq h x x).2 e'⟩

/-- **C15**: `eq?` is symmetric and transitive. -/
theorem C15_eq_equivalence (x y z : Val) :
    (eq x y = true → eq y x = true) ∧ (eq x y = true → eq y z = true → eq x z = true) := by
  simp only [eq, decide_eq_true_eq]
  exact ⟨Eq.symm, Eq.trans⟩

/-- **C15**: `equal?` is symmetric and transitive on heaps where it decides (`C14`), if numbers that
are parts of complex numbers are compared by an equivalence.
Missing: inexact complex numbers (`C15_complex_fails`). -/
theorem C15_equal_equivalence_partial {numEq : Val → Val → Bool} {h : Heap} (ne : NumEquiv numEq)
    {N : Nat} (fin : Finite h N) {rank : Nat → Nat} (acyclic : VectorsAcyclic h rank)
    (ub : UniformBytes h) {x y z : Val} (wx : Within N x) (wy : Within N y) (wz : Within N z) :
    equal numEq h x y = equal numEq h y x ∧
      (equal numEq h x y = some true → equal numEq h y z = some true →
        equal numEq h x z = some true) := by
  obtain ⟨b1, e1, h1⟩ := C14_decides_partial ne fin acyclic ub wx wy
  obtain ⟨b2, e2, h2⟩ := C14_decides_partial ne fin acyclic ub wy wx
  obtain ⟨b3, e3, h3⟩ := C14_decides_partial ne fin acyclic ub wy wz
  obtain ⟨b4, e4, h4⟩ := C14_decides_partial ne fin acyclic ub wx wz
  rw [e1, e2, e3, e4]
  refine ⟨?_, ?_⟩
  · congr 1
    rw [Bool.eq_iff_iff, h1, h2]
    exact ⟨fun i => i.symm ne, fun i => i.symm ne⟩
  · simp only [Option.some.injEq]
    rw [h1, h3, h4]
    exact fun i j => i.trans ne j

theorem EqvSpec.symm {numEq : Val → Val → Bool} {h : Heap} (ne : NumEquiv numEq) {x y : Val}
    (e : EqvSpec numEq h x y) : EqvSpec numEq h y x := by
  rcases e with l | ⟨a, b, xs, ys, e1, e2, ha, hb, f⟩
  · exact Or.inl (l.symm ne)
  · exact Or.inr ⟨b, a, ys, xs, e2, e1, hb, ha, f.flip.imp fun _ _ i => Indistinguishable.symm ne i⟩

theorem EqvSpec.trans {numEq : Val → Val → Bool} {h : Heap} (ne : NumEquiv numEq) {x y z : Val}
    (e : EqvSpec numEq h x y) (e' : EqvSpec numEq h y z) : EqvSpec numEq h x z := by
  rcases e with l | ⟨a, b, xs, ys, rfl, rfl, ha, hb, f⟩
  · rcases e' with l' | ⟨a, b, xs, ys, rfl, rfl, ha, hb, f⟩
    · exact Or.inl (l.trans ne l')
    · have := l.compound (Or.inr ⟨_, ha⟩)
      subst this
      exact Or.inr ⟨a, b, xs, ys, rfl, rfl, ha, hb, f⟩
  · rcases e' with l' | ⟨a', b', xs', ys', e1, rfl, ha', hb', f'⟩
    · have := (l'.symm ne).compound (Or.inr ⟨_, hb⟩)
      subst this
      exact Or.inr ⟨a, b, xs, ys, rfl, rfl, ha, hb, f⟩
    · cases e1
      rw [hb] at ha'
      cases ha'
      refine Or.inr ⟨a, b', xs, ys', rfl, rfl, ha, hb', ?_⟩
      rw [List.forall₂_iff_get] at f f' ⊢
      refine ⟨f.1.trans f'.1, fun i h1 h2 => ?_⟩
      exact (f.2 i h1 (f.1 ▸ h1)).trans ne (f'.2 i (f.1 ▸ h1) h2)

/-- **C15**: `eqv?` is symmetric and transitive, under the same conditions. -/
theorem C15_eqv_equivalence_partial {numEq : Val → Val → Bool} {h : Heap} (ne : NumEquiv numEq)
    {N : Nat} (fin : Finite h N) {rank : Nat → Nat} (acyclic : VectorsAcyclic h rank)
    (ub : UniformBytes h) {x y z : Val} (wx : Within N x) (wy : Within N y) (wz : Within N z) :
    eqv numEq h x y = eqv numEq h y x ∧
      (eqv numEq h x y = some true → eqv numEq h y z = some true →
        eqv numEq h x z = some true) := by
  obtain ⟨b1, e1, h1⟩ := (decides ne fin acyclic ub _ x y (Nat.le_refl _) wx wy).2
  obtain ⟨b2, e2, h2⟩ := (decides ne fin acyclic ub _ y x (Nat.le_refl _) wy wx).2
  obtain ⟨b3, e3, h3⟩ := (decides ne fin acyclic ub _ y z (Nat.le_refl _) wy wz).2
  obtain ⟨b4, e4, h4⟩ := (decides ne fin acyclic ub _ x z (Nat.le_refl _) wx wz).2
  rw [e1, e2, e3, e4]
  refine ⟨?_, ?_⟩
  · congr 1
    rw [Bool.eq_iff_iff, h1, h2]
    exact ⟨fun i => i.symm ne, fun i => i.symm ne⟩
  · simp only [Option.some.injEq]
    rw [h1, h3, h4]
    exact fun i j => i.trans ne j

/-- The hypotheses of C15's equivalence theorems are met by `loops`. -/
example : eqv wordEq loops (.ref 3) (.ref 4) = eqv wordEq loops (.ref 4) (.ref 3) :=
  (C15_eqv_equivalence_partial wordEq_equiv loops_finite loops_acyclic loops_uniform (z := .null)
    (by simp [Within]) (by simp [Within]) (by simp [Within])).1

/-- The value of a non-negative finite double, given by its bits, times 2^1074 (IEEE 754). -/
def doubleScaled (bits : Nat) : Nat :=
  if bits / 2 ^ 52 = 0 then bits else (2 ^ 52 + bits % 2 ^ 52) * 2 ^ (bits / 2 ^ 52 - 1)

/-- `inexact_equals` (number.hpp L315-L338) on two non-negative finite doubles:
`abs(x - y) <= epsilon`, epsilon being 2^-52. Simplified: the difference is not rounded. -/
def inexactEquals (x y : Val) : Bool :=
  match x, y with
  | .imm p, .imm q =>
    let (x, y) := (doubleScaled p, doubleScaled q)
    decide (x - y ≤ 2 ^ 1022 ∧ y - x ≤ 2 ^ 1022)
  | _, _ => false

/-- The complex numbers `0.+1.i`, `2^-52+1.i` and `2^-51+1.i`. -/
def complexes : Heap
  | 0 => .complex (.imm 0) (.imm (1023 * 2 ^ 52))
  | 1 => .complex (.imm (971 * 2 ^ 52)) (.imm (1023 * 2 ^ 52))
  | 2 => .complex (.imm (972 * 2 ^ 52)) (.imm (1023 * 2 ^ 52))
  | _ => .opaque

/-- **C15 is false for inexact complex numbers**: `eqv?` and `equal?` compare their parts up to an
absolute tolerance, which is not transitive. -/
theorem C15_complex_fails :
    (eqv inexactEquals complexes (.ref 0) (.ref 1) = some true ∧
      eqv inexactEquals complexes (.ref 1) (.ref 2) = some true ∧
      eqv inexactEquals complexes (.ref 0) (.ref 2) = some false) ∧
    (equal inexactEquals complexes (.ref 0) (.ref 1) = some true ∧
      equal inexactEquals complexes (.ref 1) (.ref 2) = some true ∧
      equal inexactEquals complexes (.ref 0) (.ref 2) = some false) := by
  have k1 : inexactEquals (.imm 0) (.imm (971 * 2 ^ 52)) = true := by decide +kernel
  have k2 : inexactEquals (.imm (971 * 2 ^ 52)) (.imm (972 * 2 ^ 52)) = true := by decide +kernel
  have k3 : inexactEquals (.imm 0) (.imm (972 * 2 ^ 52)) = false := by decide +kernel
  have k4 : inexactEquals (.imm (1023 * 2 ^ 52)) (.imm (1023 * 2 ^ 52)) = true := by decide +kernel
  have e1 : eqv inexactEquals complexes (.ref 0) (.ref 1) = some true := by
    rw [eqv.eq_def]
    simp only [eq, cellEqv, complexes, k1, k4]
    simp
  have e2 : eqv inexactEquals complexes (.ref 1) (.ref 2) = some true := by
    rw [eqv.eq_def]
    simp only [eq, cellEqv, complexes, k2, k4]
    simp
  have e3 : eqv inexactEquals complexes (.ref 0) (.ref 2) = some false := by
    rw [eqv.eq_def]
    simp only [eq, cellEqv, complexes, k3]
    simp [exactIntegerEquals, exactInteger, complexes]
  refine ⟨⟨e1, e2, e3⟩, (C15_nested _ _ _ _).2 e1, (C15_nested _ _ _ _).2 e2, ?_⟩
  rw [equal, equalIn.eq_def]
  simp only [e3]
  simp [complexes]

/-! ### C58: `eqv?` and mutable objects -/

/-- **C58**, for pairs and for data compared by address. `eqv?` answers `#t` for a pair (or a datum
of a class without an equality of its own) and any object only if they are the same object.
Missing: strings, vectors, homogeneous vectors and boxes (`C58_string_fails`, `C58_vector_fails`,
`C58_box_fails`). -/
theorem C58_location_partial (numEq : Val → Val → Bool) {h : Heap} {a : Nat} {y : Val}
    (ha : (∃ c d, h a = .pair c d) ∨ h a = .opaque) :
    eqv numEq h (.ref a) y = some (decide (y = .ref a)) ∧
      eqv numEq h y (.ref a) = some (decide (y = .ref a)) := by
  rcases ha with ⟨c, d, ha⟩ | ha
  · constructor
    · rw [eqv.eq_def]
      cases y with
      | ref b =>
        by_cases e : a = b
        · simp [eq, e]
        · simp [eq, e, cellEqv, ha, exactIntegerEquals, exactInteger, Ne.symm e]
      | _ => simp [eq, exactIntegerEquals, exactInteger, ha]
    · rw [eqv.eq_def]
      cases y with
      | ref b =>
        by_cases e : b = a
        · simp [eq, e]
        · cases hb : h b <;>
            simp [eq, e, cellEqv, ha, hb, exactIntegerEquals, exactInteger]
      | _ => simp [eq, exactIntegerEquals, exactInteger, ha]
  · constructor
    · rw [eqv.eq_def]
      cases y with
      | ref b =>
        by_cases e : a = b
        · simp [eq, e]
        · simp [eq, e, cellEqv, ha, exactIntegerEquals, exactInteger, Ne.symm e]
      | _ => simp [eq, exactIntegerEquals, exactInteger, ha]
    · rw [eqv.eq_def]
      cases y with
      | ref b =>
        by_cases e : b = a
        · simp [eq, e]
        · cases hb : h b <;>
            simp [eq, e, cellEqv, ha, hb, exactIntegerEquals, exactInteger]
      | _ => simp [eq, exactIntegerEquals, exactInteger, ha]

/-- The hypothesis of C58 is met by two pairs with the same contents, which `eqv?` separates. -/
example : eqv wordEq (fun _ => .pair .null .null) (.ref 0) (.ref 1) = some false :=
  (C58_location_partial wordEq (Or.inl ⟨_, _, rfl⟩)).1

/-- **C58 is false for strings**: two distinct strings with the same contents are `eqv?`. -/
theorem C58_string_fails (numEq : Val → Val → Bool) {h : Heap} {a b : Nat} {s : List Nat}
    (ha : h a = .string s) (hb : h b = .string s) :
    eqv numEq h (.ref a) (.ref b) = some true := by
  rw [eqv.eq_def]
  simp [eq, cellEqv, ha, hb]

/-- **C58 is false for vectors**: two distinct empty vectors, or one-element vectors of the same
element, are `eqv?`. -/
theorem C58_vector_fails (numEq : Val → Val → Bool) {h : Heap} {a b : Nat} {xs : List Val}
    (ha : h a = .vector xs) (hb : h b = .vector xs) :
    eqv numEq h (.ref a) (.ref b) = some true := by
  have el : ∀ xs, elementsEqual numEq h xs xs = some true := by
    intro xs
    induction xs with
    | nil => rw [elementsEqual]
    | cons x xs ih =>
      have e := (C15_reflexive numEq h x).2.1
      rw [elementsEqual, equalIn.eq_def]
      simp [e, ih]
  rw [eqv.eq_def]
  simp [eq, cellEqv, ha, hb, el]

/-- **C58 is false for boxes** (and closures): two distinct boxes with the same contents are
`eqv?`. -/
theorem C58_box_fails (numEq : Val → Val → Bool) {h : Heap} {a b k : Nat} {c d : Val}
    (ha : h a = .structural k c d) (hb : h b = .structural k c d) :
    eqv numEq h (.ref a) (.ref b) = some true := by
  rw [eqv.eq_def]
  simp [eq, cellEqv, ha, hb]

end Meevax.Equal
