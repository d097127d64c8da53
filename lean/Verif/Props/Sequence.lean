import Verif.Lemmas.Sequence
import Verif.Props.Utf8

/-
C50: vector and string range operations. C51: string comparison.
-/

namespace Meevax.Seq
open Meevax.Number

variable {α : Type}

/-! ### C50 -/

/-- C50: `make-vector`, `make-string`, `make-bytevector`. -/
theorem C50_make (σ : Store α) {k : Nat} {n : Num} (h : IsIndex k n) (x : α) :
    ∃ a τ xs, make σ n x = .value (a, τ) ∧ New σ xs a τ ∧ xs.length = k ∧ ∀ y ∈ xs, y = x := by
  refine ⟨_, _, List.replicate k x, ?_, new_allocate σ _, by simp, fun y hy => List.eq_of_mem_replicate hy⟩
  simp [make, sizeCast_index h]

/-- C50 (in part): `vector-ref` and `string-ref` give the element. -/
theorem C50_ref_partial {σ : Store α} {a : Nat} {xs : List α} (ha : σ[a]? = some xs) {k : Nat} {n : Num}
    (hn : IsIndex k n) {x : α} (hk : xs[k]? = some x) :
    vectorRef σ a n = .value x ∧ stringRef σ a n = .value x := by
  simp [vectorRef, stringRef, elements_some ha, sizeCast_index hn, hk]

/-- C50 (in part): `vector-set!` and `string-set!` replace the element, and nothing else. -/
theorem C50_set_partial {σ : Store α} {a : Nat} {xs : List α} (ha : σ[a]? = some xs) {k : Nat} {n : Num}
    (hn : IsIndex k n) (hk : k < xs.length) (x : α) :
    ∃ τ ys, vectorSet σ a n x = .value τ ∧ stringSet σ a n x = .value τ ∧ OnlyAt a σ τ ∧ τ[a]? = some ys ∧
      Replaced xs k [x] ys := by
  refine ⟨σ.set a (xs.set k x), xs.set k x, ?_, ?_, ⟨by simp, ?_⟩, ?_, by simp, ?_⟩
  · simp [vectorSet, elements_some ha, sizeCast_index hn, hk]
  · simp [stringSet, elements_some ha, sizeCast_index hn, hk]
  · intro b hb; rw [List.getElem?_set_ne (by omega)]
  · rw [List.getElem?_set_self (List.getElem?_eq_some_iff.1 ha).1]
  · intro i
    by_cases hi : i = k
    · subst hi
      rw [List.getElem?_set_self hk, if_pos (by simp)]; simp
    · rw [List.getElem?_set_ne (by omega), if_neg (by simp; omega)]

/-- C50: `string-ref` and `string-set!` outside of the string are errors, for indices that fit in 64 bits
(including negative ones that fit in 32). -/
theorem C50_string_range_partial {σ : Store α} {a : Nat} {xs : List α} (ha : σ[a]? = some xs)
    (hl : xs.length < 2 ^ 63) {n : Num}
    (hn : (∃ k, IsIndex k n ∧ xs.length ≤ k) ∨ (∃ i : Int, n = .small i ∧ -2 ^ 31 ≤ i ∧ i < 0)) (x : α) :
    stringRef σ a n = .raised ∧ stringSet σ a n x = .raised := by
  have key : ∃ k, sizeCast n = .value k ∧ xs.length ≤ k := by
    rcases hn with ⟨k, h1, h2⟩ | ⟨i, rfl, h1, h2⟩
    · exact ⟨k, sizeCast_index h1, h2⟩
    · refine ⟨_, rfl, ?_⟩
      have : i % 2 ^ 64 = i + 2 ^ 64 := by omega
      rw [this]; omega
  obtain ⟨k, h1, h2⟩ := key
  constructor
  · simp [stringRef, elements_some ha, h1, List.getElem?_eq_none h2]
  · simp [stringSet, elements_some ha, h1, Nat.not_lt.2 h2]

/-- C50 (in part): `vector-copy`, `string-copy`, `bytevector-copy` give a new object with the designated
elements. -/
theorem C50_copy_partial {σ : Store α} {a : Nat} {xs : List α} (ha : σ[a]? = some xs) {range : List Num}
    {i j : Nat} (hr : Designates xs.length range i j) :
    ∃ b τ ys, copy σ a range = .value (b, τ) ∧ New σ ys b τ ∧ IsRange xs i j ys := by
  obtain ⟨h1, h2, h3⟩ := bounds_designated hr
  obtain ⟨ys, h4, h5⟩ := between_spec h2 h3
  exact ⟨_, _, ys, by simp [copy, elements_some ha, h1, h4], new_allocate σ ys, h5⟩

/-- C50 (in part): `vector->list`, `string->list` and `u8vector->list` give the designated elements. -/
theorem C50_list_partial {σ : Store α} {a : Nat} {xs : List α} (ha : σ[a]? = some xs) {range : List Num}
    {i j : Nat} (hr : Designates xs.length range i j) :
    ∃ ys, toList σ a range = .value ys ∧ u8vectorToList σ a range = .value ys ∧ IsRange xs i j ys := by
  obtain ⟨h1, h2, h3⟩ := bounds_designated hr
  obtain ⟨ys, h4, h5⟩ := toList_spec h2 h3
  obtain ⟨zs, h6, h7⟩ := between_spec h2 h3
  refine ⟨consAll ys, ?_, ?_, h5⟩
  · simp only [toList, elements_some ha, h1, bind_value]
    rw [if_pos ⟨by omega, h3⟩, h4]; rfl
  · simp only [u8vectorToList, elements_some ha, h1, h6, bind_value]
    rw [consAll_eq zs, List.reverse_reverse, h7.eq h3, h5.eq h3]

/-- C50: and `list->vector`, `list->string` of a list give it back. -/
theorem C50_list_back {σ : Store α} {a : Nat} {xs : List α} (ha : σ[a]? = some xs) :
    ∃ ys, toList σ a [] = .value ys ∧ New σ xs (ofList σ ys).1 (ofList σ ys).2 := by
  obtain ⟨ys, h1, _, h2⟩ := C50_list_partial ha (range := []) .all
  refine ⟨ys, h1, ?_⟩
  have : ys = xs := by rw [h2.eq (le_refl _)]; simp
  rw [this]; exact new_allocate σ xs

/-- C50 (in part): `vector-fill!` and `string-fill!` set the designated elements, and nothing else. -/
theorem C50_fill_partial {σ : Store α} {a : Nat} {xs : List α} (ha : σ[a]? = some xs) (x : α) {range : List Num}
    {i j : Nat} (hr : Designates xs.length range i j) :
    ∃ τ ys, fill σ a x range = .value τ ∧ OnlyAt a σ τ ∧ τ[a]? = some ys ∧
      Replaced xs i (List.replicate (j - i) x) ys := by
  obtain ⟨h1, h2, h3⟩ := bounds_designated hr
  refine ⟨σ.set a (fillLoop x xs i (j - i)), fillLoop x xs i (j - i), ?_, ⟨by simp, ?_⟩, ?_, fillLoop_length .., ?_⟩
  · simp [fill, elements_some ha, h1, h2, h3]
  · intro b hb; rw [List.getElem?_set_ne (by omega)]
  · rw [List.getElem?_set_self (List.getElem?_eq_some_iff.1 ha).1]
  · intro k
    rw [fillLoop_spec x (j - i) xs i (by omega) k]
    simp only [List.length_replicate]
    split
    · rw [List.getElem?_replicate_of_lt (by omega)]
    · rfl

/-- C50 (in part): `vector-copy!`, `string-copy!` and `bytevector-copy!` put the designated elements where
they are to go, as if through a temporary, and change nothing else, if there is room; also within one object
if the elements move towards the beginning or the ranges do not overlap. -/
theorem C50_copy_into_partial {σ : Store α} {source target : Nat} {xs ys : List α} (hs : σ[source]? = some xs)
    (ht : σ[target]? = some ys) {range : List Num} {i j : Nat} (hr : Designates xs.length range i j)
    {k : Nat} {n : Num} (hn : IsIndex k n) (hroom : k + (j - i) ≤ ys.length)
    (hover : target = source → k < i ∨ j ≤ k) :
    ∃ τ new zs, copyInto σ target n source range = .value τ ∧ u8vectorCopyInto σ target n source range = .value τ ∧
      OnlyAt target σ τ ∧ τ[target]? = some zs ∧ IsRange xs i j new ∧ Replaced ys k new zs := by
  obtain ⟨h1, h2, h3⟩ := bounds_designated hr
  obtain ⟨new, _, h5⟩ := between_spec h2 h3
  obtain ⟨τ, zs, g1, g2, g3, g4, g5⟩ := copyLoop_spec (j - i) σ target k source i xs ys hs ht (by omega) hroom
    (fun e => by rcases hover e with h | h <;> omega)
  refine ⟨τ, new, zs, ?_, ?_, g2, g3, h5, g4, ?_⟩
  · simp only [copyInto, elements_some hs, sizeCast_index hn, h1, bind_value, stdCopy, hs, ht]
    rw [if_pos ⟨h2, h3, by omega⟩, if_neg, g1]
    rintro ⟨e, h, h'⟩
    rcases hover e with h | h <;> omega
  · simp only [u8vectorCopyInto, elements_some hs, sizeCast_index hn, h1, bind_value]
    rw [if_pos h2, g1]
  · intro m
    rw [g5, h5.1]
    split
    · rw [h5.2 _ (by omega)]
    · rfl

theorem insertAll_spec {σ : Store α} {as : List Nat} {xss : List (List α)}
    (h : as.map (fun a => σ[a]?) = xss.map some) (xs : List α) : insertAll σ as xs = .value (xs ++ xss.flatten) := by
  induction as generalizing xss xs with
  | nil =>
    cases xss with
    | nil => simp [insertAll]
    | cons _ _ => simp at h
  | cons a as ih =>
    cases xss with
    | nil => simp at h
    | cons ys xss =>
      simp only [List.map_cons, List.cons.injEq] at h
      simp [insertAll, elements_some h.1, ih h.2]

/-- C50: `vector-append` and `string-append` of any number of objects. -/
theorem C50_append {σ : Store α} {as : List Nat} {xss : List (List α)}
    (h : as.map (fun a => σ[a]?) = xss.map some) :
    ∃ b τ, append σ as = .value (b, τ) ∧ New σ xss.flatten b τ := by
  refine ⟨_, _, ?_, new_allocate σ _⟩
  simp only [append, insertAll_spec h, bind_value, List.nil_append]

/-- C50 (in part): `bytevector-append` of two. -/
theorem C50_bytes_append_partial {σ : Store α} {a b : Nat} {xs ys : List α} (ha : σ[a]? = some xs)
    (hb : σ[b]? = some ys) :
    ∃ c τ, u8vectorAppend σ [a, b] = .value (c, τ) ∧ New σ (xs ++ ys) c τ := by
  refine ⟨_, _, ?_, new_allocate σ _⟩
  simp only [u8vectorAppend, elements_some ha, elements_some hb, bind_value]

theorem characters_char (cs : List Nat) : characters (cs.map .char) = .value cs := by
  induction cs with
  | nil => rfl
  | cons c cs ih => simp [characters, ih]

/-- C50 (in part): `vector->string` of the designated characters… -/
theorem C50_vector_string_partial {vectors : Store Element} {strings : Store Nat} {a : Nat} {xs : List Element}
    (ha : vectors[a]? = some xs) {range : List Num} {i j : Nat} (hr : Designates xs.length range i j)
    {cs : List Nat} (hc : IsRange xs i j (cs.map .char)) :
    ∃ b τ, vectorToString vectors strings a range = .value (b, τ) ∧ New strings cs b τ := by
  obtain ⟨h1, h2, h3⟩ := bounds_designated hr
  obtain ⟨ys, h4, h5⟩ := between_spec h2 h3
  refine ⟨_, _, ?_, new_allocate strings cs⟩
  simp only [vectorToString, elements_some ha, h1, h4, bind_value]
  rw [show ys = cs.map .char by rw [h5.eq h3, hc.eq h3], characters_char]; rfl

/-- … and `string->vector` of all of them. -/
theorem C50_string_vector_partial {vectors : Store Element} {strings : Store Nat} {a : Nat} {cs : List Nat}
    (ha : strings[a]? = some cs) :
    ∃ b τ, stringToVector vectors strings a [] = .value (b, τ) ∧ New vectors (cs.map .char) b τ := by
  refine ⟨_, _, ?_, new_allocate vectors _⟩
  simp only [stringToVector, elements_some ha, bind_value]

/-- C50 (in part): `vector-length` and `string-length` below 2^31. -/
theorem C50_length_partial {σ : Store α} {a : Nat} {xs : List α} (ha : σ[a]? = some xs) (hl : xs.length < 2 ^ 31) :
    length σ a = .value (.small xs.length) := by
  simp only [length, elements_some ha, bind_value]
  have : narrow (xs.length : Int) = xs.length := by unfold narrow; omega
  rw [this]

/-- C50 (in part): `string->utf8` gives a new bytevector with the encoding of the characters, and
`utf8->string` of a range of a bytevector that is such an encoding gives the characters; without NUL and
empty strings. -/
theorem C50_utf8_partial {bytes : Store Text.Byte} {strings : Store Nat} {cs : List Char}
    (hc : ∀ c ∈ cs, c ≠ '\x00') :
    (∀ a, strings[a]? = some (cs.map Char.toNat) → ∃ b τ, stringToUtf8 bytes strings a [] = .value (b, τ) ∧
      New bytes (cs.flatMap String.utf8EncodeChar) b τ) ∧
    (∀ (a : Nat) (xs : List Text.Byte) (range : List Num) (i j : Nat), bytes[a]? = some xs →
      Designates xs.length range i j → IsRange xs i j (cs.flatMap String.utf8EncodeChar) → cs ≠ [] →
      cs.length < 2 ^ 64 → ∃ b τ, utf8ToString bytes strings a range = .value (some b, τ) ∧
        New strings (cs.map Char.toNat) b τ) := by
  constructor
  · intro a ha
    refine ⟨_, _, ?_, new_allocate bytes _⟩
    simp only [stringToUtf8, elements_some ha, bind_value]
    rw [show (cs.map Char.toNat).flatMap Text.utf8 = Text.utf8String (cs.map Char.toNat) from rfl,
      Text.utf8String_chars hc]
  · intro a xs range i j ha hr hi hne hl
    obtain ⟨h1, h2, h3⟩ := bounds_designated hr
    obtain ⟨ys, h4, h5⟩ := between_spec h2 h3
    obtain ⟨p, g1, _⟩ := Text.C59_read_string_partial hc hne (2 ^ 64 - 1)
    refine ⟨_, _, ?_, new_allocate strings _⟩
    simp only [utf8ToString, elements_some ha, h1, h4, bind_value]
    rw [show ys = cs.flatMap String.utf8EncodeChar by rw [h5.eq h3, hi.eq h3], g1,
      List.take_of_length_le (by omega)]
    rfl

/-- C50 fails: `utf8->string` of an empty bytevector is an eof object. -/
theorem C50_utf8_empty_fails : utf8ToString [[]] [] 0 [] = .value (none, []) := by decide +kernel

/-- The hypotheses are met. -/
example : Designates 5 [.small 1, .large 4] 1 4 :=
  .range ⟨by omega, .inl rfl⟩ ⟨by omega, .inr rfl⟩ (by omega) (by omega)

example : copyInto [[1, 2, 3, 4, 5]] 0 (.small 0) 0 [.small 1, .large 4] = .value [[2, 3, 4, 4, 5]] := rfl

example : copyInto [[1, 2, 3, 4, 5], [6, 7]] 0 (.small 3) 1 [] = .value [[1, 2, 3, 6, 7], [6, 7]] := rfl

example : fill [[1, 2, 3, 4, 5]] 0 9 [.small 1, .large 4] = .value [[1, 9, 9, 9, 5]] := rfl

/-- C50 fails: `vector-ref`, `vector-set!` and `bytevector-u8-ref` outside of the vector are undefined. -/
theorem C50_vector_range_fails {σ : Store α} {a : Nat} {xs : List α} (ha : σ[a]? = some xs) {k : Nat} {n : Num}
    (hn : IsIndex k n) (hk : xs.length ≤ k) (x : α) :
    vectorRef σ a n = .undefined ∧ vectorSet σ a n x = .undefined := by
  constructor
  · simp [vectorRef, elements_some ha, sizeCast_index hn, List.getElem?_eq_none hk]
  · simp [vectorSet, elements_some ha, sizeCast_index hn, Nat.not_lt.2 hk]

/-- C50 fails: so is `vector-copy` (and `string-copy`) up to an index behind the end, … -/
theorem C50_copy_range_fails {σ : Store α} {a : Nat} {xs : List α} (ha : σ[a]? = some xs) {i j : Nat} {n m : Num}
    (hn : IsIndex i n) (hm : IsIndex j m) (hj : xs.length < j) (x : α) :
    copy σ a [n, m] = .undefined ∧ toList σ a [n, m] = .undefined ∧ fill σ a x [n, m] = .undefined := by
  refine ⟨?_, ?_, ?_⟩
  · simp only [copy, elements_some ha, bounds, sizeCast_index hn, sizeCast_index hm, bind_value, between]
    rw [if_neg (by omega)]; rfl
  · simp only [toList, elements_some ha, bounds, sizeCast_index hn, sizeCast_index hm, bind_value]
    rw [if_neg (by omega)]
  · simp only [fill, elements_some ha, bounds, sizeCast_index hn, sizeCast_index hm, bind_value]
    rw [if_neg (by omega)]

/-- … and `vector-copy!` (and `string-copy!`) of more elements than there is room for. -/
theorem C50_room_fails {σ : Store α} {source target : Nat} {xs ys : List α} (hs : σ[source]? = some xs)
    (ht : σ[target]? = some ys) {k : Nat} {n : Num} (hn : IsIndex k n) (hroom : ys.length < k + xs.length) :
    copyInto σ target n source [] = .undefined := by
  simp only [copyInto, elements_some hs, bounds, sizeCast_index hn, bind_value, stdCopy, hs, ht]
  split
  · split
    · rfl
    · rename_i h _
      rw [Nat.sub_zero, copyLoop_past xs.length σ target k source 0 xs ys hs ht hroom h.2.2]
  · rfl

/-- C50 fails: moving elements towards the end within a vector or string is undefined… -/
theorem C50_overlap_fails : copyInto [[1, 2, 3]] 0 (.small 1) 0 [.small 0, .small 2] = .undefined := rfl

/-- … and overwrites elements before they are copied (libstdc++, for vectors); for bytevectors too. -/
theorem C50_forward_fails : copyLoop [[1, 2, 3]] 0 1 0 0 2 = some [[1, 1, 1]] ∧
    u8vectorCopyInto [[1, 2, 3]] 0 (.small 1) 0 [.small 0, .small 2] = .value [[1, 1, 1]] := ⟨rfl, rfl⟩

/-- C50 fails: `string->vector` ignores `start` and `end`. -/
theorem C50_string_vector_fails :
    stringToVector [] [[97, 98, 99]] 0 [.small 1, .small 2] = .value (0, [[.char 97, .char 98, .char 99]]) := rfl

/-- C50 fails: `string->utf8` ignores `start` and `end`. -/
theorem C50_string_utf8_fails :
    stringToUtf8 [] [[97, 98, 99]] 0 [.small 1, .small 2] = .value (0, [[97, 98, 99]]) := rfl

/-- C50 fails: `bytevector-append` ignores the third argument. -/
theorem C50_bytes_append_fails : u8vectorAppend [[1], [2], [3]] [0, 1, 2] = .value (3, [[1], [2], [3], [1, 2]]) := rfl

/-- C50 fails: an index of 2^64 is taken for 0, one of 1/2 too. -/
theorem C50_index_fails (x : α) : stringRef [[x]] 0 (.large (2 ^ 64)) = .value x ∧
    stringRef [[x]] 0 (.ratio ⟨1, 2⟩) = .value x := by
  refine ⟨rfl, ?_⟩
  have : sizeCast (.ratio ⟨1, 2⟩) = .value 0 := by decide +kernel
  simp [stringRef, elements, this]

/-- C50 fails: bytes are taken modulo 256. -/
theorem C50_byte_fails : byteCast (.small 256) = .value 0 ∧ byteCast (.small (-1)) = .value 255 := ⟨rfl, rfl⟩

/-! ### C51 -/

theorem vectorEq_iff {as bs : List Nat} : vectorEq as bs = true ↔ as = bs := by
  unfold vectorEq
  rw [Bool.and_eq_true, beq_iff_eq]
  induction as generalizing bs with
  | nil => cases bs <;> simp
  | cons a as ih =>
    cases bs with
    | nil => simp
    | cons b bs =>
      have := @ih bs
      simp only [List.length_cons, List.zip_cons_cons, List.all_cons, Bool.and_eq_true, beq_iff_eq,
        List.cons.injEq] at this ⊢
      rw [← this]; constructor
      · rintro ⟨h1, h2, h3⟩; exact ⟨h2, by omega, h3⟩
      · rintro ⟨h1, h2, h3⟩; exact ⟨by omega, h1, h3⟩

theorem Before.cons {a : Nat} {as bs : List Nat} (h : Before as bs) : Before (a :: as) (a :: bs) := by
  cases h with
  | shorter common b bs => exact .shorter (a :: as) b bs
  | smaller common as bs h => exact .smaller (a :: common) as bs h

theorem before_cons {a b : Nat} {as bs : List Nat} :
    Before (a :: as) (b :: bs) ↔ a < b ∨ a = b ∧ Before as bs := by
  constructor
  · intro h
    generalize hx : a :: as = xs at h
    generalize hy : b :: bs = ys at h
    cases h with
    | shorter c cs =>
      subst hx
      simp only [List.cons_append, List.cons.injEq] at hy
      obtain ⟨rfl, rfl⟩ := hy
      exact Or.inr ⟨rfl, .shorter _ _ _⟩
    | smaller common as' bs' h =>
      cases common with
      | nil =>
        simp only [List.nil_append, List.cons.injEq] at hx hy
        obtain ⟨rfl, _⟩ := hx
        obtain ⟨rfl, _⟩ := hy
        exact Or.inl h
      | cons c common =>
        simp only [List.cons_append, List.cons.injEq] at hx hy
        obtain ⟨rfl, rfl⟩ := hx
        obtain ⟨rfl, rfl⟩ := hy
        exact Or.inr ⟨rfl, .smaller _ _ _ h⟩
  · rintro (h | ⟨rfl, h⟩)
    · exact .smaller [] as bs h
    · exact h.cons

theorem before_nil {bs : List Nat} : Before [] bs ↔ bs ≠ [] := by
  constructor
  · intro h
    generalize hx : ([] : List Nat) = xs at h
    cases h with
    | shorter c cs => simp
    | smaller common as' bs' h => simp at hx
  · intro h
    cases bs with
    | nil => exact absurd rfl h
    | cons b bs => exact .shorter [] b bs

theorem not_before_nil {as : List Nat} : ¬ Before as [] := by
  intro h
  generalize hy : ([] : List Nat) = ys at h
  cases h <;> simp at hy

theorem vectorCmp_spec (as bs : List Nat) :
    (vectorCmp as bs < 0 ↔ Before as bs) ∧ (0 < vectorCmp as bs ↔ Before bs as) ∧
    (vectorCmp as bs = 0 ↔ as = bs) := by
  induction as generalizing bs with
  | nil =>
    cases bs with
    | nil => simp [vectorCmp, not_before_nil]
    | cons b bs => simp [vectorCmp, before_nil, not_before_nil]
  | cons a as ih =>
    cases bs with
    | nil => simp [vectorCmp, before_nil, not_before_nil]
    | cons b bs =>
      obtain ⟨h1, h2, h3⟩ := ih bs
      rw [before_cons, before_cons, List.cons.injEq]
      simp only [vectorCmp]
      by_cases hab : a < b
      · simp [hab]; omega
      · by_cases hba : b < a
        · simp [hab, hba]; omega
        · have : a = b := by omega
          subst this
          simp [h1, h2, h3]

theorem Before.trans {as bs cs : List Nat} (h : Before as bs) (h' : Before bs cs) : Before as cs := by
  induction as generalizing bs cs with
  | nil =>
    rw [before_nil]
    intro e; subst e; exact not_before_nil h'
  | cons a as ih =>
    cases bs with
    | nil => exact absurd h not_before_nil
    | cons b bs =>
      cases cs with
      | nil => exact absurd h' not_before_nil
      | cons c cs =>
        rw [before_cons] at h h' ⊢
        rcases h with h | ⟨rfl, h⟩
        · rcases h' with h' | ⟨rfl, _⟩
          · exact Or.inl (by omega)
          · exact Or.inl h
        · rcases h' with h' | ⟨rfl, h'⟩
          · exact Or.inl h'
          · exact Or.inr ⟨rfl, ih h h'⟩

theorem Before.irrefl {as : List Nat} : ¬ Before as as := by
  intro h
  have h1 := (vectorCmp_spec as as).1.2 h
  have h2 := (vectorCmp_spec as as).2.2.2 rfl
  omega

/-- A test of neighbours by a transitive relation is a test of all pairs. -/
theorem noAdjacent_pairwise {β : Type} {p : β → β → Bool} {r : β → β → Prop} (hp : ∀ a b, p a b = false ↔ r a b)
    (ht : ∀ a b c, r a b → r b c → r a c) (xs : List β) : noAdjacent p xs = true ↔ xs.Pairwise r := by
  induction xs with
  | nil => simp [noAdjacent]
  | cons x xs ih =>
    cases xs with
    | nil => simp [noAdjacent]
    | cons y ys =>
      rw [noAdjacent, Bool.and_eq_true, ih, List.pairwise_cons (a := x), Bool.not_eq_true', hp]
      constructor
      · rintro ⟨h1, h2⟩
        refine ⟨?_, h2⟩
        intro z hz
        rcases List.mem_cons.1 hz with rfl | hz
        · exact h1
        · exact ht _ _ _ h1 ((List.pairwise_cons.1 h2).1 z hz)
      · rintro ⟨h1, h2⟩
        exact ⟨h1 y (List.mem_cons_self ..), h2⟩

/-- C51 (in part): `string=?`, `string<?`, `string>?`, `string<=?`, `string>=?` of any number of strings
compare all of them by the lexicographic order of code points. -/
theorem C51_order_partial (xs : List (List Nat)) :
    (stringEq xs = true ↔ xs.Pairwise (· = ·)) ∧
    (stringLt xs = true ↔ xs.Pairwise Before) ∧
    (stringGt xs = true ↔ xs.Pairwise fun a b => Before b a) ∧
    (stringLe xs = true ↔ xs.Pairwise fun a b => ¬ Before b a) ∧
    (stringGe xs = true ↔ xs.Pairwise fun a b => ¬ Before a b) := by
  have hle : ∀ a b, ¬ Before b a ↔ (a = b ∨ Before a b) := by
    intro a b
    obtain ⟨h1, h2, h3⟩ := vectorCmp_spec a b
    rw [← h1, ← h2, ← h3]; omega
  have hge : ∀ a b, ¬ Before a b ↔ (a = b ∨ Before b a) := by
    intro a b
    obtain ⟨h1, h2, h3⟩ := vectorCmp_spec a b
    rw [← h1, ← h2, ← h3]; omega
  refine ⟨noAdjacent_pairwise ?_ ?_ xs, noAdjacent_pairwise ?_ ?_ xs, noAdjacent_pairwise ?_ ?_ xs,
    noAdjacent_pairwise ?_ ?_ xs, noAdjacent_pairwise ?_ ?_ xs⟩
  · intro a b; simp [vectorEq_iff]
  · intro a b c h h'; exact h.trans h'
  · intro a b; simp [(vectorCmp_spec a b).1]
  · intro a b c h h'; exact h.trans h'
  · intro a b; simp [(vectorCmp_spec a b).2.1]
  · intro a b c h h'; exact h'.trans h
  · intro a b; simp [← (vectorCmp_spec a b).2.1]
  · intro a b c h h'
    rw [hle] at h h' ⊢
    rcases h with rfl | h
    · exact h'
    · rcases h' with rfl | h'
      · exact Or.inr h
      · exact Or.inr (h.trans h')
  · intro a b; simp [← (vectorCmp_spec a b).1]
  · intro a b c h h'
    rw [hge] at h h' ⊢
    rcases h with rfl | h
    · exact h'
    · rcases h' with rfl | h'
      · exact Or.inr h
      · exact Or.inr (h'.trans h)

/-- The order is a strict total order. -/
theorem C51_total (a b : List Nat) :
    (Before a b ∨ a = b ∨ Before b a) ∧ ¬ (Before a b ∧ Before b a) ∧ ¬ Before a a := by
  obtain ⟨h1, h2, h3⟩ := vectorCmp_spec a b
  refine ⟨?_, ?_, Before.irrefl⟩
  · rw [← h1, ← h2, ← h3]; omega
  · rw [← h1, ← h2]; omega

theorem lexicographical_lt (f : Nat → Nat) (as bs : List Nat) :
    lexicographicalCompare (fun c d => decide (f c < f d)) as bs = true ↔ Before (as.map f) (bs.map f) := by
  induction as generalizing bs with
  | nil => cases bs <;> simp [lexicographicalCompare, before_nil]
  | cons a as ih =>
    cases bs with
    | nil => simp [lexicographicalCompare, not_before_nil]
    | cons b bs =>
      simp only [lexicographicalCompare, List.map_cons, before_cons, decide_eq_true_eq]
      by_cases h : f a < f b
      · simp [h]
      · by_cases h' : f b < f a
        · simp [h, h']; omega
        · have : f a = f b := by omega
          simp [this, ih]

theorem lexicographical_gt (f : Nat → Nat) (as bs : List Nat) :
    lexicographicalCompare (fun c d => decide (f c > f d)) as bs = true ↔
      (Before (bs.map f) (as.map f) ∧ ¬ bs.map f <+: as.map f) ∨ (as.map f <+: bs.map f ∧ as.length < bs.length) := by
  induction as generalizing bs with
  | nil => cases bs <;> simp [lexicographicalCompare, not_before_nil]
  | cons a as ih =>
    cases bs with
    | nil => simp [lexicographicalCompare, before_nil]
    | cons b bs =>
      simp only [lexicographicalCompare, List.map_cons, before_cons, decide_eq_true_eq, List.cons_prefix_cons,
        List.length_cons, Nat.add_lt_add_iff_right]
      by_cases h : f a > f b
      · rw [if_pos h]
        exact iff_of_true rfl (Or.inl ⟨Or.inl h, fun e => absurd e.1 (by omega)⟩)
      · by_cases h' : f b > f a
        · rw [if_neg h, if_pos h']
          constructor
          · intro h; cases h
          · rintro (⟨h1 | h1, _⟩ | ⟨⟨h1, _⟩, _⟩) <;> omega
        · have : f a = f b := by omega
          simp [this, ih]

/-- C51 (in part): `string-ci<?` agrees with `string<?` of the folded strings. -/
theorem C51_ci_less (downcase : Nat → Nat) (xs : List (List Nat)) :
    stringCiLt downcase xs = stringLt (xs.map (stringFoldcase downcase)) := by
  rw [Bool.eq_iff_iff, (C51_order_partial _).2.1, List.pairwise_map]
  refine noAdjacent_pairwise (r := fun a b => Before (stringFoldcase downcase a) (stringFoldcase downcase b))
    ?_ ?_ xs
  · intro a b
    simp only [Bool.not_eq_false', stringFoldcase]
    exact lexicographical_lt downcase a b
  · intro a b c h h'; exact h.trans h'

/-- C51 (in part): `string-ci>?` of two strings agrees with `string>?` of the folded strings if neither is
the beginning of the other. -/
theorem C51_ci_greater_partial (downcase : Nat → Nat) {a b : List Nat}
    (h1 : ¬ stringFoldcase downcase a <+: stringFoldcase downcase b)
    (h2 : ¬ stringFoldcase downcase b <+: stringFoldcase downcase a) :
    stringCiGt downcase [a, b] = stringGt ([a, b].map (stringFoldcase downcase)) := by
  rw [Bool.eq_iff_iff, (C51_order_partial _).2.2.1, List.pairwise_map]
  unfold stringFoldcase at h1 h2
  simp only [stringCiGt, stringCi, noAdjacent, Bool.and_true, Bool.not_not, List.pairwise_cons,
    List.mem_cons, List.not_mem_nil, or_false, forall_eq, IsEmpty.forall_iff, implies_true, List.Pairwise.nil,
    and_true, stringFoldcase]
  rw [lexicographical_gt downcase a b]
  simp [h1, h2]

/-- Lower case letters. -/
def asciiDowncase (c : Nat) : Nat := if 65 ≤ c ∧ c ≤ 90 then c + 32 else c

/-- `"Abc"` and `"aBd"`. -/
example : stringCiLt asciiDowncase [[65, 98, 99], [97, 66, 100]] = true := rfl

example : ¬ stringFoldcase asciiDowncase [65, 98, 99] <+: stringFoldcase asciiDowncase [97, 66, 100] := by decide

/-- C51 fails: `(string-ci=? "ab" "ac")` is true, and `(string-ci=? "" "")` is false. -/
theorem C51_ci_equal_fails :
    stringCiEq asciiDowncase [[97, 98], [97, 99]] = true ∧ stringCiEq asciiDowncase [[], []] = false := ⟨rfl, rfl⟩

/-- More: with a common first character, whatever follows, the strings count as equal. -/
theorem C51_ci_equal_first_fails (downcase : Nat → Nat) (c : Nat) (as bs : List Nat) :
    stringCiEq downcase [c :: as, c :: bs] = true := by
  simp [stringCiEq, stringCi, noAdjacent, lexicographicalCompare]

/-- C51 fails: `(string-ci>? "a" "ab")` is true, `(string-ci>? "ab" "a")` is false. -/
theorem C51_ci_greater_fails :
    stringCiGt asciiDowncase [[97], [97, 98]] = true ∧ stringCiGt asciiDowncase [[97, 98], [97]] = false := ⟨rfl, rfl⟩

/-- C51 fails: `string-ci<=?` and `string-ci>=?` are both true of any two strings with the same first
character. -/
theorem C51_ci_monotone_fails (downcase : Nat → Nat) (c : Nat) (as bs : List Nat) :
    stringCiLe downcase [c :: as, c :: bs] = true ∧ stringCiGe downcase [c :: as, c :: bs] = true := by
  simp [stringCiLe, stringCiGe, stringCi, noAdjacent, lexicographicalCompare]

/-- C51: `char-ci=?` and its relatives compare the folded characters. -/
theorem C51_char_ci (downcase : Nat → Nat) (xs : List Nat) :
    (charCi downcase (fun c d => c == d) xs = true ↔ (xs.map downcase).Pairwise (· = ·)) ∧
    (charCi downcase (fun c d => decide (c < d)) xs = true ↔ (xs.map downcase).Pairwise (· < ·)) ∧
    (charCi downcase (fun c d => decide (c > d)) xs = true ↔ (xs.map downcase).Pairwise (· > ·)) ∧
    (charCi downcase (fun c d => decide (c ≤ d)) xs = true ↔ (xs.map downcase).Pairwise (· ≤ ·)) ∧
    (charCi downcase (fun c d => decide (c ≥ d)) xs = true ↔ (xs.map downcase).Pairwise (· ≥ ·)) := by
  simp only [List.pairwise_map]
  refine ⟨noAdjacent_pairwise ?_ ?_ xs, noAdjacent_pairwise ?_ ?_ xs, noAdjacent_pairwise ?_ ?_ xs,
    noAdjacent_pairwise ?_ ?_ xs, noAdjacent_pairwise ?_ ?_ xs⟩
  all_goals first | (intro a b c h h'; omega) | (intro a b; simp)

end Meevax.Seq
