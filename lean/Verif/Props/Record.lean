import Verif.Model.Record

/-!
# C55: records

Specification: a record is an object with a type and a value for each field of the type.
-/

namespace Meevax.Record

/-- `t` is a type with the fields `ts`, other than `:record-type`. -/
def IsType (σ : Store) (t : Val) (ts : List Nat) : Prop :=
  ∃ a rtd name, t = .vec a ∧ rtd ≠ t ∧ σ[a]? = some [.marker, rtd, name, .tags ts]

/-- `r` is a record of type `t` with the field values `vals`, in the order of the declaration. -/
def IsRecordOf (σ : Store) (r t : Val) (vals : List Val) : Prop :=
  ∃ a, r = .vec a ∧ σ[a]? = some (.marker :: t :: vals)

/-- Nothing that existed before has changed. -/
def Extends (σ τ : Store) : Prop := ∀ (a : Nat), a < σ.length → τ[a]? = σ[a]?

/-- Nothing but the object `r` has changed. -/
def OnlyChanges (r : Val) (σ τ : Store) : Prop := ∀ (a : Nat), .vec a ≠ r → τ[a]? = σ[a]?

theorem indexLoop_some (tag : Nat) : ∀ (ts : List Nat) (i : Nat), tag ∈ ts →
    ∃ k, indexLoop tag i ts = some (i + k) ∧ ts[k]? = some tag := by
  intro ts
  induction ts with
  | nil => intro i h; simp at h
  | cons t ts ih =>
    intro i h
    by_cases ht : tag = t
    · exact ⟨0, by simp [indexLoop, ht], by simp [ht]⟩
    · obtain ⟨k, h1, h2⟩ := ih (i + 1) (by simpa [ht] using h)
      refine ⟨k + 1, ?_, by simpa using h2⟩
      simp only [indexLoop, ht, if_false, h1]
      congr 1
      omega

theorem indexLoop_none (tag : Nat) : ∀ (ts : List Nat) (i : Nat), tag ∉ ts → indexLoop tag i ts = none := by
  intro ts
  induction ts with
  | nil => intro i _; rfl
  | cons t ts ih =>
    intro i h
    have h1 : tag ≠ t := fun e => h (by simp [e])
    have h2 : tag ∉ ts := fun e => h (by simp [e])
    simp only [indexLoop, h1, if_false, ih (i + 1) h2]

theorem fieldTags_type {σ : Store} {t : Val} {ts : List Nat} (h : IsType σ t ts) :
    fieldTags t σ = .value ts σ := by
  obtain ⟨a, rtd, name, rfl, _, ha⟩ := h
  simp [fieldTags, recordRef, vectorRef, ha, Result.bind]

theorem fieldIndex_type {σ : Store} {t : Val} {ts : List Nat} (h : IsType σ t ts) {tag : Nat}
    (hm : tag ∈ ts) : ∃ k, fieldIndex t tag σ = .value (1 + k) σ ∧ ts[k]? = some tag := by
  obtain ⟨k, h1, h2⟩ := indexLoop_some tag ts 1 hm
  exact ⟨k, by simp [fieldIndex, fieldTags_type h, Result.bind, h1], h2⟩

theorem isRecord_iff (σ : Store) (v : Val) :
    isRecord v σ = true ↔ ∃ a xs, v = .vec a ∧ σ[a]? = some (.marker :: xs) := by
  unfold isRecord
  cases v with
  | vec a =>
    cases ha : σ[a]? with
    | none => simp [ha]
    | some xs =>
      cases xs with
      | nil => simp [ha]
      | cons x xs => simp [ha]
  | _ => simp

theorem hasType_of {σ : Store} {r t : Val} {vals : List Val} (h : IsRecordOf σ r t vals) :
    hasType t r σ = .value true σ := by
  obtain ⟨a, rfl, ha⟩ := h
  have hr : isRecord (.vec a) σ = true := (isRecord_iff _ _).mpr ⟨a, _, rfl, ha⟩
  simp [hasType, hr, recordRef, vectorRef, ha, Result.bind]

theorem recordRef_field {σ : Store} {r t : Val} {vals : List Val} (h : IsRecordOf σ r t vals) {k : Nat}
    {x : Val} (hx : vals[k]? = some x) : recordRef r (1 + k) σ = .value x σ := by
  obtain ⟨a, rfl, ha⟩ := h
  have : (Val.marker :: t :: vals)[1 + k + 1]? = some x := by
    rw [Nat.add_comm 1 k]; simpa using hx
  simp [recordRef, vectorRef, ha, this]

/-- The value of a field, as the accessor returns it. -/
theorem access_field {σ : Store} {r t : Val} {ts : List Nat} {vals : List Val} (ht : IsType σ t ts)
    (hr : IsRecordOf σ r t vals) (hl : vals.length = ts.length) {tag : Nat} (hm : tag ∈ ts) :
    ∃ k x, ts[k]? = some tag ∧ vals[k]? = some x ∧ fieldIndex t tag σ = .value (1 + k) σ ∧
      access t tag r σ = .value x σ := by
  obtain ⟨k, h1, h2⟩ := fieldIndex_type ht hm
  have hk : k < vals.length := by
    rw [hl]
    exact (List.getElem?_eq_some_iff.mp h2).1
  refine ⟨k, vals[k], h2, List.getElem?_eq_getElem hk, h1, ?_⟩
  have h3 := recordRef_field hr (List.getElem?_eq_getElem hk)
  simp [access, h1, Result.bind, hasType_of hr, h3]

/-! ## Types -/

theorem makeRecord_eq (n : Nat) (σ : Store) :
    makeRecord n σ = .value (.vec σ.length) (σ ++ [.marker :: List.replicate n .unspecified]) := by
  simp [makeRecord, makeVector, vectorSet, Result.bind, List.replicate_succ]

theorem recordSet_last (σ : Store) (xs : List Val) (i : Nat) (x : Val) (h : i + 1 < xs.length) :
    recordSet (.vec σ.length) i x (σ ++ [xs]) = .value () (σ ++ [xs.set (i + 1) x]) := by
  simp [recordSet, vectorSet, h]

theorem makeRecordType_eq (rtd name : Val) (ts : List Nat) (σ : Store) :
    makeRecordType rtd name ts σ =
      .value (.vec σ.length) (σ ++ [[.marker, rtd, name, .tags ts]]) := by
  simp only [makeRecordType, makeRecord_eq, Result.bind]
  rw [recordSet_last _ _ _ _ (by simp)]
  simp only
  rw [recordSet_last _ _ _ _ (by simp)]
  simp only
  rw [recordSet_last _ _ _ _ (by simp)]
  rfl

/-- C55: defining a record type makes a new object, which is a type with the given fields, and changes
nothing else.  In particular, two definitions make different types even if they look the same. -/
theorem C55_define (b : Nat) (name : Val) (ts : List Nat) (σ : Store) (hb : b < σ.length) :
    ∃ t τ, makeRecordType (.vec b) name ts σ = .value t τ ∧ IsType τ t ts ∧ Extends σ τ ∧
      ∀ a < σ.length, t ≠ .vec a := by
  refine ⟨_, _, makeRecordType_eq _ _ _ _, ⟨σ.length, .vec b, name, rfl, ?_, by simp⟩, ?_, ?_⟩
  · intro h
    injection h with h
    omega
  · intro a ha
    simp [List.getElem?_append_left ha]
  · intro a ha h
    injection h with h
    omega

/-! ## Constructors -/

/-- What storing the arguments does to the elements. -/
def setAll (xs : List Val) : List Val → List Nat → List Val
  | arg :: args, i :: is => setAll (xs.set (i + 1) arg) args is
  | _, _ => xs

theorem setAll_length : ∀ (args : List Val) (is : List Nat) (xs : List Val),
    (setAll xs args is).length = xs.length := by
  intro args
  induction args with
  | nil => intro is xs; simp [setAll]
  | cons arg args ih =>
    intro is xs
    cases is with
    | nil => simp [setAll]
    | cons i is => simp [setAll, ih]

theorem setAll_other : ∀ (args : List Val) (is : List Nat) (xs : List Val) (j : Nat),
    (∀ i ∈ is, i + 1 ≠ j) → (setAll xs args is)[j]? = xs[j]? := by
  intro args
  induction args with
  | nil => intro is xs j _; simp [setAll]
  | cons arg args ih =>
    intro is xs j h
    cases is with
    | nil => simp [setAll]
    | cons i is =>
      simp only [setAll]
      rw [ih is _ j (fun i' hi' => h i' (by simp [hi'])), List.getElem?_set_ne (h i (by simp))]

theorem setAll_get : ∀ (args : List Val) (is : List Nat) (xs : List Val), is.Nodup →
    (∀ i ∈ is, i + 1 < xs.length) → ∀ (k : Nat) (i : Nat) (x : Val), is[k]? = some i →
    args[k]? = some x → (setAll xs args is)[i + 1]? = some x := by
  intro args
  induction args with
  | nil => intro is xs _ _ k i x _ hx; simp at hx
  | cons arg args ih =>
    intro is xs hd hb k i x hi hx
    cases is with
    | nil => simp at hi
    | cons j is =>
      simp only [setAll]
      cases k with
      | zero =>
        simp only [List.getElem?_cons_zero, Option.some.injEq] at hi hx
        subst hi; subst hx
        rw [setAll_other _ _ _ _ (fun i' hi' e => ?_)]
        · exact List.getElem?_set_self (hb j (by simp))
        · have : i' = j := by omega
          exact (List.nodup_cons.mp hd).1 (this ▸ hi')
      | succ k =>
        exact ih is _ (List.nodup_cons.mp hd).2 (fun i' hi' => by
          rw [List.length_set]; exact hb i' (by simp [hi'])) k i x (by simpa using hi) (by simpa using hx)

theorem storeFields_eq (σ : Store) : ∀ (args : List Val) (is : List Nat) (xs : List Val),
    (∀ i ∈ is, i + 1 < xs.length) →
    storeFields (.vec σ.length) args is (σ ++ [xs]) = .value () (σ ++ [setAll xs args is]) := by
  intro args
  induction args with
  | nil => intro is xs _; simp [storeFields, setAll]
  | cons arg args ih =>
    intro is xs h
    cases is with
    | nil => simp [storeFields, setAll]
    | cons i is =>
      simp only [storeFields, recordSet_last σ xs i arg (h i (by simp)), Result.bind, setAll]
      exact ih is _ fun i' hi' => by rw [List.length_set]; exact h i' (by simp [hi'])

theorem fieldIndices_eq {σ : Store} {t : Val} {ts : List Nat} (h : IsType σ t ts) : ∀ (tags : List Nat),
    (∀ tag ∈ tags, tag ∈ ts) →
    ∃ is, fieldIndices t tags σ = .value is σ ∧ is.length = tags.length ∧
      ∀ (k tag : Nat), tags[k]? = some tag → ∃ j, is[k]? = some (1 + j) ∧ ts[j]? = some tag ∧
        fieldIndex t tag σ = .value (1 + j) σ := by
  intro tags
  induction tags with
  | nil => intro _; exact ⟨[], rfl, rfl, by simp⟩
  | cons tag tags ih =>
    intro hm
    obtain ⟨is, h1, h2, h3⟩ := ih fun x hx => hm x (by simp [hx])
    obtain ⟨j, h4, h5⟩ := fieldIndex_type h (hm tag (by simp))
    refine ⟨(1 + j) :: is, by simp [fieldIndices, h4, h1, Result.bind], by simp [h2], ?_⟩
    intro k tag' hk
    cases k with
    | zero =>
      simp only [List.getElem?_cons_zero, Option.some.injEq] at hk
      subst hk
      exact ⟨j, rfl, h5, h4⟩
    | succ k => exact h3 k tag' (by simpa using hk)

/-- C55: the constructor, called with as many arguments as it has fields, makes a new record of its type
in which each of these fields has the value of its argument; nothing else changes. -/
theorem C55_construct {σ : Store} {t : Val} {ts tags : List Nat} {args : List Val} (ht : IsType σ t ts)
    (hm : ∀ tag ∈ tags, tag ∈ ts) (hd : tags.Nodup) (hl : args.length = tags.length) :
    ∃ r τ vals, construct t tags args σ = .value r τ ∧ IsRecordOf τ r t vals ∧ vals.length = ts.length ∧
      Extends σ τ ∧ (∀ a < σ.length, r ≠ .vec a) ∧ predicate t r τ = .value true τ ∧
      ∀ (k tag : Nat) (x : Val), tags[k]? = some tag → args[k]? = some x →
        access t tag r τ = .value x τ := by
  obtain ⟨is, h1, h2, h3⟩ := fieldIndices_eq ht tags hm
  have hbound : ∀ i ∈ is, ∃ j, i = 1 + j ∧ j < ts.length := by
    intro i hi
    obtain ⟨k, hk, hk'⟩ := List.mem_iff_getElem.mp hi
    have hk2 : k < tags.length := by omega
    obtain ⟨j, h4, h5, _⟩ := h3 k tags[k] (List.getElem?_eq_getElem hk2)
    rw [List.getElem?_eq_getElem hk, hk'] at h4
    exact ⟨j, by simpa using h4, (List.getElem?_eq_some_iff.mp h5).1⟩
  have hnodup : is.Nodup := by
    refine List.pairwise_iff_getElem.mpr fun p q hp hq hpq e => ?_
    have hq2 : q < tags.length := by omega
    have hp2 : p < tags.length := by omega
    obtain ⟨j, h4, h5, _⟩ := h3 p tags[p] (List.getElem?_eq_getElem hp2)
    obtain ⟨j', h4', h5', _⟩ := h3 q tags[q] (List.getElem?_eq_getElem hq2)
    rw [List.getElem?_eq_getElem hp, e, ← List.getElem?_eq_getElem hq, h4'] at h4
    have hj : j = j' := by
      have := Option.some.inj h4
      omega
    rw [hj, h5'] at h5
    exact (List.pairwise_iff_getElem.mp hd p q hp2 hq2 hpq) (Option.some.inj h5).symm
  let xs : List Val := .marker :: t :: List.replicate ts.length .unspecified
  let ys := setAll xs args is
  have hxs : xs.length = ts.length + 2 := by simp [xs]
  have hlt : ∀ i ∈ is, i + 1 < xs.length := by
    intro i hi
    obtain ⟨j, rfl, hj⟩ := hbound i hi
    omega
  have hnot0 : ∀ i ∈ is, i + 1 ≠ 0 := by intro i _; omega
  have hnot1 : ∀ i ∈ is, i + 1 ≠ 1 := by
    intro i hi
    obtain ⟨j, rfl, hj⟩ := hbound i hi
    omega
  have hy0 : ys[0]? = some .marker := by rw [show ys = setAll xs args is from rfl, setAll_other _ _ _ _ hnot0]; rfl
  have hy1 : ys[1]? = some t := by rw [show ys = setAll xs args is from rfl, setAll_other _ _ _ _ hnot1]; rfl
  have hylen : ys.length = ts.length + 2 := by rw [show ys = setAll xs args is from rfl, setAll_length, hxs]
  obtain ⟨vals, hys⟩ : ∃ vals, ys = .marker :: t :: vals := by
    match hyy : ys, hy0, hy1 with
    | [], h, _ => simp at h
    | [a], _, h => simp at h
    | a :: b :: rest, h, h' =>
      simp only [List.getElem?_cons_zero, Option.some.injEq, List.getElem?_cons_succ] at h h'
      exact ⟨rest, by rw [h, h']⟩
  have hvl : vals.length = ts.length := by
    rw [hys] at hylen
    simpa using hylen
  have hconstruct : construct t tags args σ = .value (.vec σ.length) (σ ++ [ys]) := by
    simp only [construct, fieldTags_type ht, Result.bind, h1, hl, if_true, makeRecord_eq]
    rw [recordSet_last _ _ _ _ (by simp)]
    have hx : (Val.marker :: List.replicate (ts.length + 1) Val.unspecified).set (0 + 1) t = xs := by
      simp [xs, List.replicate_succ]
    simp only [hx]
    rw [storeFields_eq σ args is xs hlt]
  have hrec : IsRecordOf (σ ++ [ys]) (.vec σ.length) t vals := ⟨σ.length, rfl, by simp [hys]⟩
  have hext : Extends σ (σ ++ [ys]) := by
    intro a ha
    simp [List.getElem?_append_left ha]
  have htype : IsType (σ ++ [ys]) t ts := by
    obtain ⟨a, rtd, name, h4, h5, h6⟩ := ht
    exact ⟨a, rtd, name, h4, h5, by rw [hext a (List.getElem?_eq_some_iff.mp h6).1]; exact h6⟩
  refine ⟨_, _, vals, hconstruct, hrec, hvl, hext, ?_, hasType_of hrec, ?_⟩
  · intro a ha h
    injection h with h
    omega
  · intro k tag x hk hx
    obtain ⟨j, h4, h5, h6⟩ := h3 k tag hk
    obtain ⟨j', y, h7, h8, h9, h10⟩ := access_field htype hrec hvl (hm tag (List.mem_of_getElem? hk))
    have hjj : j = j' := by
      have e1 : fieldIndex t tag (σ ++ [ys]) = .value (1 + j) (σ ++ [ys]) := by
        simp only [fieldIndex, fieldTags_type htype, Result.bind]
        simp only [fieldIndex, fieldTags_type ht, Result.bind] at h6
        cases hi : indexLoop tag 1 ts with
        | none => simp [hi] at h6
        | some i =>
          simp only [hi, Result.value.injEq, and_true] at h6
          simp [h6]
      rw [h9] at e1
      injection e1 with e1
      omega
    rw [h10]
    have hset : ys[1 + j + 1]? = some x := setAll_get args is xs hnodup hlt k (1 + j) x h4 hx
    rw [hys, Nat.add_comm 1 j] at hset
    have hv : vals[j]? = some x := by simpa using hset
    rw [hjj, h8] at hv
    rw [Option.some.inj hv]

/-- C55: the constructor called with another number of arguments raises an error. -/
theorem C55_construct_arity {σ : Store} {t : Val} {ts tags : List Nat} {args : List Val}
    (ht : IsType σ t ts) (hm : ∀ tag ∈ tags, tag ∈ ts) (hl : args.length ≠ tags.length) :
    construct t tags args σ = .error := by
  obtain ⟨is, h1, _⟩ := fieldIndices_eq ht tags hm
  simp [construct, fieldTags_type ht, Result.bind, h1, hl]

/-! ## Modifiers -/

/-- C55: after a modifier has stored a value, the accessor of the same field returns it, the accessors of
the other fields return what they returned before, and no other object has changed. -/
theorem C55_modify {σ : Store} {r t : Val} {ts : List Nat} {vals : List Val} (ht : IsType σ t ts)
    (hr : IsRecordOf σ r t vals) (hl : vals.length = ts.length) {tag : Nat} (hm : tag ∈ ts) (x : Val) :
    ∃ τ vals', modify t tag r x σ = .value () τ ∧ IsRecordOf τ r t vals' ∧ vals'.length = ts.length ∧
      IsType τ t ts ∧ OnlyChanges r σ τ ∧
      access t tag r τ = .value x τ ∧
      ∀ tag' ∈ ts, tag' ≠ tag → ∃ y, access t tag' r σ = .value y σ ∧ access t tag' r τ = .value y τ := by
  obtain ⟨k, z, hk, hz, hi, _⟩ := access_field ht hr hl hm
  have hrt : r ≠ t := by
    rintro rfl
    obtain ⟨a, rtd, name, h1, h2, h3⟩ := ht
    obtain ⟨a', h4, h5⟩ := hr
    rw [h1] at h4
    injection h4 with h4
    subst h4
    rw [h3] at h5
    simp only [Option.some.injEq, List.cons.injEq] at h5
    exact h2 h5.2.1
  obtain ⟨a, rfl, ha⟩ := hr
  have hkl : k < vals.length := (List.getElem?_eq_some_iff.mp hz).1
  have hbound : a < σ.length := (List.getElem?_eq_some_iff.mp ha).1
  let τ : Store := σ.set a (.marker :: t :: vals.set k x)
  have hmod : modify t tag (.vec a) x σ = .value () τ := by
    have hs : recordSet (.vec a) (1 + k) x σ = .value () τ := by
      have h1 : 1 + k + 1 < (Val.marker :: t :: vals).length := by simp; omega
      have h2 : (Val.marker :: t :: vals).set (1 + k + 1) x = .marker :: t :: vals.set k x := by
        rw [Nat.add_comm 1 k]; rfl
      simp only [recordSet, vectorSet, ha, h1, if_true, h2, τ]
    simp [modify, hi, Result.bind, hasType_of ⟨a, rfl, ha⟩, hs]
  have hrec : IsRecordOf τ (.vec a) t (vals.set k x) :=
    ⟨a, rfl, by simp only [τ]; exact List.getElem?_set_self hbound⟩
  have honly : OnlyChanges (.vec a) σ τ := by
    intro b hb
    have : a ≠ b := fun e => hb (by rw [e])
    simp only [τ]
    exact List.getElem?_set_ne this
  have htype : IsType τ t ts := by
    obtain ⟨b, rtd, name, h1, h2, h3⟩ := ht
    exact ⟨b, rtd, name, h1, h2, by rw [honly b (by rw [← h1]; exact fun e => hrt e.symm)]; exact h3⟩
  have hl' : (vals.set k x).length = ts.length := by simpa using hl
  have hsame : ∀ tag', fieldIndex t tag' τ = (fieldIndex t tag' σ).bind fun i _ => .value i τ := by
    intro tag'
    simp only [fieldIndex, fieldTags_type htype, fieldTags_type ht, Result.bind]
    cases indexLoop tag' 1 ts <;> rfl
  refine ⟨τ, vals.set k x, hmod, hrec, hl', htype, honly, ?_, ?_⟩
  · obtain ⟨k', y, h1, h2, h3, h4⟩ := access_field htype hrec hl' hm
    have hkk : k = k' := by
      rw [hsame, hi] at h3
      simp only [Result.bind] at h3
      injection h3 with h3
      omega
    subst hkk
    rw [List.getElem?_set_self hkl] at h2
    rw [h4, Option.some.inj h2]
  · intro tag' hm' hne
    obtain ⟨k1, y1, a1, a2, a3, a4⟩ := access_field ht ⟨a, rfl, ha⟩ hl hm'
    obtain ⟨k2, y2, b1, b2, b3, b4⟩ := access_field htype hrec hl' hm'
    have hkk : k1 = k2 := by
      rw [hsame, a3] at b3
      simp only [Result.bind] at b3
      injection b3 with b3
      omega
    subst hkk
    have hk1 : k ≠ k1 := by
      intro e
      rw [e, a1] at hk
      exact hne (Option.some.inj hk)
    rw [List.getElem?_set_ne hk1, a2] at b2
    refine ⟨y1, a4, ?_⟩
    rw [b4, ← Option.some.inj b2]

/-- C55: a record keeps its type and its field values when something else changes or is made. -/
theorem C55_keep {σ τ : Store} {r t : Val} {vals : List Val} (hr : IsRecordOf σ r t vals) :
    (Extends σ τ → IsRecordOf τ r t vals) ∧ (∀ r', r' ≠ r → OnlyChanges r' σ τ → IsRecordOf τ r t vals) := by
  obtain ⟨a, rfl, ha⟩ := hr
  constructor
  · intro h
    exact ⟨a, rfl, by rw [h a (List.getElem?_eq_some_iff.mp ha).1]; exact ha⟩
  · intro r' hne h
    exact ⟨a, rfl, by rw [h a (fun e => hne e.symm)]; exact ha⟩

/-! ## Predicates -/

/-- C55: the predicate of a type returns `#t` exactly for the records of this type, and never changes
anything.  (The premise excludes vectors with the marker as their only element; the library makes
none.) -/
theorem C55_predicate (σ : Store) (t v : Val) (h1 : ∀ a, v = .vec a → σ[a]? ≠ some [.marker]) :
    ∃ b, predicate t v σ = .value b σ ∧ (b = true ↔ ∃ vals, IsRecordOf σ v t vals) := by
  unfold predicate hasType
  by_cases hr : isRecord v σ = true
  · obtain ⟨a, xs, rfl, ha⟩ := (isRecord_iff _ _).mp hr
    cases xs with
    | nil => exact absurd ha (h1 a rfl)
    | cons t' vals =>
      refine ⟨decide (t' = t), by simp [hr, recordRef, vectorRef, ha, Result.bind], ?_⟩
      rw [decide_eq_true_eq]
      constructor
      · rintro rfl
        exact ⟨vals, a, rfl, ha⟩
      · rintro ⟨vals', a', h2, h3⟩
        injection h2 with h2
        subst h2
        rw [ha] at h3
        simp only [Option.some.injEq, List.cons.injEq] at h3
        exact h3.2.1
  · refine ⟨false, by simp [hr], ?_⟩
    constructor
    · intro h; cases h
    · rintro ⟨vals, a, rfl, ha⟩
      exact absurd ((isRecord_iff _ _).mpr ⟨a, _, rfl, ha⟩) hr

/-- C55: a record of one type does not satisfy the predicate of another. -/
theorem C55_other_type {σ : Store} {r t t' : Val} {vals : List Val} (hr : IsRecordOf σ r t vals)
    (hne : t' ≠ t) : predicate t' r σ = .value false σ := by
  obtain ⟨a, rfl, ha⟩ := hr
  have hrec : isRecord (.vec a) σ = true := (isRecord_iff _ _).mpr ⟨a, _, rfl, ha⟩
  simp [predicate, hasType, hrec, recordRef, vectorRef, ha, Result.bind, hne.symm]

/-- C55: objects that are not vectors, and vectors that do not begin with the marker, are not records. -/
theorem C55_other_data (σ : Store) (t v : Val)
    (h : ∀ a xs, v = .vec a → σ[a]? ≠ some (.marker :: xs)) : predicate t v σ = .value false σ := by
  have hr : ¬ isRecord v σ = true := by
    intro hr
    obtain ⟨a, xs, h1, h2⟩ := (isRecord_iff _ _).mp hr
    exact h a xs h1 h2
  simp [predicate, hasType, hr]

/-- C55: accessors and modifiers raise an error for anything but a record of their type. -/
theorem C55_wrong_type {σ : Store} {t v : Val} {ts : List Nat} (ht : IsType σ t ts) {tag : Nat}
    (hm : tag ∈ ts) (hp : predicate t v σ = .value false σ) (x : Val) :
    access t tag v σ = .error ∧ modify t tag v x σ = .error := by
  obtain ⟨k, hi, _⟩ := fieldIndex_type ht hm
  have hp' : hasType t v σ = .value false σ := hp
  simp [access, modify, hi, Result.bind, hp']

/-- C55 fails in one respect: a record is a vector, so `vector?` does not separate records from other
data, and `vector-set!` changes the type of a record. -/
theorem C55_vector_fails {σ : Store} {r t t' : Val} {vals : List Val} (hr : IsRecordOf σ r t vals) :
    isVector r = true ∧
    ∃ τ, vectorSet r 1 t' σ = .value () τ ∧ IsRecordOf τ r t' vals := by
  obtain ⟨a, rfl, ha⟩ := hr
  have hbound : a < σ.length := (List.getElem?_eq_some_iff.mp ha).1
  refine ⟨rfl, σ.set a (.marker :: t' :: vals), by simp [vectorSet, ha], a, rfl, ?_⟩
  exact List.getElem?_set_self hbound

/-! ## A concrete case: a type `point` with fields `10`, `11`, a constructor for both in the opposite
order, one modification -/

/-- The store after `(define-record-type point (make y x) point? (x ...) (y ...))`, one call of `make`
and one of the modifier of `x`. -/
def example1 : Result Val :=
  (load []).bind fun rtd σ =>
  (makeRecordType rtd (.other 7) [10, 11] σ).bind fun t σ =>
  (construct t [11, 10] [.other 1, .other 2] σ).bind fun p σ =>
  (modify t 10 p (.other 3) σ).bind fun _ σ => access t 11 p σ

example : example1 = .value (.other 1)
    [[.marker, .vec 0, .other 0, .tags [0, 1]], [.marker, .vec 0, .other 7, .tags [10, 11]],
      [.marker, .vec 1, .other 3, .other 1]] := by decide

example : IsType [[.marker, .vec 0, .other 0, .tags [0, 1]], [.marker, .vec 0, .other 7, .tags [10, 11]]]
    (.vec 1) [10, 11] := ⟨1, .vec 0, .other 7, rfl, by decide, rfl⟩

end Meevax.Record
