import Verif.Spec.Lists
import Mathlib.Logic.Function.Iterate

/-! Segments of cdr-chains: determinism, framing, and fresh cells. -/

namespace Meevax.Lists

@[simp] theorem isPair_pair (a : Nat) : isPair (.pair a) = true := rfl
@[simp] theorem isPair_null : isPair .null = false := rfl
@[simp] theorem isPair_atom (n : Nat) : isPair (.atom n) = false := rfl
@[simp] theorem isNull_pair (a : Nat) : isNull (.pair a) = false := rfl
@[simp] theorem isNull_null : isNull .null = true := rfl
@[simp] theorem isNull_atom (n : Nat) : isNull (.atom n) = false := rfl
@[simp] theorem address_pair (a : Nat) : address (.pair a) = some a := rfl
@[simp] theorem car_pair (h : Heap) (a : Nat) : car h (.pair a) = some (h.car a) := rfl
@[simp] theorem cdr_pair (h : Heap) (a : Nat) : cdr h (.pair a) = some (h.cdr a) := rfl

theorem Extends.refl (h : Heap) : Extends h h := ⟨Nat.le_refl _, fun _ _ => rfl, fun _ _ => rfl⟩

theorem Extends.trans {h h' h'' : Heap} (p : Extends h h') (q : Extends h' h'') : Extends h h'' :=
  ⟨Nat.le_trans p.next q.next,
   fun a ha => (q.car a (Nat.lt_of_lt_of_le ha p.next)).trans (p.car a ha),
   fun a ha => (q.cdr a (Nat.lt_of_lt_of_le ha p.next)).trans (p.cdr a ha)⟩

theorem Extends.cons (h : Heap) (x y : Obj) : Extends h (cons h x y).2 := by
  refine ⟨Nat.le_succ _, fun a ha => ?_, fun a ha => ?_⟩ <;>
  · have : a ≠ h.next := Nat.ne_of_lt ha
    simp [Lists.cons, this]

theorem Seg.lt {h : Heap} {x t : Obj} {as : List Nat} (s : Seg h x as t) :
    ∀ a ∈ as, a < h.next := by
  induction s with
  | nil => simp
  | cons ha _ ih =>
    intro b hb
    rcases List.mem_cons.1 hb with e | hb
    · exact e ▸ ha
    · exact ih b hb

theorem Seg.extend {h h' : Heap} (e : Extends h h') {x t : Obj} {as : List Nat}
    (s : Seg h x as t) : Seg h' x as t := by
  induction s with
  | nil => exact .nil _
  | cons ha _ ih => exact .cons (Nat.lt_of_lt_of_le ha e.next) (by rw [e.cdr _ ha]; exact ih)

theorem map_car_extend {h h' : Heap} (e : Extends h h') {as : List Nat}
    (lt : ∀ a ∈ as, a < h.next) : as.map h'.car = as.map h.car := by
  apply List.map_congr_left
  intro a ha
  exact e.car a (lt a ha)

theorem Seg.append {h : Heap} {x y z : Obj} {as bs : List Nat}
    (s : Seg h x as y) (r : Seg h y bs z) : Seg h x (as ++ bs) z := by
  induction s with
  | nil => exact r
  | cons ha _ ih => exact .cons ha (ih r)

theorem Seg.split {h : Heap} {z : Obj} {as bs : List Nat} :
    ∀ {x : Obj}, Seg h x (as ++ bs) z → ∃ y, Seg h x as y ∧ Seg h y bs z := by
  induction as with
  | nil => intro x s; exact ⟨x, .nil x, s⟩
  | cons a as ih =>
    intro x s
    cases s with
    | cons ha s =>
      obtain ⟨y, s1, s2⟩ := ih s
      exact ⟨y, .cons ha s1, s2⟩

/-- The chain from a given object is determined by its length. -/
theorem Seg.det {h : Heap} {as : List Nat} :
    ∀ {x t t' : Obj} {bs : List Nat}, Seg h x as t → Seg h x bs t' → as.length = bs.length →
      as = bs ∧ t = t' := by
  induction as with
  | nil =>
    intro x t t' bs s s' e
    cases bs with
    | nil => cases s; cases s'; exact ⟨rfl, rfl⟩
    | cons => simp at e
  | cons a as ih =>
    intro x t t' bs s s' e
    cases bs with
    | nil => simp at e
    | cons b bs =>
      cases s with
      | cons ha s =>
        cases s' with
        | cons hb s' =>
          obtain ⟨e1, e2⟩ := ih s s' (by simpa using e)
          exact ⟨by rw [e1], e2⟩

/-- A chain that ends outside the pairs is determined by its start. -/
theorem Seg.det_end {h : Heap} {as : List Nat} :
    ∀ {x t t' : Obj} {bs : List Nat}, isPair t = false → isPair t' = false →
      Seg h x as t → Seg h x bs t' → as = bs ∧ t = t' := by
  induction as with
  | nil =>
    intro x t t' bs ht ht' s s'
    cases s
    cases s' with
    | nil => exact ⟨rfl, rfl⟩
    | cons => simp at ht
  | cons a as ih =>
    intro x t t' bs ht ht' s s'
    cases s with
    | cons ha s =>
      cases s' with
      | nil => simp at ht'
      | cons hb s' =>
        obtain ⟨e1, e2⟩ := ih ht ht' s s'
        exact ⟨by rw [e1], e2⟩

theorem Seg.nodup {h : Heap} {x t : Obj} {as : List Nat} (ht : isPair t = false)
    (s : Seg h x as t) : as.Nodup := by
  induction s with
  | nil => exact List.nodup_nil
  | @cons a as t ha s ih =>
    refine List.nodup_cons.2 ⟨?_, ih ht⟩
    intro hm
    obtain ⟨p, q, e⟩ := List.append_of_mem hm
    subst e
    obtain ⟨y, s1, s2⟩ := s.split
    have hy : y = .pair a := by cases s2; rfl
    subst hy
    have s' : Seg h (.pair a) (a :: (p ++ a :: q)) t := .cons ha s
    obtain ⟨e1, -⟩ := Seg.det_end ht ht s2 s'
    have := congrArg List.length e1
    simp at this
    omega

theorem Seg.setCdr {h : Heap} {c : Nat} {y : Obj} {x t : Obj} {as : List Nat}
    (s : Seg h x as t) (hc : c ∉ as) : Seg (setCdr h c y) x as t := by
  induction s with
  | nil => exact .nil _
  | @cons a as t ha s ih =>
    have : a ≠ c := fun e => hc (by simp [e])
    refine .cons ha ?_
    simp only [Lists.setCdr, this, if_false]
    exact ih (fun hm => hc (List.mem_cons_of_mem _ hm))

theorem Seg.setCar {h : Heap} {c : Nat} {y : Obj} {x t : Obj} {as : List Nat}
    (s : Seg h x as t) : Seg (setCar h c y) x as t := by
  induction s with
  | nil => exact .nil _
  | cons ha _ ih => exact .cons ha ih

theorem FreshThen.nil {h h' : Heap} (t : Obj) : FreshThen h h' t [] t :=
  ⟨[], .nil t, rfl, List.nodup_nil, by simp⟩

theorem FreshThen.cons {h h' : Heap} {r t x : Obj} {xs : List Obj} (le : h.next ≤ h'.next)
    (f : FreshThen h h' r xs t) :
    FreshThen h (cons h' x r).2 (cons h' x r).1 (x :: xs) t := by
  obtain ⟨as, s, m, nd, fr⟩ := f
  have e := Extends.cons h' x r
  refine ⟨h'.next :: as, .cons (Nat.lt_succ_self _) ?_, ?_, ?_, ?_⟩
  · simpa [Lists.cons] using s.extend e
  · rw [List.map_cons, map_car_extend e s.lt, m]
    simp [Lists.cons]
  · refine List.nodup_cons.2 ⟨fun hm => ?_, nd⟩
    exact Nat.lt_irrefl _ (s.lt _ hm)
  · intro a ha
    rcases List.mem_cons.1 ha with e | ha
    · exact e ▸ le
    · exact fr a ha

/-- Fresh cells in front of a list form a list. -/
theorem FreshThen.listIs {h h' : Heap} {r t : Obj} {xs ys : List Obj}
    (f : FreshThen h h' r xs t) (l : ListIs h' t ys) : ListIs h' r (xs ++ ys) := by
  obtain ⟨as, s, m, -, -⟩ := f
  obtain ⟨bs, s', m'⟩ := l
  exact ⟨as ++ bs, s.append s', by rw [List.map_append, m, m']⟩

theorem ListIs.extend {h h' : Heap} (e : Extends h h') {x : Obj} {xs : List Obj}
    (l : ListIs h x xs) : ListIs h' x xs := by
  obtain ⟨as, s, m⟩ := l
  exact ⟨as, s.extend e, by rw [map_car_extend e s.lt, m]⟩

theorem ListIs.null {h : Heap} : ListIs h .null [] := ⟨[], .nil _, rfl⟩

/-! ### The procedures -/

theorem makeList_spec (h : Heap) (k : Nat) (x : Obj) :
    Extends h (makeList h k x).2 ∧
      FreshThen h (makeList h k x).2 (makeList h k x).1 (List.replicate k x) .null := by
  induction k with
  | zero => exact ⟨Extends.refl h, FreshThen.nil _⟩
  | succ k ih =>
    obtain ⟨e, f⟩ := ih
    exact ⟨e.trans (Extends.cons _ _ _), by rw [List.replicate_succ]; exact f.cons e.next⟩

theorem iota_spec (add : Obj → Obj → Obj) (h : Heap) (k : Nat) (step : Obj) :
    ∀ start, Extends h (iota add h k start step).2 ∧
      FreshThen h (iota add h k start step).2 (iota add h k start step).1
        ((List.range k).map fun i => Nat.iterate (add · step) i start) .null := by
  induction k with
  | zero => exact fun _ => ⟨Extends.refl h, FreshThen.nil _⟩
  | succ k ih =>
    intro start
    obtain ⟨e, f⟩ := ih (add start step)
    refine ⟨e.trans (Extends.cons _ _ _), ?_⟩
    rw [List.range_succ_eq_map, List.map_cons, List.map_map]
    exact f.cons e.next

theorem append_spec {h : Heap} {x t y : Obj} {as : List Nat} (ht : isPair t = false)
    (s : Seg h x as t) : ∃ r h', append h x y = some (r, h') ∧ Extends h h' ∧
      FreshThen h h' r (as.map h.car) y := by
  induction s with
  | nil x => exact ⟨y, h, by rw [append, ht]; rfl, Extends.refl h, FreshThen.nil y⟩
  | @cons a as t ha s ih =>
    obtain ⟨r, h', e, ex, f⟩ := ih ht
    refine ⟨_, _, ?_, ex.trans (Extends.cons h' (h.car a) r), f.cons ex.next⟩
    rw [append]
    simp [e]

theorem listCopy_spec {h : Heap} {x t : Obj} {as : List Nat} (ht : isPair t = false)
    (s : Seg h x as t) : ∃ r h', listCopy h x = some (r, h') ∧ Extends h h' ∧
      FreshThen h h' r (as.map h.car) t := by
  induction s with
  | nil x => exact ⟨x, h, by rw [listCopy, ht]; rfl, Extends.refl h, FreshThen.nil x⟩
  | @cons a as t ha s ih =>
    obtain ⟨r, h', e, ex, f⟩ := ih ht
    refine ⟨_, _, ?_, ex.trans (Extends.cons h' (h.car a) r), f.cons ex.next⟩
    rw [listCopy]
    simp [e]

theorem take_spec {h : Heap} {x t : Obj} {as : List Nat} (s : Seg h x as t) :
    ∃ r h', take h x as.length = some (r, h') ∧ Extends h h' ∧
      FreshThen h h' r (as.map h.car) .null := by
  induction s with
  | nil x => exact ⟨.null, h, rfl, Extends.refl h, FreshThen.nil _⟩
  | @cons a as t ha s ih =>
    obtain ⟨r, h', e, ex, f⟩ := ih
    refine ⟨_, _, ?_, ex.trans (Extends.cons h' (h.car a) r), f.cons ex.next⟩
    simp [take, e]

theorem drop_spec {h : Heap} {x t : Obj} {as : List Nat} (s : Seg h x as t) :
    drop h x as.length = some t := by
  induction s with
  | nil x => rfl
  | cons ha s ih => simp [drop, ih]

/-- Walking two chains in step until the second one ends. -/
theorem takeRight2_spec {h : Heap} {y u : Obj} {bs : List Nat} (hu : isPair u = false)
    (q : Seg h y bs u) : ∀ {x t : Obj} {as : List Nat}, Seg h x as t → as.length = bs.length →
      takeRight2 h x y = some t := by
  induction q with
  | nil y =>
    intro x t as s e
    cases s with
    | nil => rw [takeRight2, hu]; rfl
    | cons => simp at e
  | @cons b bs u hb q ih =>
    intro x t as s e
    cases s with
    | nil => simp at e
    | cons ha s =>
      rw [takeRight2]
      simpa using ih hu s (by simpa using e)

theorem dropRight2_spec {h : Heap} {y u : Obj} {bs : List Nat} (hu : isPair u = false)
    (q : Seg h y bs u) : ∀ {x t : Obj} {as : List Nat}, Seg h x as t → as.length = bs.length →
      ∃ r h', dropRight2 h x y = some (r, h') ∧ Extends h h' ∧
        FreshThen h h' r (as.map h.car) .null := by
  induction q with
  | nil y =>
    intro x t as s e
    cases s with
    | nil => exact ⟨.null, h, by rw [dropRight2, hu]; rfl, Extends.refl h, FreshThen.nil _⟩
    | cons => simp at e
  | @cons b bs u hb q ih =>
    intro x t as s e
    cases s with
    | nil => simp at e
    | @cons a as _ ha s =>
      obtain ⟨r, h', e, ex, f⟩ := ih hu s (by simpa using e)
      refine ⟨_, _, ?_, ex.trans (Extends.cons h' (h.car a) r), f.cons ex.next⟩
      rw [dropRight2]
      simp [e]

theorem dropRightBang2_spec {h : Heap} {y u : Obj} {bs : List Nat} (hu : isPair u = false)
    (q : Seg h y bs u) : ∀ {x : Obj} {c : Nat} {as : List Nat}, Seg h x as (.pair c) →
      as.length = bs.length → dropRightBang2 h x y = some (setCdr h c .null) := by
  induction q with
  | nil y =>
    intro x c as s e
    cases s with
    | nil => rw [dropRightBang2, hu]; rfl
    | cons => simp at e
  | @cons b bs u hb q ih =>
    intro x c as s e
    cases s with
    | nil => simp at e
    | cons ha s =>
      rw [dropRightBang2]
      simpa using ih hu s (by simpa using e)

theorem length_spec {h : Heap} {x t : Obj} {as : List Nat} (ht : t = .null)
    (s : Seg h x as t) : length h x = some as.length := by
  induction s with
  | nil => rw [length, ht]; rfl
  | cons ha s ih =>
    rw [length]
    simp [ih ht]

theorem lastPair_spec {h : Heap} {x : Obj} {as : List Nat} {c : Nat}
    (hc : isPair (h.cdr c) = false) (s : Seg h x as (.pair c)) :
    lastPair h x = some (.pair c) := by
  generalize ht : Obj.pair c = t at s
  induction s with
  | nil => subst ht; rw [lastPair]; simp [hc]
  | @cons a as t ha s ih =>
    have hp : isPair (h.cdr a) = true := by
      generalize h.cdr a = d at s
      subst ht
      cases s with
      | nil => rfl
      | cons => rfl
    rw [lastPair]
    simp [hp, ih ht]

/-- A non-empty chain has a last pair. -/
theorem Seg.last {h : Heap} {x t : Obj} {as : List Nat} (s : Seg h x as t) (ne : as ≠ []) :
    ∃ bs c, as = bs ++ [c] ∧ Seg h x bs (.pair c) ∧ h.cdr c = t ∧ c < h.next := by
  obtain ⟨bs, c, e⟩ : ∃ bs c, as = bs ++ [c] :=
    ⟨as.dropLast, as.getLast ne, (List.dropLast_concat_getLast ne).symm⟩
  subst e
  obtain ⟨y, s1, s2⟩ := s.split
  cases s2 with
  | cons hc s2 =>
    generalize hd : h.cdr c = d at s2
    cases s2
    exact ⟨bs, c, rfl, s1, hd, hc⟩

theorem appendReverse_spec {h0 : Heap} {t : Obj} {as : List Nat} :
    ∀ {h : Heap} {x y u : Obj} {ys : List Obj}, t = .null → Seg h x as t →
      h0.next ≤ h.next → FreshThen h0 h y ys u →
      ∃ r h', appendReverse h x y = some (r, h') ∧ Extends h h' ∧
        FreshThen h0 h' r ((as.map h.car).reverse ++ ys) u := by
  induction as with
  | nil =>
    intro h x y u ys ht s le f
    cases s
    subst ht
    exact ⟨y, h, by rw [appendReverse]; rfl, Extends.refl h, by simpa using f⟩
  | cons a as ih =>
    intro h x y u ys ht s le f
    cases s with
    | cons ha s =>
      have e1 := Extends.cons h (h.car a) y
      obtain ⟨r, h', e, ex, g⟩ := ih ht (s.extend e1) (Nat.le_trans le e1.next) (f.cons le)
      refine ⟨r, h', ?_, e1.trans ex, ?_⟩
      · rw [appendReverse]
        simpa using e
      · rw [map_car_extend e1 s.lt] at g
        simpa using g

theorem reverse2_spec {h0 : Heap} {t : Obj} {as : List Nat} :
    ∀ {h : Heap} {x y u : Obj} {ys : List Obj}, isPair t = false → Seg h x as t →
      h0.next ≤ h.next → FreshThen h0 h y ys u →
      ∃ r h', reverse2 h x y = some (r, h') ∧ Extends h h' ∧
        FreshThen h0 h' r ((as.map h.car).reverse ++ ys) u := by
  induction as with
  | nil =>
    intro h x y u ys ht s le f
    cases s
    exact ⟨y, h, by rw [reverse2, ht]; rfl, Extends.refl h, by simpa using f⟩
  | cons a as ih =>
    intro h x y u ys ht s le f
    cases s with
    | cons ha s =>
      have e1 := Extends.cons h (h.car a) y
      obtain ⟨r, h', e, ex, g⟩ := ih ht (s.extend e1) (Nat.le_trans le e1.next) (f.cons le)
      refine ⟨r, h', ?_, e1.trans ex, ?_⟩
      · rw [reverse2]
        simpa using e
      · rw [map_car_extend e1 s.lt] at g
        simpa using g

end Meevax.Lists
