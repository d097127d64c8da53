import Verif.Lemmas.ListsFloyd

/-! C10-C13: list procedures. -/

namespace Meevax.Lists

/-! ### C10: classification -/

theorem Circular.not_ends {h : Heap} {x e : Obj} {as : List Nat} (c : Circular h x)
    (s : Seg h x as e) (he : isPair e = false) : False := by
  obtain ⟨bs, a, l, s'⟩ := c as.length
  obtain ⟨-, e'⟩ := s.det s' l.symm
  rw [e'] at he
  cases he

/-- **C10.** On every object of a finite heap, `list?`, `circular-list?` and `dotted-list?` all
return, each answers exactly its definition, and exactly one of the three answers is `#t`. -/
theorem C10_classification {h : Heap} {x : Obj} (cl : Closed h x) :
    ∃ p c d, isProperList h x = some p ∧ isCircularList h x = some c ∧ isDottedList h x = some d ∧
      (p = true ↔ Proper h x) ∧ (c = true ↔ Circular h x) ∧ (d = true ↔ Dotted h x) ∧
      [p, c, d].count true = 1 := by
  rcases floyd_total cl with ⟨hc, w⟩ | ⟨as, e, s, he, w⟩
  · refine ⟨false, true, false, w.proper, w.circular, w.dotted, ?_, by simp [hc], ?_, rfl⟩
    · exact ⟨fun h => (by cases h), fun ⟨as, s⟩ => (hc.not_ends s rfl).elim⟩
    · exact ⟨fun h => (by cases h), fun ⟨as, n, s⟩ => (hc.not_ends s rfl).elim⟩
  · have nc : ¬ Circular h x := fun hc => hc.not_ends s he
    cases e with
    | pair a => cases he
    | null =>
      refine ⟨true, false, false, w.proper, w.circular, w.dotted, ?_, by simp [nc], ?_, rfl⟩
      · exact ⟨fun _ => ⟨as, s⟩, fun _ => rfl⟩
      · refine ⟨fun h => (by cases h), fun ⟨bs, n, s'⟩ => ?_⟩
        cases (s.det_end rfl rfl s').2
    | atom n =>
      refine ⟨false, false, true, w.proper, w.circular, w.dotted, ?_, by simp [nc], ?_, rfl⟩
      · refine ⟨fun h => (by cases h), fun ⟨bs, s'⟩ => ?_⟩
        cases (s.det_end rfl rfl s').2
      · exact ⟨fun _ => ⟨as, n, s⟩, fun _ => rfl⟩

/-- A heap with a tail of one pair leading into a cycle of two: `#0=(0 . #1=(1 2 . #1#))`. -/
def rho : Heap where
  car := fun a => .atom a
  cdr := fun a => if a = 0 then .pair 1 else if a = 1 then .pair 2 else .pair 1
  next := 3

/-- The hypotheses of C10 are met by a heap with a tail and a cycle. -/
example : Closed rho (.pair 0) := by
  refine ⟨fun a e => ?_, fun a b ha e => ?_⟩
  · cases e; decide
  · simp only [rho] at e
    split at e
    · cases e; decide
    · split at e <;> cases e <;> decide

/-- A heap holding the list `(10 11 12)` at 0 and `(13 14)` at 3. -/
def sample : Heap where
  car := fun a => .atom (10 + a)
  cdr := fun a => if a = 2 ∨ a = 4 then .null else .pair (a + 1)
  next := 5

theorem sample_seg : Seg sample (.pair 0) [0, 1, 2] .null :=
  .cons (by decide) (.cons (by decide) (.cons (by decide) (.nil _)))

theorem sample_seg' : Seg sample (.pair 3) [3, 4] .null :=
  .cons (by decide) (.cons (by decide) (.nil _))

example : ListIs sample (.pair 0) [.atom 10, .atom 11, .atom 12] := ⟨_, sample_seg, rfl⟩
example : Closed sample (.pair 0) := by
  refine ⟨fun a e => ?_, fun a b ha e => ?_⟩
  · cases e; decide
  · simp only [sample] at e ha ⊢
    split at e
    · cases e
    · cases e; omega

/-! ### C11: procedures that change nothing -/

/-- **C11, `append` of two arguments**: the pairs of the first are copied, the second is shared, no
existing pair changes. The first argument may be dotted (its final non-pair is dropped). -/
theorem C11_append2 {h : Heap} {x t y : Obj} {as : List Nat} (ht : isPair t = false)
    (s : Seg h x as t) : ∃ r h', append h x y = some (r, h') ∧ Extends h h' ∧
      FreshThen h h' r (as.map h.car) y := append_spec ht s

theorem appendFold_spec {h0 : Heap} {t : Obj} (last : Obj) (cs : List Nat) :
    ∀ {h : Heap} {acc args : Obj} {ws : List Obj} {c : Nat} {xss : List (List Obj)},
      t = .null → Extends h0 h → ListIs h acc ws → Seg h args (cs ++ [c]) t → h.car c = last →
      List.Forall₂ (ListIs h) (cs.map h.car) xss →
      ∃ r h', appendFold h acc args = some (r, h') ∧ Extends h0 h' ∧
        FreshThen h0 h' r (ws ++ xss.flatten) last := by
  induction cs with
  | nil =>
    intro h acc args ws c xss ht ex la s hl fa
    cases fa
    cases s with
    | cons hc s =>
      generalize hd : h.cdr c = d at s
      cases s
      obtain ⟨as, sa, ma⟩ := la
      obtain ⟨r, h', e, ex', bs, sb, mb, nb, fb⟩ := append_spec (y := last) (t := .null) rfl sa
      refine ⟨r, h', ?_, ex.trans ex', bs, sb, by simpa [ma] using mb, nb,
        fun a ha => Nat.le_trans ex.next (fb a ha)⟩
      rw [appendFold]
      simp only [isNull_pair, car_pair, hl]
      have : h'.cdr c = .null := by rw [ex'.cdr _ hc, hd, ht]
      simp only [Bool.false_eq_true, if_false, Option.bind_eq_bind, Option.bind_some, e, cdr_pair,
        this]
      rw [appendFold]; rfl
  | cons a cs ih =>
    intro h acc args ws c xss ht ex la s hl fa
    cases fa with
    | @cons _ xs _ xss hx fa =>
    cases s with
    | cons ha s =>
      obtain ⟨as, sa, ma⟩ := la
      obtain ⟨acc', h1, e, ex', fr⟩ := append_spec (y := h.car a) (t := .null) rfl sa
      have lt : ∀ b ∈ cs ++ [c], b < h.next := s.lt
      have mc : cs.map h1.car = cs.map h.car :=
        map_car_extend ex' fun b hb => lt b (by simp [hb])
      obtain ⟨r, h', e2, ex2, fr2⟩ := ih (h := h1) (acc := acc') (ws := ws ++ xs) (c := c)
        (xss := xss) (args := h.cdr a) ht (ex.trans ex')
        (by rw [← ma]; exact fr.listIs (hx.extend ex')) (s.extend ex')
        (by rw [ex'.car c (lt c (by simp)), hl])
        (by rw [mc]; exact fa.imp fun _ _ l => l.extend ex')
      refine ⟨r, h', ?_, ex2, by simpa using fr2⟩
      rw [appendFold]
      simp [e, ex'.cdr a ha, e2]

/-- **C11, `append` (and `concatenate`) of any positive number of arguments**: every argument but
the last is a proper list and is copied, the last is shared, no existing pair changes. -/
theorem C11_append {h : Heap} {args last : Obj} {os : List Obj} {xss : List (List Obj)}
    (ha : ListIs h args (os ++ [last])) (hx : List.Forall₂ (ListIs h) os xss) :
    ∃ r h', appendStar h args = some (r, h') ∧ Extends h h' ∧
      FreshThen h h' r xss.flatten last := by
  obtain ⟨as, s, m⟩ := ha
  have ne : as ≠ [] := by rintro rfl; simp at m
  obtain ⟨cs, c, e⟩ : ∃ cs c, as = cs ++ [c] :=
    ⟨as.dropLast, as.getLast ne, (List.dropLast_concat_getLast ne).symm⟩
  subst e
  rw [List.map_append, List.map_singleton] at m
  obtain ⟨m1, m2⟩ := List.append_inj' m rfl
  obtain ⟨r, h', e, ex, f⟩ := appendFold_spec (h0 := h) (h := h) (acc := .null) (ws := []) (c := c)
    (args := args) (xss := xss) last cs rfl (Extends.refl h) ListIs.null s (by simpa using m2)
    (by rw [m1]; exact hx)
  exact ⟨r, h', e, ex, by simpa using f⟩

/-- `append` without arguments is the empty list. -/
theorem C11_append_none (h : Heap) : appendStar h .null = some (.null, h) := by
  rw [appendStar, appendFold]; rfl

/-- When every argument is a proper list, `append` is their concatenation. -/
theorem C11_append_lists {h : Heap} {args last : Obj} {os : List Obj} {xss : List (List Obj)}
    {ys : List Obj} (ha : ListIs h args (os ++ [last])) (hx : List.Forall₂ (ListIs h) os xss)
    (hy : ListIs h last ys) : ∃ r h', appendStar h args = some (r, h') ∧ Extends h h' ∧
      ListIs h' r (xss.flatten ++ ys) := by
  obtain ⟨r, h', e, ex, f⟩ := C11_append ha hx
  exact ⟨r, h', e, ex, f.listIs (hy.extend ex)⟩

/-- **C11, `list-copy`**: fresh pairs, same elements, same final object; no existing pair
changes. -/
theorem C11_list_copy {h : Heap} {x t : Obj} {as : List Nat} (ht : isPair t = false)
    (s : Seg h x as t) : ∃ r h', listCopy h x = some (r, h') ∧ Extends h h' ∧
      FreshThen h h' r (as.map h.car) t := listCopy_spec ht s

/-- **C11, `reverse`**. -/
theorem C11_reverse {h : Heap} {x t : Obj} {as : List Nat} (ht : isPair t = false)
    (s : Seg h x as t) : ∃ r h', reverse h x = some (r, h') ∧ Extends h h' ∧
      FreshThen h h' r (as.map h.car).reverse .null := by
  obtain ⟨r, h', e, ex, f⟩ := reverse2_spec (h0 := h) ht s (Nat.le_refl _) (FreshThen.nil .null)
  exact ⟨r, h', e, ex, by simpa using f⟩

/-- **C11, `append-reverse`**: the reversed elements of the first list in fresh pairs, then the
second argument itself. -/
theorem C11_append_reverse {h : Heap} {x y : Obj} {as : List Nat}
    (s : Seg h x as .null) : ∃ r h', appendReverse h x y = some (r, h') ∧ Extends h h' ∧
      FreshThen h h' r (as.map h.car).reverse y := by
  obtain ⟨r, h', e, ex, f⟩ := appendReverse_spec (h0 := h) rfl s (Nat.le_refl _) (FreshThen.nil y)
  exact ⟨r, h', e, ex, by simpa using f⟩

/-- **C11, `take`**: the first `k` elements in fresh pairs, whatever follows them. -/
theorem C11_take {h : Heap} {x t : Obj} {as : List Nat} (s : Seg h x as t) :
    ∃ r h', take h x as.length = some (r, h') ∧ Extends h h' ∧
      FreshThen h h' r (as.map h.car) .null := take_spec s

/-- **C11, `drop` and `list-tail`**: the shared remainder after `k` pairs, no allocation. -/
theorem C11_drop {h : Heap} {x t : Obj} {as : List Nat} (s : Seg h x as t) :
    drop h x as.length = some t := drop_spec s

/-- **C11, `list-ref`**: the element at index `k`. -/
theorem C11_list_ref {h : Heap} {x t : Obj} {as : List Nat} {k : Nat} (s : Seg h x as t)
    (hk : k < as.length) : listRef h x k = some ((as.map h.car)[k]'(by simpa using hk)) := by
  obtain ⟨y, s1, s2⟩ := Seg.split (as := as.take k) (bs := as.drop k) (by simpa using s)
  have e1 := drop_spec s1
  rw [List.length_take, Nat.min_eq_left (Nat.le_of_lt hk)] at e1
  rw [List.drop_eq_getElem_cons hk] at s2
  cases s2
  simp [listRef, e1]

/-- **C11, `take-right`**: the shared last `k` pairs and what follows them. -/
theorem C11_take_right {h : Heap} {x y t : Obj} {as bs : List Nat} (ht : isPair t = false)
    (s1 : Seg h x as y) (s2 : Seg h y bs t) : takeRight h x bs.length = some y := by
  have s := s1.append s2
  obtain ⟨z, q1, q2⟩ := Seg.split (as := (as ++ bs).take bs.length)
    (bs := (as ++ bs).drop bs.length) (by simpa using s)
  have e1 := drop_spec q1
  rw [List.length_take, Nat.min_eq_left (by simp)] at e1
  have e2 := takeRight2_spec ht q2 s1 (by simp)
  simp [takeRight, e1, e2]

/-- **C11, `drop-right`**: all but the last `k` elements, in fresh pairs. -/
theorem C11_drop_right {h : Heap} {x y t : Obj} {as bs : List Nat} (ht : isPair t = false)
    (s1 : Seg h x as y) (s2 : Seg h y bs t) :
    ∃ r h', dropRight h x bs.length = some (r, h') ∧ Extends h h' ∧
      FreshThen h h' r (as.map h.car) .null := by
  have s := s1.append s2
  obtain ⟨z, q1, q2⟩ := Seg.split (as := (as ++ bs).take bs.length)
    (bs := (as ++ bs).drop bs.length) (by simpa using s)
  have e1 := drop_spec q1
  rw [List.length_take, Nat.min_eq_left (by simp)] at e1
  obtain ⟨r, h', e, ex, f⟩ := dropRight2_spec ht q2 s1 (by simp)
  exact ⟨r, h', by simp [dropRight, e1, e], ex, f⟩

/-- **C11, `length`**: the number of pairs of a proper list. -/
theorem C11_length {h : Heap} {x : Obj} {as : List Nat} (s : Seg h x as .null) :
    length h x = some as.length := length_spec rfl s

/-- **C11, `length+`**: the length of a proper list, `#f` for a circular one. -/
theorem C11_length_plus {h : Heap} {x : Obj} (cl : Closed h x) :
    (∀ as, Seg h x as .null → lengthPlus h x = some (some as.length)) ∧
      (Circular h x → lengthPlus h x = some none) := by
  obtain ⟨p, c, d, -, hc, -, -, ic, -, -⟩ := C10_classification cl
  refine ⟨fun as s => ?_, fun hh => ?_⟩
  · have : c = false := by
      cases hcc : c with
      | false => rfl
      | true => exact ((ic.1 hcc).not_ends s rfl).elim
    simp [lengthPlus, hc, this, length_spec rfl s]
  · simp [lengthPlus, hc, ic.2 hh]

/-- **C11, `make-list`**. -/
theorem C11_make_list (h : Heap) (k : Nat) (x : Obj) :
    Extends h (makeList h k x).2 ∧
      FreshThen h (makeList h k x).2 (makeList h k x).1 (List.replicate k x) .null :=
  makeList_spec h k x

/-- **C11, `iota`**: element `i` is the start with the step added `i` times. -/
theorem C11_iota (add : Obj → Obj → Obj) (h : Heap) (k : Nat) (start step : Obj) :
    Extends h (iota add h k start step).2 ∧
      FreshThen h (iota add h k start step).2 (iota add h k start step).1
        ((List.range k).map fun i => Nat.iterate (add · step) i start) .null :=
  iota_spec add h k step start

/-- **C11, `last-pair` and `last`**: the final pair of a non-empty list, and its car. -/
theorem C11_last {h : Heap} {x t : Obj} {as : List Nat} {c : Nat} (ht : isPair t = false)
    (s : Seg h x (as ++ [c]) t) :
    lastPair h x = some (.pair c) ∧ last h x = some (h.car c) := by
  obtain ⟨bs, c', e, s1, hc, -⟩ := s.last (by simp)
  obtain ⟨rfl, e2⟩ := List.append_inj' e rfl
  cases e2
  have := lastPair_spec (by rw [hc]; exact ht) s1
  exact ⟨this, by simp [last, this]⟩

/-- **C11, `circular-list`**: a fresh cycle through the given elements, in order; no existing pair
changes. -/
theorem C11_circular_list {h : Heap} {args : Obj} {as : List Nat} (s : Seg h args as .null)
    (ne : as ≠ []) : ∃ r h' bs, circularList h args = some (r, h') ∧ Extends h h' ∧
      Seg h' r bs r ∧ bs ≠ [] ∧ bs.map h'.car = as.map h.car ∧ (∀ b ∈ bs, h.next ≤ b) := by
  obtain ⟨r, h1, e, ex, bs, sb, mb, nd, fr⟩ := listCopy_spec rfl s
  have nb : bs ≠ [] := by
    rintro rfl
    simp at mb
    exact ne mb
  obtain ⟨cs, c, eb, s1, hc, hlt⟩ := sb.last nb
  have hl := lastPair_spec (by rw [hc]; rfl) s1
  subst eb
  have ncs : c ∉ cs := by
    rw [List.nodup_append] at nd
    intro hm
    exact nd.2.2 c hm c (by simp) rfl
  refine ⟨r, setCdr h1 c r, cs ++ [c], ?_, ?_, ?_, nb, mb, fr⟩
  · simp [circularList, circulate, e, hl]
  · refine ⟨ex.next, ex.car, fun a ha => ?_⟩
    have : a ≠ c := fun hh => by
      have := fr c (by simp)
      omega
    simp [setCdr, this, ex.cdr a ha]
  · refine (s1.setCdr ncs).append (.cons hlt ?_)
    simpa [setCdr] using Seg.nil r

/-- A segment that returns to its start never leaves the pairs. -/
theorem Seg.circular {h : Heap} {r : Obj} {bs : List Nat} (s : Seg h r bs r) (ne : bs ≠ []) :
    Circular h r := by
  have rep : ∀ n, ∃ cs, n ≤ cs.length ∧ Seg h r cs r := by
    intro n
    induction n with
    | zero => exact ⟨[], Nat.le_refl _, .nil _⟩
    | succ n ih =>
      obtain ⟨cs, l, sc⟩ := ih
      have := List.length_pos_of_ne_nil ne
      exact ⟨cs ++ bs, by simp; omega, sc.append s⟩
  intro n
  obtain ⟨cs, l, sc⟩ := rep (n + 1)
  obtain ⟨y, s1, s2⟩ := Seg.split (as := cs.take n) (bs := cs.drop n) (by simpa using sc)
  have : ∃ a, y = .pair a := by
    rw [List.drop_eq_getElem_cons (show n < cs.length by omega)] at s2
    cases s2
    exact ⟨_, rfl⟩
  obtain ⟨a, rfl⟩ := this
  exact ⟨cs.take n, a, by simp; omega, s1⟩

theorem alistCopy_spec {h0 : Heap} {as : List Nat} :
    ∀ {h : Heap} {x t : Obj} {es : List Nat}, isPair t = false → Extends h0 h → Seg h x as t →
      as.map h.car = es.map Obj.pair → (∀ e ∈ es, e < h.next) →
      ∃ (r : Obj) (h' : Heap) (bs es' : List Nat), alistCopy h x = some (r, h') ∧ Extends h h' ∧
        Seg h' r bs .null ∧ bs.map h'.car = es'.map Obj.pair ∧
        es'.map (fun e => (h'.car e, h'.cdr e)) = es.map (fun e => (h.car e, h.cdr e)) ∧
        (∀ b ∈ bs, h0.next ≤ b) ∧ (∀ e ∈ es', h0.next ≤ e ∧ e < h'.next) := by
  induction as with
  | nil =>
    intro h x t es ht ex s m _
    cases s
    have : es = [] := by simpa using m.symm
    subst this
    exact ⟨.null, h, [], [], by rw [alistCopy, ht]; rfl, Extends.refl h, .nil _, rfl, rfl,
      by simp, by simp⟩
  | cons a as ih =>
    intro h x t es ht ex s m lt
    cases s with
    | cons ha s =>
      cases es with
      | nil => simp at m
      | cons e es =>
        simp only [List.map_cons, List.cons.injEq] at m
        obtain ⟨me, m⟩ := m
        have e1 := Extends.cons h (h.car e) (h.cdr e)
        obtain ⟨r, h', bs, es', er, exr, sr, mr, pr, fb, fe⟩ := ih ht (ex.trans e1) (s.extend e1)
          (by rw [map_car_extend e1 s.lt]; exact m)
          (fun b hb => Nat.lt_of_lt_of_le (lt b (by simp [hb])) e1.next)
        have e2 := Extends.cons h' (.pair h.next) r
        have lt1 : h.next < h'.next := Nat.lt_of_lt_of_le (Nat.lt_succ_self _) exr.next
        refine ⟨.pair h'.next, _, h'.next :: bs, h.next :: es', ?_, e1.trans (exr.trans e2), ?_, ?_, ?_, ?_, ?_⟩
        · rw [alistCopy]
          simp only [isPair_pair, if_true, car_pair, cdr_pair, me, Option.bind_eq_bind,
            Option.bind_some]
          show (alistCopy (cons h (h.car e) (h.cdr e)).2 (h.cdr a)).bind _ = _
          rw [er]
          rfl
        · refine .cons (Nat.lt_succ_self _) ?_
          simpa [cons] using sr.extend e2
        · rw [List.map_cons, map_car_extend e2 sr.lt, mr]
          simp [cons]
        · have q1 : (cons h' (.pair h.next) r).2.car h.next = h.car e := by
            rw [e2.car _ lt1, exr.car _ (Nat.lt_succ_self _)]
            simp [cons]
          have q2 : (cons h' (.pair h.next) r).2.cdr h.next = h.cdr e := by
            rw [e2.cdr _ lt1, exr.cdr _ (Nat.lt_succ_self _)]
            simp [cons]
          rw [List.map_cons, List.map_cons, q1, q2]
          congr 1
          refine Eq.trans (List.map_congr_left fun b hb => ?_) (pr.trans
            (List.map_congr_left fun b hb => ?_))
          · rw [e2.car _ (fe b hb).2, e2.cdr _ (fe b hb).2]
          · rw [e1.car _ (lt b (by simp [hb])), e1.cdr _ (lt b (by simp [hb]))]
        · intro b hb
          rcases List.mem_cons.1 hb with eq | hb
          · rw [eq]; exact Nat.le_trans ex.next (e1.trans exr).next
          · exact fb b hb
        · intro b hb
          rcases List.mem_cons.1 hb with eq | hb
          · rw [eq]; exact ⟨ex.next, Nat.lt_of_lt_of_le lt1 e2.next⟩
          · exact ⟨(fe b hb).1, Nat.lt_of_lt_of_le (fe b hb).2 e2.next⟩

/-- **C11, `alist-copy`**: a fresh spine of fresh entries with the same keys and values; no existing
pair changes. -/
theorem C11_alist_copy {h : Heap} {x t : Obj} {as es : List Nat} (ht : isPair t = false)
    (s : Seg h x as t) (m : as.map h.car = es.map Obj.pair) (lt : ∀ e ∈ es, e < h.next) :
    ∃ (r : Obj) (h' : Heap) (bs es' : List Nat), alistCopy h x = some (r, h') ∧ Extends h h' ∧
      Seg h' r bs .null ∧ bs.map h'.car = es'.map Obj.pair ∧
      es'.map (fun e => (h'.car e, h'.cdr e)) = es.map (fun e => (h.car e, h.cdr e)) ∧
      (∀ b ∈ bs, h.next ≤ b) ∧ (∀ e ∈ es', h.next ≤ e) := by
  obtain ⟨r, h', bs, es', q1, q2, q3, q4, q5, q6, q7⟩ :=
    alistCopy_spec (h0 := h) ht (Extends.refl h) s m lt
  exact ⟨r, h', bs, es', q1, q2, q3, q4, q5, q6, fun e he => (q7 e he).1⟩

/-- The hypotheses of the C11 theorems are met: `(append '(10 11 12) '(13 14))` with the argument
list itself in the heap. -/
example : ∃ h args, ListIs h args [.pair 0, .pair 3] ∧
    ListIs h (.pair 0) [.atom 10, .atom 11, .atom 12] ∧ ListIs h (.pair 3) [.atom 13, .atom 14] := by
  let h1 := (cons sample (.pair 3) .null).2
  let h2 := (cons h1 (.pair 0) (.pair 5)).2
  refine ⟨h2, .pair 6, ⟨[6, 5], ?_, rfl⟩, ⟨[0, 1, 2], ?_, rfl⟩, ⟨[3, 4], ?_, rfl⟩⟩
  · exact .cons (by decide) (.cons (by decide) (.nil _))
  · exact .cons (by decide) (.cons (by decide) (.cons (by decide) (.nil _)))
  · exact .cons (by decide) (.cons (by decide) (.nil _))

/-! ### C12: procedures that relink their arguments -/

theorem OnlyCdrs.setCdr {h : Heap} (c : Nat) (y : Obj) : OnlyCdrs h (setCdr h c y) [c] := by
  refine ⟨Nat.le_refl _, fun _ _ => rfl, fun a _ hn => ?_⟩
  have : a ≠ c := fun e => hn (by simp [e])
  simp [Lists.setCdr, this]

theorem OnlyCdrs.then_extends {h h' h'' : Heap} {as : List Nat} (p : OnlyCdrs h h' as)
    (q : Extends h' h'') : OnlyCdrs h h'' as :=
  ⟨Nat.le_trans p.next q.next,
   fun a ha => (q.car a (Nat.lt_of_lt_of_le ha p.next)).trans (p.car a ha),
   fun a ha hn => (q.cdr a (Nat.lt_of_lt_of_le ha p.next)).trans (p.cdr a ha hn)⟩

theorem Seg.notNull {h : Heap} {x t : Obj} {as : List Nat} (s : Seg h x as t) (ne : as ≠ []) :
    isNull x = false := by
  cases s with
  | nil => exact (ne rfl).elim
  | cons => rfl

/-- **C12, `append!` of two arguments**: the last pair of the first argument is made to point at the
second; nothing else changes. -/
theorem C12_append2 {h : Heap} {x t y : Obj} {as : List Nat} {c : Nat} (ht : isPair t = false)
    (hy : isNull y = false) (s : Seg h x (as ++ [c]) t) :
    ∃ h', appendBang h x y = some (x, h') ∧ OnlyCdrs h h' [c] ∧ Seg h' x (as ++ [c]) y := by
  obtain ⟨hl, -⟩ := C11_last ht s
  have nd := s.nodup ht
  obtain ⟨z, s1, s2⟩ := s.split
  have hx : isNull x = false := by
    cases as with
    | nil => cases s1; cases s2; rfl
    | cons => cases s1; rfl
  refine ⟨setCdr h c y, by simp [appendBang, hx, hy, hl], OnlyCdrs.setCdr c y, ?_⟩
  have ncs : c ∉ as := by
    rw [List.nodup_append] at nd
    exact fun hm => nd.2.2 c hm c (by simp) rfl
  cases s2 with
  | cons hc s2 =>
    refine (s1.setCdr ncs).append (.cons hc ?_)
    simpa [setCdr] using Seg.nil y

/-- **C12, `append!` of two arguments, as sequences**: for lists that share no pair the result is
the concatenation, and only the last pair of the first list is relinked. -/
theorem C12_append2_lists {h : Heap} {x y : Obj} {as bs : List Nat} (sx : Seg h x as .null)
    (sy : Seg h y bs .null) (dis : ∀ a ∈ as, a ∉ bs) :
    ∃ r h', appendBang h x y = some (r, h') ∧ OnlyCdrs h h' as ∧ Seg h' r (as ++ bs) .null ∧
      (as ++ bs).map h'.car = as.map h.car ++ bs.map h.car := by
  by_cases ne : as = []
  · subst ne
    cases sx
    exact ⟨y, h, rfl, ⟨Nat.le_refl _, fun _ _ => rfl, fun _ _ _ => rfl⟩, by simpa using sy, by simp⟩
  by_cases nb : bs = []
  · subst nb
    cases sy
    refine ⟨x, h, ?_, ⟨Nat.le_refl _, fun _ _ => rfl, fun _ _ _ => rfl⟩, by simpa using sx, by simp⟩
    have hx : isNull x = false := by
      cases sx with
      | nil => exact (ne rfl).elim
      | cons => rfl
    simp [appendBang, hx]
  · obtain ⟨cs, c, e, s1, hc, hlt⟩ := sx.last ne
    subst e
    have hy : isNull y = false := by
      cases sy with
      | nil => exact (nb rfl).elim
      | cons => rfl
    obtain ⟨h', e, oc, s'⟩ := C12_append2 rfl hy sx
    have eq : h' = setCdr h c y := by
      have := (C11_last rfl sx).1
      have hx : isNull x = false := sx.notNull (by simp)
      simp [appendBang, hx, hy, this] at e
      exact e.symm
    refine ⟨x, h', e, ⟨oc.next, oc.car, fun a ha hn => oc.cdr a ha (fun hm => hn ?_)⟩, ?_, ?_⟩
    · rw [List.mem_singleton.1 hm]; simp
    · refine s'.append ?_
      rw [eq]
      exact sy.setCdr (dis c (by simp))
    · rw [eq, List.map_append]
      rfl

/-- **C12, `reverse!`**: the reversed elements, ending in the original first pair; at most the cdr
of that pair changes. -/
theorem C12_reverse {h : Heap} {x : Obj} {as : List Nat} (s : Seg h x as .null) :
    ∃ r h', reverseBang h x = some (r, h') ∧ OnlyCdrs h h' (as.take 1) ∧
      ListIs h' r (as.map h.car).reverse := by
  cases s with
  | nil => exact ⟨.null, h, rfl, ⟨Nat.le_refl _, fun _ _ => rfl, fun _ _ _ => rfl⟩, ListIs.null⟩
  | @cons a as _ ha s =>
    have nd := (Seg.cons ha s).nodup rfl
    have na : a ∉ as := (List.nodup_cons.1 nd).1
    obtain ⟨r, h', e, ex, f⟩ := reverse2_spec (h0 := setCdr h a .null) (y := .pair a) rfl
      (s.setCdr (y := .null) na) (Nat.le_refl _) (FreshThen.nil (.pair a))
    refine ⟨r, h', by simpa [reverseBang, reverseBang2] using e,
      (OnlyCdrs.setCdr a .null).then_extends ex, ?_⟩
    rw [List.map_cons, List.reverse_cons]
    have l1 : ListIs (setCdr h a .null) (.pair a) [h.car a] :=
      ⟨[a], .cons ha (by simpa [setCdr] using Seg.nil .null), rfl⟩
    have := f.listIs (l1.extend ex)
    rw [List.append_nil] at this
    exact this

/-- **C12, `append-reverse!`**: the reversed elements of the first list followed by those of the
second, provided the second list does not contain the first pair of the first; at most the cdr of
that pair changes. -/
theorem C12_append_reverse {h : Heap} {x y : Obj} {as bs : List Nat} (s : Seg h x as .null)
    (sy : Seg h y bs .null) (dis : ∀ a ∈ as, a ∉ bs) :
    ∃ r h', appendReverseBang h x y = some (r, h') ∧ OnlyCdrs h h' (as.take 1) ∧
      ListIs h' r ((as.map h.car).reverse ++ bs.map h.car) := by
  cases s with
  | nil =>
    exact ⟨y, h, rfl, ⟨Nat.le_refl _, fun _ _ => rfl, fun _ _ _ => rfl⟩, ⟨bs, sy, rfl⟩⟩
  | @cons a as _ ha s =>
    have nd := (Seg.cons ha s).nodup rfl
    have na : a ∉ as := (List.nodup_cons.1 nd).1
    obtain ⟨r, h', e, ex, f⟩ := appendReverse_spec (h0 := setCdr h a y) (y := .pair a) rfl
      (s.setCdr (y := y) na) (Nat.le_refl _) (FreshThen.nil (.pair a))
    refine ⟨r, h', by simpa [appendReverseBang] using e,
      (OnlyCdrs.setCdr a y).then_extends ex, ?_⟩
    have l1 : ListIs (setCdr h a y) (.pair a) (h.car a :: bs.map h.car) :=
      ⟨a :: bs, .cons ha (by simpa [setCdr] using sy.setCdr (y := y) (dis a (by simp))), rfl⟩
    have := f.listIs (l1.extend ex)
    rw [List.append_nil] at this
    rw [List.map_cons, List.reverse_cons, List.append_assoc]
    exact this

/-- **C12, `take!`**: the first `k` pairs themselves, cut after the `k`-th; only the cdr of the
`k`-th pair changes. -/
theorem C12_take {h : Heap} {x t : Obj} {as : List Nat} (nd : as.Nodup) (s : Seg h x as t) :
    ∃ r h', takeBang h x as.length = some (r, h') ∧ OnlyCdrs h h' (as.drop (as.length - 1)) ∧
      Seg h' r as .null ∧ as.map h'.car = as.map h.car := by
  by_cases ne : as = []
  · subst ne
    exact ⟨.null, h, rfl, ⟨Nat.le_refl _, fun _ _ => rfl, fun _ _ _ => rfl⟩, .nil _, rfl⟩
  · obtain ⟨cs, c, e, s1, hc, hlt⟩ := s.last ne
    subst e
    have hd := drop_spec s1
    have ncs : c ∉ cs := by
      rw [List.nodup_append] at nd
      exact fun hm => nd.2.2 c hm c (by simp) rfl
    refine ⟨x, setCdr h c .null, ?_, ?_, ?_, rfl⟩
    · simp [takeBang, hd]
    · simpa using OnlyCdrs.setCdr (h := h) c .null
    · exact (s1.setCdr ncs).append (.cons hlt (by simpa [setCdr] using Seg.nil .null))

/-- **C12, `drop-right!`**: the pairs of the list themselves, cut before the last `k`; only the cdr
of the last kept pair changes. -/
theorem C12_drop_right {h : Heap} {x y t : Obj} {as bs : List Nat} (ht : isPair t = false)
    (s1 : Seg h x as y) (s2 : Seg h y bs t) :
    ∃ r h', dropRightBang h x bs.length = some (r, h') ∧
      OnlyCdrs h h' (as.drop (as.length - 1)) ∧ Seg h' r as .null ∧
      as.map h'.car = as.map h.car := by
  have s := s1.append s2
  obtain ⟨z, q1, q2⟩ := Seg.split (as := (as ++ bs).take bs.length)
    (bs := (as ++ bs).drop bs.length) (by simpa using s)
  have e1 := drop_spec q1
  rw [List.length_take, Nat.min_eq_left (by simp)] at e1
  by_cases ne : as = []
  · subst ne
    have : z = t := by
      simp at q2
      cases q2
      rfl
    subst this
    exact ⟨.null, h, by simp [dropRightBang, e1, ht],
      ⟨Nat.le_refl _, fun _ _ => rfl, fun _ _ _ => rfl⟩, .nil _, rfl⟩
  · obtain ⟨cs, c, e, sc, hc, hlt⟩ := s1.last ne
    subst e
    have nd := s.nodup ht
    have ncs : c ∉ cs := by
      rw [List.nodup_append, List.nodup_append] at nd
      exact fun hm => nd.1.2.2 c hm c (by simp) rfl
    have hlen : ((cs ++ [c] ++ bs).drop bs.length).length = cs.length + 1 := by
      rw [List.length_drop]; simp; omega
    generalize (cs ++ [c] ++ bs).drop bs.length = ws at q2 hlen
    cases q2 with
    | nil => simp at hlen
    | @cons w ws _ hw q2 =>
      have e2 := dropRightBang2_spec ht q2 sc (by simpa using hlen.symm)
      refine ⟨x, setCdr h c .null, ?_, ?_, ?_, rfl⟩
      · simp [dropRightBang, e1, e2]
      · simpa using OnlyCdrs.setCdr (h := h) c .null
      · exact (sc.setCdr ncs).append (.cons hlt (by simpa [setCdr] using Seg.nil .null))

theorem Seg.congr {h h' : Heap} {x t : Obj} {as : List Nat} (s : Seg h x as t)
    (le : h.next ≤ h'.next) (keep : ∀ a ∈ as, h'.cdr a = h.cdr a) : Seg h' x as t := by
  induction s with
  | nil => exact .nil _
  | @cons a as t ha s ih =>
    refine .cons (Nat.lt_of_lt_of_le ha le) ?_
    rw [keep a (by simp)]
    exact ih fun b hb => keep b (by simp [hb])

/-- The effect allowed to `append!`: cdrs of the pairs in `as` and cars of the pairs in `ks`. -/
structure Relinks (h h' : Heap) (as ks : List Nat) : Prop where
  next : h'.next = h.next
  car : ∀ a, a ∉ ks → h'.car a = h.car a
  cdr : ∀ a, a ∉ as → h'.cdr a = h.cdr a

theorem appendBangArgs_spec (ks : List Nat) : ∀ {h : Heap} {cell : Option Nat} {x args : Obj}
    {cs : List Nat} {css : List (List Nat)}, Seg h args ks .null → Seg h x cs .null →
    List.Forall₂ (fun k cs => Seg h (h.car k) cs .null) ks css → (cs ++ css.flatten).Nodup →
    ∃ r h', appendBangArgs h cell x args = some (r, h') ∧
      Relinks h h' (cs ++ css.flatten) (cell.toList ++ ks) ∧ Seg h' r (cs ++ css.flatten) .null := by
  induction ks with
  | nil =>
    intro h cell x args cs css s sx fa nd
    cases s
    cases fa
    refine ⟨x, h, by rw [appendBangArgs]; rfl, ⟨rfl, fun _ _ => rfl, fun _ _ => rfl⟩, ?_⟩
    simpa using sx
  | cons k ks ih =>
    intro h cell x args cs css s sx fa nd
    cases s with
    | cons hk s =>
    cases fa with
    | @cons _ c1 _ css h1 fa =>
      rw [List.flatten_cons] at nd ⊢
      have nd' := (List.nodup_append.1 nd).2.1
      have dis := (List.nodup_append.1 nd).2.2
      obtain ⟨r, h', e, rel, sr⟩ := ih (cell := some k) (x := h.car k) s h1 fa nd'
      have sx' : Seg h' x cs .null := by
        have keep : ∀ a ∈ cs, h'.cdr a = h.cdr a := fun a ha =>
          rel.cdr a fun hm => dis a ha a hm rfl
        exact sx.congr (Nat.le_of_eq rel.next.symm) keep
      by_cases ne : cs = []
      · subst ne
        cases sx
        cases cell with
        | none =>
          refine ⟨r, h', ?_, ⟨rel.next, fun a ha => rel.car a (by simpa using ha),
            fun a ha => rel.cdr a (by simpa using ha)⟩, by simpa using sr⟩
          rw [appendBangArgs]
          simp [e]
        | some c0 =>
          refine ⟨r, setCar h' c0 r, ?_, ⟨rel.next, fun a ha => ?_, fun a ha => ?_⟩, ?_⟩
          · rw [appendBangArgs]
            simp [e]
          · have : a ≠ c0 := fun hh => ha (by simp [hh])
            simp only [setCar, this, if_false]
            exact rel.car a (fun hm => ha (by
              simp only [Option.toList_some, List.cons_append, List.nil_append,
                List.mem_cons] at hm ⊢
              exact Or.inr hm))
          · exact rel.cdr a (by simpa using ha)
          · simpa using sr.setCar
      · have hx := sx.notNull ne
        obtain ⟨r', h'', e2, oc, sq, -⟩ := C12_append2_lists sx' sr
          (fun a ha hb => dis a ha a hb rfl)
        have rel2 : h''.next = h'.next ∧ (∀ a, h''.car a = h'.car a) ∧
            (∀ a, a ∉ cs → h''.cdr a = h'.cdr a) := by
          unfold appendBang at e2
          rw [hx] at e2
          by_cases hr : isNull r = true
          · simp [hr] at e2
            rw [← e2.2]
            exact ⟨rfl, fun _ => rfl, fun _ _ => rfl⟩
          · obtain ⟨ps, p, ep, s1, hp, hlt⟩ := sx'.last ne
            have hl := lastPair_spec (by rw [hp]; rfl) s1
            simp [hr, hl] at e2
            rw [← e2.2]
            refine ⟨rfl, fun _ => rfl, fun a ha => ?_⟩
            have : a ≠ p := fun hh => ha (by rw [hh, ep]; simp)
            simp [setCdr, this]
        refine ⟨r', h'', ?_, ⟨rel2.1.trans rel.next, fun a ha => ?_, fun a ha => ?_⟩, sq⟩
        · rw [appendBangArgs]
          simp [e, hx, e2]
        · rw [rel2.2.1]
          refine rel.car a (fun hm => ha ?_)
          simp only [Option.toList_some, List.cons_append, List.nil_append,
            List.mem_cons] at hm
          simp only [List.mem_append, List.mem_cons]
          exact Or.inr hm
        · rw [List.mem_append, not_or] at ha
          rw [rel2.2.2 a ha.1]
          exact rel.cdr a ha.2

/-- **C12, `append!` of any number of proper lists** that share no pair with each other or with the
argument list: the result runs through all their pairs in order, whose elements are unchanged, and
no other pair changes (the argument list's own cells aside, which belong to the call). -/
theorem C12_append {h : Heap} {args : Obj} {ks : List Nat} {css : List (List Nat)}
    (s : Seg h args ks .null)
    (fa : List.Forall₂ (fun k cs => Seg h (h.car k) cs .null) ks css)
    (nd : (ks ++ css.flatten).Nodup) :
    ∃ r h', appendBangStar h args = some (r, h') ∧ Seg h' r css.flatten .null ∧
      css.flatten.map h'.car = css.flatten.map h.car ∧
      ∀ a, a ∉ css.flatten → a ∉ ks → h'.car a = h.car a ∧ h'.cdr a = h.cdr a := by
  obtain ⟨-, nd1, dis⟩ := List.nodup_append.1 nd
  cases s with
  | nil =>
    cases fa
    exact ⟨.null, h, rfl, .nil _, rfl, fun _ _ _ => ⟨rfl, rfl⟩⟩
  | @cons k ks _ hk s =>
    cases fa with
    | @cons _ c1 _ css h1 fa =>
      obtain ⟨r, h', e, rel, sr⟩ := appendBangArgs_spec ks (cell := none) s h1 fa
        (by simpa using nd1)
      refine ⟨r, h', by simpa [appendBangStar] using e, by simpa using sr, ?_, ?_⟩
      · refine List.map_congr_left fun a ha => rel.car a fun hm => ?_
        exact dis a (List.mem_cons_of_mem _ (by simpa using hm)) a ha rfl
      · intro a ha hb
        exact ⟨rel.car a fun hm => hb (List.mem_cons_of_mem _ (by simpa using hm)),
          rel.cdr a (by simpa using ha)⟩

theorem consStarLoop_spec {h : Heap} {as : List Nat} : ∀ {node c : Nat}, node < h.next →
    Seg h (h.cdr node) (as ++ [c]) .null →
    consStarLoop h node = some (setCdr h ((node :: as).getLast (by simp)) (h.car c)) := by
  induction as with
  | nil =>
    intro node c hn s
    generalize hd : h.cdr node = d at s
    cases s with
    | cons hc s =>
      generalize hd' : h.cdr c = d' at s
      cases s
      rw [consStarLoop]
      simp [hd, hd']
  | cons b as ih =>
    intro node c hn s
    generalize hd : h.cdr node = d at s
    cases s with
    | cons hb s =>
      have hnn : isNull (h.cdr b) = false := s.notNull (by simp)
      rw [consStarLoop]
      simp [hd, hnn, ih hb s]

/-- **C12, `cons*`**: given the argument list `(x₁ … xₙ t)` with `n ≥ 1`, the result has the elements
`x₁ … xₙ` and the final object `t`. It is built by relinking the argument list itself: only the cdr
of its last kept pair changes. -/
theorem C12_cons_star {h : Heap} {args : Obj} {as : List Nat} {b c : Nat}
    (s : Seg h args (as ++ [b] ++ [c]) .null) :
    ∃ h', consStar h args = some (args, h') ∧ OnlyCdrs h h' [b] ∧ Seg h' args (as ++ [b]) (h.car c) ∧
      (as ++ [b]).map h'.car = (as ++ [b]).map h.car := by
  have nd := s.nodup rfl
  have nb : b ∉ as := by
    rw [List.nodup_append, List.nodup_append] at nd
    exact fun hm => nd.1.2.2 b hm b (by simp) rfl
  have key : consStar h args = some (args, setCdr h b (h.car c)) := by
    generalize hl : as ++ [b] ++ [c] = l at s
    cases s with
    | nil => simp at hl
    | @cons a l _ ha s =>
      cases as with
      | nil =>
        simp at hl
        obtain ⟨rfl, rfl⟩ := hl
        have hnn : isNull (h.cdr b) = false := s.notNull (by simp)
        have := consStarLoop_spec (as := []) ha s
        simp [consStar, hnn, this]
      | cons a' as =>
        simp at hl
        obtain ⟨rfl, rfl⟩ := hl
        have hnn : isNull (h.cdr a') = false := s.notNull (by simp)
        have := consStarLoop_spec (as := as ++ [b]) (c := c) ha (by simpa using s)
        simp [consStar, hnn, this]
  refine ⟨_, key, OnlyCdrs.setCdr b _, ?_, rfl⟩
  obtain ⟨z, s1, s2⟩ := s.split
  obtain ⟨w, s3, s4⟩ := s1.split
  cases s4 with
  | cons hb s4 =>
    exact (s3.setCdr nb).append (.cons hb (by simpa [setCdr] using Seg.nil (h.car c)))

/-- The hypotheses of the C12 theorems are met by two disjoint lists. -/
example : Seg sample (.pair 0) [0, 1, 2] .null ∧ Seg sample (.pair 3) [3, 4] .null ∧
    (∀ a ∈ [0, 1, 2], a ∉ [3, 4]) := ⟨sample_seg, sample_seg', by decide⟩

/-! ### C13: searching -/

/-- **C13, `memq`/`memv`, found**: the first pair whose car matches is returned, even if the list is
circular. -/
theorem C13_mem_found (test : Obj → Obj → Bool) {h : Heap} {k x : Obj} {as : List Nat} {c : Nat}
    (s : Seg h x as (.pair c)) (no : ∀ a ∈ as, test k (h.car a) = false)
    (yes : test k (h.car c) = true) : mem test h k x = some (.pair c) := by
  generalize ht : Obj.pair c = t at s
  induction s with
  | nil => subst ht; rw [mem]; simp [yes]
  | @cons a as t ha s ih =>
    rw [mem]
    simp [no a (by simp), ih (fun b hb => no b (by simp [hb])) ht]

/-- **C13, `memq`/`memv`, not found**: `#f` when no element matches. -/
theorem C13_mem_none (test : Obj → Obj → Bool) {h : Heap} {k x t : Obj} {as : List Nat}
    (ht : isPair t = false) (s : Seg h x as t) (no : ∀ a ∈ as, test k (h.car a) = false) :
    mem test h k x = some .f := by
  induction s with
  | nil => rw [mem]; simp [ht]
  | @cons a as t ha s ih =>
    rw [mem]
    simp [no a (by simp), ih ht (fun b hb => no b (by simp [hb]))]

/-- **C13, `memq`/`memv` on every list**: the search returns, and the answer is `#f` exactly when no
element matches; otherwise it is the first matching pair. -/
theorem C13_mem (test : Obj → Obj → Bool) {h : Heap} {k x t : Obj} {as : List Nat}
    (ht : isPair t = false) (s : Seg h x as t) :
    ∃ r, mem test h k x = some r ∧
      (r = .f ↔ ∀ a ∈ as, test k (h.car a) = false) ∧
      (∀ c, r = .pair c → ∃ pre post, as = pre ++ c :: post ∧ test k (h.car c) = true ∧
        ∀ a ∈ pre, test k (h.car a) = false) := by
  by_cases all : ∀ a ∈ as, test k (h.car a) = false
  · exact ⟨.f, C13_mem_none test ht s all, ⟨fun _ => all, fun _ => rfl⟩, fun c e => (by cases e)⟩
  · have : ∃ pre c post, as = pre ++ c :: post ∧ test k (h.car c) = true ∧
        ∀ a ∈ pre, test k (h.car a) = false := by
      clear s
      induction as with
      | nil => simp at all
      | cons a as ih =>
        by_cases ha : test k (h.car a) = true
        · exact ⟨[], a, as, rfl, ha, by simp⟩
        · have ha' : test k (h.car a) = false := by simpa using ha
          obtain ⟨pre, c, post, e, y, n⟩ := ih (fun hall => all (by
            intro b hb
            rcases List.mem_cons.1 hb with e | hb
            · exact e ▸ ha'
            · exact hall b hb))
          refine ⟨a :: pre, c, post, by rw [e]; rfl, y, fun b hb => ?_⟩
          rcases List.mem_cons.1 hb with e | hb
          · exact e ▸ ha'
          · exact n b hb
    obtain ⟨pre, c, post, e, y, n⟩ := this
    subst e
    obtain ⟨z, s1, s2⟩ := s.split
    have : z = .pair c := by cases s2; rfl
    subst this
    refine ⟨.pair c, C13_mem_found test s1 n y, ⟨fun h => (by cases h), fun h => (all h).elim⟩, ?_⟩
    intro c' e'
    cases e'
    exact ⟨pre, post, rfl, y, n⟩

/-- **C13, `assq`/`assv`, found**: the first entry whose key matches. -/
theorem C13_ass_found (test : Obj → Obj → Bool) {h : Heap} {k x : Obj} {as es : List Nat}
    {c e : Nat} (s : Seg h x as (.pair c)) (he : h.car c = .pair e)
    (hes : as.map h.car = es.map Obj.pair) (no : ∀ e ∈ es, test k (h.car e) = false)
    (yes : test k (h.car e) = true) : ass test h k x = some (.pair e) := by
  generalize ht : Obj.pair c = t at s
  induction s generalizing es with
  | nil => subst ht; rw [ass]; simp [he, yes]
  | @cons a as t ha s ih =>
    cases es with
    | nil => simp at hes
    | cons e' es =>
      simp only [List.map_cons, List.cons.injEq] at hes
      rw [ass]
      simp [hes.1, no e' (by simp), ih hes.2 (fun b hb => no b (by simp [hb])) ht]

/-- **C13, `assq`/`assv`, not found**: `#f` when no key matches. -/
theorem C13_ass_none (test : Obj → Obj → Bool) {h : Heap} {k x t : Obj} {as es : List Nat}
    (ht : isPair t = false) (s : Seg h x as t) (hes : as.map h.car = es.map Obj.pair)
    (no : ∀ e ∈ es, test k (h.car e) = false) : ass test h k x = some .f := by
  induction s generalizing es with
  | nil => rw [ass]; simp [ht]
  | @cons a as t ha s ih =>
    cases es with
    | nil => simp at hes
    | cons e' es =>
      simp only [List.map_cons, List.cons.injEq] at hes
      rw [ass]
      simp [hes.1, no e' (by simp), ih ht hes.2 (fun b hb => no b (by simp [hb]))]

example : Seg sample (.pair 0) [0, 1] (.pair 2) ∧
    (∀ a ∈ [0, 1], decide (Obj.atom 12 = sample.car a) = false) ∧
    decide (Obj.atom 12 = sample.car 2) = true :=
  ⟨.cons (by decide) (.cons (by decide) (.nil _)), by decide, by decide⟩

end Meevax.Lists
