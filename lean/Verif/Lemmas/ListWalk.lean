import Verif.Spec.ListWalk
import Verif.Props.Lists

namespace Meevax.ListWalk
open Meevax.Lists

variable {ε σ : Type} {α β : Type} {e : ε}

/-! ### Computations -/

theorem run_pure (a : α) (w : Heap × σ) : (pure a : M ε σ α) w = some (.ok a, w) := rfl

theorem run_bind (x : M ε σ α) (k : α → M ε σ β) (w : Heap × σ) :
    (x >>= k) w = match x w with
      | none => none
      | some (.ok a, w') => k a w'
      | some (.error t, w') => some (.error t, w') := by
  show (ExceptT.bind x k) w = _
  simp only [ExceptT.bind, ExceptT.mk]
  show (StateT.bind x (ExceptT.bindCont k)) w = _
  rw [StateT.bind]
  show Option.bind (x w) _ = _
  cases h : x w with
  | none => rfl
  | some p =>
    obtain ⟨r, w'⟩ := p
    cases r <;> rfl

theorem run_ok {x : M ε σ α} {k : α → M ε σ β} {w w' : Heap × σ} {a : α} (h : x w = some (.ok a, w')) :
    (x >>= k) w = k a w' := by
  rw [run_bind, h]

theorem run_error {x : M ε σ α} {k : α → M ε σ β} {w w' : Heap × σ} {t : ε} (h : x w = some (.error t, w')) :
    (x >>= k) w = some (.error t, w') := by
  rw [run_bind, h]

theorem bind_congr_run {x : M ε σ α} {k k' : α → M ε σ β} {w : Heap × σ}
    (h : ∀ a w', x w = some (.ok a, w') → k a w' = k' a w') : (x >>= k) w = (x >>= k') w := by
  rw [run_bind, run_bind]
  cases hx : x w with
  | none => rfl
  | some p =>
    obtain ⟨r, w'⟩ := p
    cases r with
    | ok a => exact h a w' hx
    | error t => rfl

theorem run_throw (t : ε) (w : Heap × σ) : (throw t : M ε σ α) w = some (.error t, w) := rfl

theorem run_look {f : Heap → Option α} {w : Heap × σ} {a : α} (h : f w.1 = some a) :
    (look f : M ε σ α) w = some (.ok a, w) := by
  rw [look, h]
  rfl

theorem run_car {a : Nat} {w : Heap × σ} : (carM (.pair a) : M ε σ Obj) w = some (.ok (w.1.car a), w) := run_look rfl

theorem run_cdr {a : Nat} {w : Heap × σ} : (cdrM (.pair a) : M ε σ Obj) w = some (.ok (w.1.cdr a), w) := run_look rfl

/-! ### Lists -/

theorem Clist.cdr {h : Heap} {a : Nat} (c : Clist h (.pair a)) : Clist h (h.cdr a) := by
  rcases c with ⟨as, s⟩ | c
  · cases s with
    | cons _ s => exact .inl ⟨_, s⟩
  · refine .inr fun n => ?_
    obtain ⟨as, b, hl, s⟩ := c (n + 1)
    cases s with
    | nil => simp at hl
    | cons _ s => exact ⟨_, b, by simpa using hl, s⟩

theorem Clist.extend {h h' : Heap} {x : Obj} (c : Clist h x) (ex : Extends h h') : Clist h' x := by
  rcases c with ⟨as, s⟩ | c
  · exact .inl ⟨as, s.extend ex⟩
  · refine .inr fun n => ?_
    obtain ⟨as, b, hl, s⟩ := c n
    exact ⟨as, b, hl, s.extend ex⟩

theorem Clist.not_dotted {h : Heap} {x : Obj} (c : Clist h x) (d : Dotted h x) : False := by
  obtain ⟨as, n, s⟩ := d
  rcases c with ⟨bs, t⟩ | c
  · obtain ⟨h1, h2⟩ := Seg.det_end rfl rfl s t
    cases h2
  · exact c.not_ends s rfl

theorem Clist.pair_or_null {h : Heap} {x : Obj} (c : Clist h x) : x = .null ∨ ∃ a, x = .pair a := by
  cases x with
  | null => exact .inl rfl
  | pair a => exact .inr ⟨a, rfl⟩
  | atom n => exact (c.not_dotted ⟨[], n, .nil _⟩).elim

theorem run_nullList {x : Obj} {w : Heap × σ} (cl : Closed w.1 x) (c : Clist w.1 x) :
    (nullList e x : M ε σ Bool) w = some (.ok (isNull x), w) := by
  obtain ⟨p, q, d, h1, h2, h3, i1, i2, i3, _⟩ := C10_classification cl
  rw [nullList, run_ok (run_look (f := fun h => isProperList h x) h1)]
  cases p with
  | true => rfl
  | false =>
    show ((look fun h => isCircularList h x) >>= _) w = _
    rw [run_ok (run_look (f := fun h => isCircularList h x) h2)]
    cases q with
    | true => rfl
    | false =>
      rcases c with c | c
      · exact absurd (i1.2 c) (by simp)
      · exact absurd (i2.2 c) (by simp)

theorem run_nullList_dotted {x : Obj} {w : Heap × σ} (cl : Closed w.1 x) (hd : Dotted w.1 x) :
    (nullList e x : M ε σ Bool) w = some (.error e, w) := by
  obtain ⟨p, q, d, h1, h2, h3, i1, i2, i3, _⟩ := C10_classification cl
  have hp : p = false := Bool.eq_false_iff.2 fun h => Clist.not_dotted (.inl (i1.1 h)) hd
  have hq : q = false := Bool.eq_false_iff.2 fun h => Clist.not_dotted (.inr (i2.1 h)) hd
  subst hp hq
  rw [nullList, run_ok (run_look (f := fun h => isProperList h x) h1)]
  show ((look fun h => isCircularList h x) >>= _) w = _
  rw [run_ok (run_look (f := fun h => isCircularList h x) h2)]
  rfl

/-- Lists that are not dotted, in a memory without dangling references. -/
structure Good (h : Heap) (xs : List Obj) : Prop where
  sound : Sound h xs
  clist : ∀ x ∈ xs, Clist h x

theorem Good.closed {h : Heap} {xs : List Obj} (g : Good h xs) {x : Obj} (hx : x ∈ xs) : Closed h x :=
  ⟨fun a ha => g.sound.objects a (ha ▸ hx), g.sound.cdr⟩

theorem Good.tail {h : Heap} {x : Obj} {xs : List Obj} (g : Good h (x :: xs)) : Good h xs :=
  ⟨⟨fun a ha => g.sound.objects a (List.mem_cons_of_mem _ ha), g.sound.cdr⟩,
    fun y hy => g.clist y (List.mem_cons_of_mem _ hy)⟩

theorem Good.step {h : Heap} {xs row ys : List Obj} (g : Good h xs) (s : Step h xs row ys) : Good h ys := by
  obtain ⟨as, rfl, hl, rfl, rfl⟩ := s
  refine ⟨⟨fun b hb => ?_, g.sound.cdr⟩, fun y hy => ?_⟩
  · obtain ⟨a, ha, he⟩ := List.mem_map.1 hb
    exact g.sound.cdr a b (hl a ha) he
  · obtain ⟨a, ha, rfl⟩ := List.mem_map.1 hy
    exact (g.clist (.pair a) (List.mem_map_of_mem ha)).cdr

theorem Good.after {f : List Obj → M ε σ Obj} (hf : Harmless f) {args xs : List Obj} {w w' : Heap × σ}
    {r : Except ε Obj} (g : Good w.1 xs) (h : f args w = some (r, w')) : Good w'.1 xs := by
  obtain ⟨ex, cl⟩ := hf args w r w' h
  exact ⟨⟨fun a ha => Nat.lt_of_lt_of_le (g.sound.objects a ha) ex.next, cl g.sound.cdr⟩,
    fun x hx => (g.clist x hx).extend ex⟩

theorem Step.extend {h h' : Heap} (ex : Extends h h') {xs row ys : List Obj} (s : Step h xs row ys) :
    Step h' xs row ys := by
  obtain ⟨as, rfl, hl, rfl, rfl⟩ := s
  refine ⟨as, rfl, fun a ha => Nat.lt_of_lt_of_le (hl a ha) ex.next, ?_, ?_⟩
  · exact List.map_congr_left fun a ha => (ex.car a (hl a ha)).symm
  · exact List.map_congr_left fun a ha => (ex.cdr a (hl a ha)).symm

theorem Rows.extend {h h' : Heap} (ex : Extends h h') {xs zs : List Obj} {rows : List (List Obj)}
    (r : Rows h xs rows zs) : Rows h' xs rows zs := by
  induction r with
  | nil => exact .nil _
  | cons s _ ih => exact .cons (s.extend ex) ih

theorem Rows.after {f : List Obj → M ε σ Obj} (hf : Harmless f) {args xs zs : List Obj} {rows : List (List Obj)}
    {w w' : Heap × σ} {r : Except ε Obj} (rs : Rows w.1 xs rows zs) (h : f args w = some (r, w')) :
    Rows w'.1 xs rows zs := rs.extend (hf args w r w' h).1

/-! ### `%cars+cdrs` -/

theorem carsCdrs_step {xs row ys : List Obj} {w : Heap × σ} (g : Good w.1 xs) (s : Step w.1 xs row ys) :
    (carsCdrs e xs : M ε σ _) w = some (.ok (some (row, ys)), w) := by
  obtain ⟨as, rfl, hl, rfl, rfl⟩ := s
  induction as with
  | nil => rfl
  | cons a as ih =>
    rw [List.map_cons, carsCdrs, run_ok (run_nullList (g.closed List.mem_cons_self) (g.clist _ List.mem_cons_self))]
    show (carM (.pair a) >>= _) w = _
    rw [run_ok run_car, run_ok run_cdr, run_ok (ih g.tail fun b hb => hl b (List.mem_cons_of_mem _ hb))]
    rfl

theorem carsCdrs_end {xs : List Obj} {w : Heap × σ} (g : Good w.1 xs) (hn : .null ∈ xs) :
    (carsCdrs e xs : M ε σ _) w = some (.ok none, w) := by
  induction xs with
  | nil => simp at hn
  | cons x xs ih =>
    rw [carsCdrs, run_ok (run_nullList (g.closed List.mem_cons_self) (g.clist _ List.mem_cons_self))]
    rcases (g.clist _ List.mem_cons_self).pair_or_null with rfl | ⟨a, rfl⟩
    · rfl
    · show (carM (.pair a) >>= _) w = _
      rw [run_ok run_car, run_ok run_cdr, run_ok (ih g.tail (by simpa using hn))]
      rfl

theorem carsCdrs_total {xs : List Obj} {w : Heap × σ} (g : Good w.1 xs) :
    ∃ r, (carsCdrs e xs : M ε σ _) w = some (.ok r, w) := by
  induction xs with
  | nil => exact ⟨_, rfl⟩
  | cons x xs ih =>
    rw [carsCdrs, run_ok (run_nullList (g.closed List.mem_cons_self) (g.clist _ List.mem_cons_self))]
    rcases (g.clist _ List.mem_cons_self).pair_or_null with rfl | ⟨a, rfl⟩
    · exact ⟨_, rfl⟩
    · obtain ⟨r, hr⟩ := ih g.tail
      show ∃ r, (carM (.pair a) >>= _) w = _
      rw [run_ok run_car, run_ok run_cdr, run_ok hr]
      cases r <;> exact ⟨_, rfl⟩

/-- A dotted list after lists that are not empty. -/
theorem carsCdrs_dotted {as : List Nat} {x : Obj} {xs : List Obj} {w : Heap × σ} (g : Good w.1 (as.map .pair))
    (cl : Closed w.1 x) (hd : Dotted w.1 x) :
    (carsCdrs e (as.map .pair ++ x :: xs) : M ε σ _) w = some (.error e, w) := by
  induction as with
  | nil =>
    rw [List.map_nil, List.nil_append, carsCdrs, run_error (run_nullList_dotted cl hd)]
  | cons a as ih =>
    rw [List.map_cons, List.cons_append, carsCdrs, run_ok (run_nullList (g.closed List.mem_cons_self) (g.clist _ List.mem_cons_self))]
    show (carM (.pair a) >>= _) w = _
    rw [run_ok run_car, run_ok run_cdr, run_error (ih g.tail)]

/-! ### One list -/

theorem Step.one {h : Heap} {x : Obj} {row ys : List Obj} (s : Step h [x] row ys) :
    ∃ a, x = .pair a ∧ a < h.next ∧ row = [h.car a] ∧ ys = [h.cdr a] := by
  obtain ⟨as, h1, hl, rfl, rfl⟩ := s
  cases as with
  | nil => simp at h1
  | cons a as =>
    cases as with
    | nil =>
      simp at h1
      exact ⟨a, h1, hl a List.mem_cons_self, rfl, rfl⟩
    | cons b as => simp at h1

theorem mapM_car {as : List Nat} {w : Heap × σ} :
    ((as.map Obj.pair).mapM carM : M ε σ _) w = some (.ok (as.map w.1.car), w) := by
  induction as with
  | nil => rfl
  | cons a as ih =>
    rw [List.map_cons, List.mapM_cons, run_ok run_car, run_ok ih]
    rfl

theorem mapM_cdr {as : List Nat} {w : Heap × σ} :
    ((as.map Obj.pair).mapM cdrM : M ε σ _) w = some (.ok (as.map w.1.cdr), w) := by
  induction as with
  | nil => rfl
  | cons a as ih =>
    rw [List.map_cons, List.mapM_cons, run_ok run_cdr, run_ok ih]
    rfl

end Meevax.ListWalk
