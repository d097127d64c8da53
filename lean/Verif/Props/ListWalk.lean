import Verif.Lemmas.ListWalk

/-! # C99: procedures on several lists, some of which can be circular -/

namespace Meevax.ListWalk
open Meevax.Lists

variable {ε σ : Type} {e : ε} {f : List Obj → M ε σ Obj} {x : Obj} {xs zs : List Obj} {rows : List (List Obj)}
  {w : Heap × σ}

/-! ### The rows -/

theorem rows_exists {h : Heap} (n : Nat) {xs : List Obj} (s : Sound h xs)
    (hx : ∀ x ∈ xs, ∃ as t, as.length = n ∧ Seg h x as t) :
    ∃ rows zs, Rows h xs rows zs ∧ rows.length = n ∧ List.Forall₂ (fun x z => ∃ as, as.length = n ∧ Seg h x as z) xs zs := by
  induction n generalizing xs with
  | zero =>
    refine ⟨[], xs, .nil _, rfl, ?_⟩
    clear hx s
    induction xs with
    | nil => exact .nil
    | cons x xs ih => exact .cons ⟨[], rfl, .nil _⟩ ih
  | succ n ih =>
    have key : ∃ as : List Nat, xs = as.map .pair ∧ (∀ a ∈ as, a < h.next) ∧
        ∀ a ∈ as, ∃ bs t, bs.length = n ∧ Seg h (h.cdr a) bs t := by
      clear ih
      induction xs with
      | nil => exact ⟨[], rfl, by simp, by simp⟩
      | cons x xs ih2 =>
        obtain ⟨as, h1, h2, h3⟩ := ih2 ⟨fun a ha => s.objects a (List.mem_cons_of_mem _ ha), s.cdr⟩
          fun y hy => hx y (List.mem_cons_of_mem _ hy)
        obtain ⟨bs, t, hl, sg⟩ := hx x List.mem_cons_self
        cases sg with
        | nil => simp at hl
        | @cons a bs t ha sg =>
          refine ⟨a :: as, by rw [h1]; rfl, ?_, ?_⟩
          · intro b hb
            rcases List.mem_cons.1 hb with rfl | hb
            · exact ha
            · exact h2 b hb
          · intro b hb
            rcases List.mem_cons.1 hb with rfl | hb
            · exact ⟨bs, t, by simpa using hl, sg⟩
            · exact h3 b hb
    obtain ⟨as, rfl, hl, hs⟩ := key
    obtain ⟨rows, zs, r, hr, hz⟩ := ih (xs := as.map h.cdr) ⟨fun b hb => by
        obtain ⟨a, ha, he⟩ := List.mem_map.1 hb
        exact s.cdr a b (hl a ha) he, s.cdr⟩ fun y hy => by
        obtain ⟨a, ha, rfl⟩ := List.mem_map.1 hy
        exact hs a ha
    refine ⟨as.map h.car :: rows, zs, .cons ⟨as, rfl, hl, rfl, rfl⟩ r, by simp [hr], ?_⟩
    rw [List.forall₂_map_left_iff] at hz ⊢
    clear r hx hs s
    induction hz with
    | nil => exact .nil
    | cons h1 _ ih3 =>
      obtain ⟨bs, h2, h3⟩ := h1
      exact .cons ⟨_ :: bs, by simp [h2], .cons (hl _ List.mem_cons_self) h3⟩
        (ih3 fun a ha => hl a (List.mem_cons_of_mem _ ha))

theorem seg_prefix {h : Heap} {x t : Obj} {as : List Nat} (s : Seg h x as t) {n : Nat} (hn : n ≤ as.length) :
    ∃ bs u, bs.length = n ∧ Seg h x bs u := by
  have h1 : as.take n ++ as.drop n = as := List.take_append_drop n as
  rw [← h1] at s
  obtain ⟨u, s1, _⟩ := s.split
  exact ⟨as.take n, u, by simp [hn], s1⟩

/-- **C99: how many rows there are**: if at least one of the lists ends and the others end or are circular, there are
as many rows as the shortest list has elements. -/
theorem C99_rows {h : Heap} {xs : List Obj} (s : Sound h xs) (hc : ∀ x ∈ xs, Clist h x) (hp : ∃ x ∈ xs, Proper h x) :
    ∃ rows zs, Rows h xs rows zs ∧ .null ∈ zs ∧
      (∃ x ∈ xs, ∃ as, Seg h x as .null ∧ as.length = rows.length) ∧
      (∀ x ∈ xs, ∀ as, Seg h x as .null → rows.length ≤ as.length) := by
  classical
  have hex : ∃ n, ∃ x ∈ xs, ∃ as, Seg h x as .null ∧ as.length = n := by
    obtain ⟨x, hx, as, sg⟩ := hp
    exact ⟨_, x, hx, as, sg, rfl⟩
  obtain ⟨x, hx, as, sg, hn⟩ := Nat.find_spec hex
  have hmin : ∀ y ∈ xs, ∀ bs, Seg h y bs .null → Nat.find hex ≤ bs.length :=
    fun y hy bs sy => Nat.find_min' hex ⟨y, hy, bs, sy, rfl⟩
  obtain ⟨rows, zs, r, hr, hz⟩ := rows_exists (Nat.find hex) s fun y hy => by
    rcases hc y hy with ⟨bs, sy⟩ | c
    · exact seg_prefix sy (hmin y hy bs sy)
    · obtain ⟨bs, b, hl, sy⟩ := c (Nat.find hex)
      exact ⟨bs, _, hl, sy⟩
  refine ⟨rows, zs, r, ?_, ⟨x, hx, as, sg, by rw [hn, hr]⟩, fun y hy bs sy => by rw [hr]; exact hmin y hy bs sy⟩
  clear r hr hmin
  generalize Nat.find hex = n at hz hn
  clear hex hp hc s
  induction hz with
  | nil => simp at hx
  | @cons y z ys zs h1 _ ih =>
    rcases List.mem_cons.1 hx with rfl | hx
    · obtain ⟨bs, hl, sy⟩ := h1
      obtain ⟨_, h2⟩ := Seg.det sg sy (by omega)
      rw [← h2]
      exact List.mem_cons_self
    · exact List.mem_cons_of_mem _ (ih hx)

/-- **C99: what is in the rows**: the elements of the lists, in order. -/
theorem C99_elements {h : Heap} {xs zs : List Obj} {rows : List (List Obj)} (r : Rows h xs rows zs) {i : Nat}
    (hi : i < xs.length) :
    ∃ as, Seg h xs[i] as (zs[i]?.getD .null) ∧ as.map h.car = rows.map fun row => row[i]?.getD .null := by
  induction r with
  | nil xs => exact ⟨[], by simpa [hi] using Seg.nil _, rfl⟩
  | cons s r ih =>
    obtain ⟨as, rfl, hl, rfl, rfl⟩ := s
    have hi' : i < as.length := by simpa using hi
    obtain ⟨bs, h1, h2⟩ := ih (by simpa using hi')
    refine ⟨as[i] :: bs, ?_, ?_⟩
    · rw [List.getElem_map]
      refine .cons (hl _ (List.getElem_mem _)) ?_
      rw [List.getElem_map] at h1
      exact h1
    · simp [h2, hi']

/-! ### `map` and `for-each` -/

theorem mapLoops_rows (hf : Harmless f) (r : Rows w.1 xs rows zs) (hn : .null ∈ zs) (a : List Obj) :
    mapLoops f xs a w = (do let vs ← mapRows f rows; pure (a.reverse ++ vs)) w := by
  induction rows generalizing xs w a with
  | nil =>
    cases r
    rw [mapLoops, if_pos (List.any_eq_true.2 ⟨_, hn, rfl⟩), mapRows, run_ok (run_pure _ _), List.append_nil]
  | cons row rows ih =>
    cases r with
    | cons s r =>
      obtain ⟨as, rfl, hl, rfl, rfl⟩ := s
      have h1 : ¬ (as.map Obj.pair).any isNull = true := by simp [isNull]
      rw [mapLoops, if_neg h1, run_ok mapM_car, mapRows, bind_assoc]
      refine bind_congr_run fun v w' hv => ?_
      have ex := (hf _ _ _ _ hv).1
      have hcdr : as.map w.1.cdr = as.map w'.1.cdr := List.map_congr_left fun a ha => (ex.cdr a (hl a ha)).symm
      rw [run_ok mapM_cdr, ← hcdr, ih (r.after hf hv) (v :: a), bind_assoc]
      refine bind_congr_run fun vs w'' _ => ?_
      simp [run_bind, run_pure]

theorem mapLoop_rows (hf : Harmless f) (r : Rows w.1 [x] rows zs) (hn : .null ∈ zs) (a : List Obj) :
    mapLoop (fun v => f [v]) x a w = (do let vs ← mapRows f rows; pure (a.reverse ++ vs)) w := by
  induction rows generalizing x w a with
  | nil =>
    cases r
    have h1 : x = .null := by simpa [eq_comm] using hn
    subst h1
    rw [mapLoop, if_pos (by rfl), mapRows, run_ok (run_pure _ _), List.append_nil]
  | cons row rows ih =>
    cases r with
    | cons s r =>
      obtain ⟨b, rfl, hl, rfl, rfl⟩ := s.one
      rw [mapLoop, if_neg (by simp [isNull]), run_ok run_car, mapRows, bind_assoc]
      refine bind_congr_run fun v w' hv => ?_
      have ex := (hf _ _ _ _ hv).1
      rw [run_ok run_cdr, ex.cdr b hl, ih (r.after hf hv) (v :: a), bind_assoc]
      refine bind_congr_run fun vs w'' _ => ?_
      simp [run_bind, run_pure]

/-- **C99 for `map`**: if one of the lists ends, the procedure is called once for each row, in order, with the elements
of all lists, and the results are in the same order. -/
theorem C99_map (hf : Harmless f) (r : Rows w.1 (x :: xs) rows zs) (hn : .null ∈ zs) :
    map f x xs w = mapRows f rows w := by
  have hp : ∀ u, (do let vs ← mapRows f rows; pure (([] : List Obj).reverse ++ vs)) u = mapRows f rows u := by
    intro u
    simp
  rw [map]
  cases xs with
  | nil =>
    rw [if_pos (by rfl), mapLoop_rows hf r hn, hp]
  | cons y ys =>
    rw [if_neg (by simp), mapLoops_rows hf r hn, hp]

theorem forEachLoop_rows (hf : Harmless f) (r : Rows w.1 [x] rows zs) (hn : .null ∈ zs) :
    forEachLoop (fun v => f [v]) x w = (do let _ ← mapRows f rows; pure ()) w := by
  induction rows generalizing x w with
  | nil =>
    cases r
    have h1 : x = .null := by simpa [eq_comm] using hn
    subst h1
    rw [forEachLoop, if_neg (by simp [isPair]), mapRows, run_ok (run_pure _ _)]
  | cons row rows ih =>
    cases r with
    | cons s r =>
      obtain ⟨b, rfl, hl, rfl, rfl⟩ := s.one
      rw [forEachLoop, if_pos (by rfl), run_ok run_car, mapRows, bind_assoc]
      refine bind_congr_run fun v w' hv => ?_
      have ex := (hf _ _ _ _ hv).1
      rw [run_ok run_cdr, ex.cdr b hl, ih (r.after hf hv), bind_assoc]
      refine bind_congr_run fun vs w'' _ => ?_
      simp [run_bind, run_pure]

/-- **C99 for `for-each`**: the same calls as with `map`. -/
theorem C99_forEach (hf : Harmless f) (r : Rows w.1 (x :: xs) rows zs) (hn : .null ∈ zs) :
    forEach f x xs w = (do let _ ← mapRows f rows; pure ()) w := by
  rw [forEach]
  cases xs with
  | nil => rw [if_pos (by rfl), forEachLoop_rows hf r hn]
  | cons y ys =>
    rw [if_neg (by simp), run_bind, run_bind, C99_map hf r hn]

/-! ### `fold` -/

theorem foldLoops_rows (hf : Harmless f) (r : Rows w.1 xs rows zs) (hn : .null ∈ zs) (g : Good w.1 xs) (z : Obj) :
    foldLoops e f xs z w = foldRows f rows z w := by
  induction rows generalizing xs w z with
  | nil =>
    cases r
    rw [foldLoops, run_ok (carsCdrs_end g hn)]
    rfl
  | cons row rows ih =>
    cases r with
    | cons s r =>
      rw [foldLoops, run_ok (carsCdrs_step g s), foldRows]
      refine bind_congr_run fun v w' hv => ?_
      exact ih (r.after hf hv) ((g.step s).after hf hv) v

theorem foldLoop_rows (hf : Harmless f) (r : Rows w.1 [x] rows zs) (hn : .null ∈ zs) (g : Good w.1 [x]) (z : Obj) :
    foldLoop e f x z w = foldRows f rows z w := by
  have hx := g.closed List.mem_cons_self
  have hc := g.clist x List.mem_cons_self
  induction rows generalizing x w z with
  | nil =>
    cases r
    have h1 : x = .null := by simpa [eq_comm] using hn
    subst h1
    rw [foldLoop, run_ok (run_nullList hx hc)]
    rfl
  | cons row rows ih =>
    cases r with
    | cons s r =>
      have g' := g.step s
      obtain ⟨b, rfl, hl, rfl, rfl⟩ := s.one
      rw [foldLoop, run_ok (run_nullList hx hc), foldRows]
      show (carM (.pair b) >>= _) w = _
      rw [run_ok run_car]
      refine bind_congr_run fun v w' hv => ?_
      have ex := (hf _ _ _ _ hv).1
      have g'' := g'.after hf hv
      rw [run_ok run_cdr, ex.cdr b hl]
      exact ih (r.after hf hv) g'' v (g''.closed List.mem_cons_self) (g''.clist _ List.mem_cons_self)

/-- **C99 for `fold`**. -/
theorem C99_fold (hf : Harmless f) (r : Rows w.1 (x :: xs) rows zs) (hn : .null ∈ zs) (hs : Sound w.1 (x :: xs))
    (hc : ∀ y ∈ x :: xs, Clist w.1 y) (z : Obj) : fold e f z x xs w = foldRows f rows z w := by
  rw [fold]
  cases xs with
  | nil => exact foldLoop_rows hf r hn ⟨hs, hc⟩ z
  | cons y ys => exact foldLoops_rows hf r hn ⟨hs, hc⟩ z

/-! ### `list-index` -/

theorem isFalse_iff {v : Obj} : isFalse v = true ↔ v = .f := by simp [isFalse]

theorem indexLoops_rows (hf : Harmless f) (r : Rows w.1 xs rows zs) (hn : .null ∈ zs) (g : Good w.1 xs) (n : Nat) :
    indexLoops e f xs n w = indexRows f rows n w := by
  induction rows generalizing xs w n with
  | nil =>
    cases r
    rw [indexLoops, run_ok (carsCdrs_end g hn)]
    rfl
  | cons row rows ih =>
    cases r with
    | cons s r =>
      rw [indexLoops, run_ok (carsCdrs_step g s), indexRows]
      refine bind_congr_run fun v w' hv => ?_
      by_cases h : v = .f
      · rw [if_pos (isFalse_iff.2 h), if_pos h]
        exact ih (r.after hf hv) ((g.step s).after hf hv) _
      · rw [if_neg (fun h' => h (isFalse_iff.1 h')), if_neg h]

theorem indexLoop_rows (hf : Harmless f) (r : Rows w.1 [x] rows zs) (hn : .null ∈ zs) (g : Good w.1 [x]) (n : Nat) :
    indexLoop e (fun v => f [v]) x n w = indexRows f rows n w := by
  have hx := g.closed List.mem_cons_self
  have hc := g.clist x List.mem_cons_self
  induction rows generalizing x w n with
  | nil =>
    cases r
    have h1 : x = .null := by simpa [eq_comm] using hn
    subst h1
    rw [indexLoop, run_ok (run_nullList hx hc)]
    rfl
  | cons row rows ih =>
    cases r with
    | cons s r =>
      have g' := g.step s
      obtain ⟨b, rfl, hl, rfl, rfl⟩ := s.one
      rw [indexLoop, run_ok (run_nullList hx hc), indexRows]
      show (carM (.pair b) >>= _) w = _
      rw [run_ok run_car]
      refine bind_congr_run fun v w' hv => ?_
      have ex := (hf _ _ _ _ hv).1
      have g'' := g'.after hf hv
      by_cases h : v = .f
      · rw [if_pos (isFalse_iff.2 h), if_pos h, run_ok run_cdr, ex.cdr b hl]
        exact ih (r.after hf hv) g'' _ (g''.closed List.mem_cons_self) (g''.clist _ List.mem_cons_self)
      · rw [if_neg (fun h' => h (isFalse_iff.1 h')), if_neg h]

/-- **C99 for `list-index`**, if one of the lists ends. -/
theorem C99_listIndex (hf : Harmless f) (r : Rows w.1 (x :: xs) rows zs) (hn : .null ∈ zs) (hs : Sound w.1 (x :: xs))
    (hc : ∀ y ∈ x :: xs, Clist w.1 y) : listIndex e f x xs w = indexRows f rows 0 w := by
  rw [listIndex]
  cases xs with
  | nil => exact indexLoop_rows hf r hn ⟨hs, hc⟩ 0
  | cons y ys => exact indexLoops_rows hf r hn ⟨hs, hc⟩ 0

theorem indexLoops_found (hf : Harmless f) {row : List Obj} (r : Rows w.1 xs (rows ++ [row]) zs) (g : Good w.1 xs)
    {n : Nat} {w' w'' : Heap × σ} (hr : indexRows f rows n w = some (.ok none, w')) {v : Obj}
    (hv : f row w' = some (.ok v, w'')) (hne : v ≠ .f) :
    indexLoops e f xs n w = some (.ok (some (n + rows.length)), w'') := by
  induction rows generalizing xs w n with
  | nil =>
    have hw : w = w' := by cases hr; rfl
    subst hw
    cases r with
    | cons s r =>
      rw [indexLoops, run_ok (carsCdrs_step g s)]
      show (f row >>= _) w = _
      rw [run_ok hv, if_neg (fun h => hne (isFalse_iff.1 h))]
      rfl
  | cons row' rows ih =>
    cases r with
    | cons s r =>
      rw [indexLoops, run_ok (carsCdrs_step g s)]
      show (f row' >>= _) w = _
      rw [indexRows, run_bind] at hr
      cases hu : f row' w with
      | none => rw [hu] at hr; simp at hr
      | some p =>
        obtain ⟨u, w1⟩ := p
        rw [hu] at hr
        cases u with
        | error t => simp at hr
        | ok u =>
          simp only at hr
          by_cases h : u = .f
          · rw [if_pos h] at hr
            rw [run_ok hu, if_pos (isFalse_iff.2 h)]
            rw [ih (r.after hf hu) ((g.step s).after hf hu) hr]
            simp
            omega
          · rw [if_neg h] at hr
            simp [run_pure] at hr

theorem indexLoop_found (hf : Harmless f) {row : List Obj} (r : Rows w.1 [x] (rows ++ [row]) zs) (g : Good w.1 [x])
    {n : Nat} {w' w'' : Heap × σ} (hr : indexRows f rows n w = some (.ok none, w')) {v : Obj}
    (hv : f row w' = some (.ok v, w'')) (hne : v ≠ .f) :
    indexLoop e (fun v => f [v]) x n w = some (.ok (some (n + rows.length)), w'') := by
  have hx := g.closed List.mem_cons_self
  have hc := g.clist x List.mem_cons_self
  induction rows generalizing x w n with
  | nil =>
    have hw : w = w' := by cases hr; rfl
    subst hw
    cases r with
    | cons s r =>
      obtain ⟨b, rfl, hl, rfl, rfl⟩ := s.one
      rw [indexLoop, run_ok (run_nullList hx hc)]
      show (carM (.pair b) >>= _) w = _
      rw [run_ok run_car, run_ok hv, if_neg (fun h => hne (isFalse_iff.1 h))]
      rfl
  | cons row' rows ih =>
    cases r with
    | cons s r =>
      have g' := g.step s
      obtain ⟨b, rfl, hl, rfl, rfl⟩ := s.one
      rw [indexLoop, run_ok (run_nullList hx hc)]
      show (carM (.pair b) >>= _) w = _
      rw [run_ok run_car]
      rw [indexRows, run_bind] at hr
      cases hu : f [w.1.car b] w with
      | none => rw [hu] at hr; simp at hr
      | some p =>
        obtain ⟨u, w1⟩ := p
        rw [hu] at hr
        cases u with
        | error t => simp at hr
        | ok u =>
          simp only at hr
          have ex := (hf _ _ _ _ hu).1
          have g'' := g'.after hf hu
          by_cases h : u = .f
          · rw [if_pos h] at hr
            rw [run_ok hu, if_pos (isFalse_iff.2 h), run_ok run_cdr, ex.cdr b hl]
            rw [ih (r.after hf hu) g'' hr (g''.closed List.mem_cons_self) (g''.clist _ List.mem_cons_self)]
            simp
            omega
          · rw [if_neg h] at hr
            simp [run_pure] at hr

/-- **C99 for `list-index` on circular lists**: if the results for `rows` are all `#f` and the one for the row after
them is not, the number of that row is the result, whether the lists end or not; the procedure is not called any
more. -/
theorem C99_listIndex_found (hf : Harmless f) {row : List Obj} (r : Rows w.1 (x :: xs) (rows ++ [row]) zs)
    (hs : Sound w.1 (x :: xs)) (hc : ∀ y ∈ x :: xs, Clist w.1 y) {w' w'' : Heap × σ}
    (hr : anyRows f rows w = some (.ok .f, w')) {v : Obj} (hv : f row w' = some (.ok v, w'')) (hne : v ≠ .f) :
    listIndex e f x xs w = some (.ok (some rows.length), w'') := by
  have key : ∀ (rows : List (List Obj)) (n : Nat) (w : Heap × σ), anyRows f rows w = some (.ok .f, w') →
      indexRows f rows n w = some (.ok none, w') := by
    intro rows
    induction rows with
    | nil =>
      intro n w h
      cases h
      rfl
    | cons row rows ih =>
      intro n w h
      rw [anyRows, run_bind] at h
      rw [indexRows, run_bind]
      cases hu : f row w with
      | none => rw [hu] at h; simp at h
      | some p =>
        obtain ⟨u, w1⟩ := p
        rw [hu] at h
        cases u with
        | error t => simp at h
        | ok u =>
          simp only at h ⊢
          by_cases hf : u = .f
          · rw [if_pos hf] at h ⊢
            exact ih _ _ h
          · rw [if_neg hf] at h
            rw [run_pure] at h
            injection h with h
            injection h with h1 h2
            injection h1 with h1
            exact absurd h1 hf
  rw [listIndex]
  have := key rows 0 w hr
  cases xs with
  | nil =>
    rw [if_pos (by rfl), indexLoop_found hf r ⟨hs, hc⟩ this hv hne]
    simp
  | cons y ys =>
    rw [if_neg (by simp), indexLoops_found hf r ⟨hs, hc⟩ this hv hne]
    simp

/-! ### `any` -/

theorem anyLoops_rows (hf : Harmless f) {row : List Obj} (r : Rows w.1 xs rows zs) (hn : .null ∈ zs) (g : Good w.1 xs) :
    anyLoops e f row xs w = anyRows f (row :: rows) w := by
  induction rows generalizing xs w row with
  | nil =>
    cases r
    rw [anyLoops, run_ok (carsCdrs_end g hn), anyRows, run_bind]
    cases hu : f row w with
    | none => exact hu
    | some p =>
      obtain ⟨u, w1⟩ := p
      cases u with
      | error t => exact hu
      | ok u =>
        show f row w = (if u = .f then anyRows f [] else pure u) w1
        by_cases h : u = .f
        · rw [if_pos h, hu, h]
          rfl
        · rw [if_neg h, hu]
          rfl
  | cons row' rows ih =>
    cases r with
    | cons s r =>
      rw [anyLoops, run_ok (carsCdrs_step g s), anyRows]
      refine bind_congr_run fun v w' hv => ?_
      by_cases h : v = .f
      · rw [if_pos (isFalse_iff.2 h), if_pos h]
        exact ih (r.after hf hv) ((g.step s).after hf hv)
      · rw [if_neg (fun h' => h (isFalse_iff.1 h')), if_neg h]

theorem anyLoop_rows (hf : Harmless f) {v : Obj} (r : Rows w.1 [x] rows zs) (hn : .null ∈ zs) (g : Good w.1 [x]) :
    anyLoop e (fun v => f [v]) v x w = anyRows f ([v] :: rows) w := by
  have hx := g.closed List.mem_cons_self
  have hc := g.clist x List.mem_cons_self
  induction rows generalizing x w v with
  | nil =>
    cases r
    have h1 : x = .null := by simpa [eq_comm] using hn
    subst h1
    rw [anyLoop, run_ok (run_nullList hx hc), anyRows, run_bind]
    cases hu : f [v] w with
    | none => exact hu
    | some p =>
      obtain ⟨u, w1⟩ := p
      cases u with
      | error t => exact hu
      | ok u =>
        show f [v] w = (if u = .f then anyRows f [] else pure u) w1
        by_cases h : u = .f
        · rw [if_pos h, hu, h]
          rfl
        · rw [if_neg h, hu]
          rfl
  | cons row' rows ih =>
    cases r with
    | cons s r =>
      have g' := g.step s
      obtain ⟨b, rfl, hl, rfl, rfl⟩ := s.one
      rw [anyLoop, run_ok (run_nullList hx hc), anyRows]
      show (f [v] >>= _) w = _
      refine bind_congr_run fun u w' hv => ?_
      have ex := (hf _ _ _ _ hv).1
      have g'' := g'.after hf hv
      by_cases h : u = .f
      · rw [if_pos (isFalse_iff.2 h), if_pos h, run_ok run_cdr, run_ok run_car, ex.cdr b hl, ex.car b hl]
        exact ih (r.after hf hv) g'' (g''.closed List.mem_cons_self) (g''.clist _ List.mem_cons_self)
      · rw [if_neg (fun h' => h (isFalse_iff.1 h')), if_neg h]

/-- **C99 for `any`**, if one of the lists ends. -/
theorem C99_any (hf : Harmless f) (r : Rows w.1 (x :: xs) rows zs) (hn : .null ∈ zs) (hs : Sound w.1 (x :: xs))
    (hc : ∀ y ∈ x :: xs, Clist w.1 y) : any e f x xs w = anyRows f rows w := by
  have g : Good w.1 (x :: xs) := ⟨hs, hc⟩
  rw [any]
  cases xs with
  | nil =>
    rw [if_pos (by rfl), run_ok (run_nullList (g.closed List.mem_cons_self) (g.clist _ List.mem_cons_self))]
    cases r with
    | nil =>
      have h1 : x = .null := by simpa [eq_comm] using hn
      subst h1
      rfl
    | cons s r =>
      have g' := g.step s
      obtain ⟨b, rfl, hl, rfl, rfl⟩ := s.one
      show (cdrM (.pair b) >>= _) w = _
      rw [run_ok run_cdr, run_ok run_car]
      exact anyLoop_rows hf r hn g'
  | cons y ys =>
    rw [if_neg (by simp)]
    cases r with
    | nil =>
      rw [run_ok (carsCdrs_end g hn)]
      rfl
    | cons s r =>
      rw [run_ok (carsCdrs_step g s)]
      exact anyLoops_rows hf r hn (g.step s)

theorem anyLoops_found (hf : Harmless f) {row last : List Obj} {rest : List (List Obj)} (r : Rows w.1 xs rest zs)
    (g : Good w.1 xs) (he : row :: rest = rows ++ [last]) {w' w'' : Heap × σ}
    (hr : anyRows f rows w = some (.ok .f, w')) {v : Obj} (hv : f last w' = some (.ok v, w'')) (hne : v ≠ .f) :
    anyLoops e f row xs w = some (.ok v, w'') := by
  induction rows generalizing xs w row rest with
  | nil =>
    have hw : w = w' := by cases hr; rfl
    subst hw
    injection he with h1 h2
    subst h1
    obtain ⟨q, hq⟩ := carsCdrs_total (e := e) g
    rw [anyLoops, run_ok hq]
    cases q with
    | none => exact hv
    | some q =>
      show (f row >>= _) w = _
      rw [run_ok hv, if_neg (fun h => hne (isFalse_iff.1 h))]
      rfl
  | cons row' rows ih =>
    injection he with h1 h2
    subst h1
    cases r with
    | nil => simp at h2
    | cons s r =>
      rw [anyLoops, run_ok (carsCdrs_step g s)]
      show (f row >>= _) w = _
      rw [anyRows, run_bind] at hr
      cases hu : f row w with
      | none => rw [hu] at hr; simp at hr
      | some p =>
        obtain ⟨u, w1⟩ := p
        rw [hu] at hr
        cases u with
        | error t => simp at hr
        | ok u =>
          simp only at hr
          by_cases h : u = .f
          · rw [if_pos h] at hr
            rw [run_ok hu, if_pos (isFalse_iff.2 h)]
            exact ih (r.after hf hu) ((g.step s).after hf hu) h2 hr
          · rw [if_neg h, run_pure] at hr
            injection hr with hr
            injection hr with hr _
            injection hr with hr
            exact absurd hr h

theorem anyLoop_found (hf : Harmless f) {y : Obj} {last : List Obj} {rest : List (List Obj)} (r : Rows w.1 [x] rest zs)
    (g : Good w.1 [x]) (he : [y] :: rest = rows ++ [last]) {w' w'' : Heap × σ}
    (hr : anyRows f rows w = some (.ok .f, w')) {v : Obj} (hv : f last w' = some (.ok v, w'')) (hne : v ≠ .f) :
    anyLoop e (fun v => f [v]) y x w = some (.ok v, w'') := by
  have hx := g.closed List.mem_cons_self
  have hc := g.clist x List.mem_cons_self
  induction rows generalizing x w y rest with
  | nil =>
    have hw : w = w' := by cases hr; rfl
    subst hw
    injection he with h1 h2
    subst h1
    rw [anyLoop, run_ok (run_nullList hx hc)]
    cases isNull x with
    | true => exact hv
    | false =>
      show (f [y] >>= _) w = _
      rw [run_ok hv, if_neg (fun h => hne (isFalse_iff.1 h))]
      rfl
  | cons row' rows ih =>
    injection he with h1 h2
    subst h1
    cases r with
    | nil => simp at h2
    | cons s r =>
      have g' := g.step s
      obtain ⟨b, rfl, hl, rfl, rfl⟩ := s.one
      rw [anyLoop, run_ok (run_nullList hx hc)]
      show (f [y] >>= _) w = _
      rw [anyRows, run_bind] at hr
      cases hu : f [y] w with
      | none => rw [hu] at hr; simp at hr
      | some p =>
        obtain ⟨u, w1⟩ := p
        rw [hu] at hr
        cases u with
        | error t => simp at hr
        | ok u =>
          simp only at hr
          have ex := (hf _ _ _ _ hu).1
          have g'' := g'.after hf hu
          by_cases h : u = .f
          · rw [if_pos h] at hr
            rw [run_ok hu, if_pos (isFalse_iff.2 h), run_ok run_cdr, run_ok run_car, ex.cdr b hl, ex.car b hl]
            exact ih (r.after hf hu) g'' h2 hr (g''.closed List.mem_cons_self) (g''.clist _ List.mem_cons_self)
          · rw [if_neg h, run_pure] at hr
            injection hr with hr
            injection hr with hr _
            injection hr with hr
            exact absurd hr h

/-- **C99 for `any` on circular lists**: the first result that is not `#f` is the result, whether the lists end or not;
the procedure is not called any more. -/
theorem C99_any_found (hf : Harmless f) {row : List Obj} (r : Rows w.1 (x :: xs) (rows ++ [row]) zs)
    (hs : Sound w.1 (x :: xs)) (hc : ∀ y ∈ x :: xs, Clist w.1 y) {w' w'' : Heap × σ}
    (hr : anyRows f rows w = some (.ok .f, w')) {v : Obj} (hv : f row w' = some (.ok v, w'')) (hne : v ≠ .f) :
    any e f x xs w = some (.ok v, w'') := by
  have g : Good w.1 (x :: xs) := ⟨hs, hc⟩
  rw [any]
  generalize he : rows ++ [row] = all at r
  cases xs with
  | nil =>
    rw [if_pos (by rfl), run_ok (run_nullList (g.closed List.mem_cons_self) (g.clist _ List.mem_cons_self))]
    cases r with
    | nil => simp at he
    | cons s r =>
      have g' := g.step s
      obtain ⟨b, rfl, hl, rfl, rfl⟩ := s.one
      show (cdrM (.pair b) >>= _) w = _
      rw [run_ok run_cdr, run_ok run_car]
      exact anyLoop_found hf r g' he.symm hr hv hne
  | cons y ys =>
    rw [if_neg (by simp)]
    cases r with
    | nil => simp at he
    | cons s r =>
      rw [run_ok (carsCdrs_step g s)]
      exact anyLoops_found hf r (g.step s) he.symm hr hv hne

/-! ### `every` -/

theorem everyLoops_rows (hf : Harmless f) {row : List Obj} (r : Rows w.1 xs rows zs) (hn : .null ∈ zs) (g : Good w.1 xs)
    (z : Obj) : everyLoops e f row xs w = everyRows f (row :: rows) z w := by
  induction rows generalizing xs w row z with
  | nil =>
    cases r
    rw [everyLoops, run_ok (carsCdrs_end g hn), everyRows, run_bind]
    cases hu : f row w with
    | none => exact hu
    | some p =>
      obtain ⟨u, w1⟩ := p
      cases u with
      | error t => exact hu
      | ok u =>
        show f row w = (if u = .f then pure .f else everyRows f [] u) w1
        by_cases h : u = .f
        · rw [if_pos h, hu, h]
          rfl
        · rw [if_neg h, hu]
          rfl
  | cons row' rows ih =>
    cases r with
    | cons s r =>
      rw [everyLoops, run_ok (carsCdrs_step g s), everyRows]
      refine bind_congr_run fun v w' hv => ?_
      by_cases h : v = .f
      · rw [if_pos (isFalse_iff.2 h), if_pos h, h]
      · rw [if_neg (fun h' => h (isFalse_iff.1 h')), if_neg h]
        exact ih (r.after hf hv) ((g.step s).after hf hv) v

theorem everyLoop_rows (hf : Harmless f) {v : Obj} (r : Rows w.1 [x] rows zs) (hn : .null ∈ zs) (g : Good w.1 [x])
    (z : Obj) : everyLoop e (fun v => f [v]) v x w = everyRows f ([v] :: rows) z w := by
  have hx := g.closed List.mem_cons_self
  have hc := g.clist x List.mem_cons_self
  induction rows generalizing x w v z with
  | nil =>
    cases r
    have h1 : x = .null := by simpa [eq_comm] using hn
    subst h1
    rw [everyLoop, run_ok (run_nullList hx hc), everyRows, run_bind]
    cases hu : f [v] w with
    | none => exact hu
    | some p =>
      obtain ⟨u, w1⟩ := p
      cases u with
      | error t => exact hu
      | ok u =>
        show f [v] w = (if u = .f then pure .f else everyRows f [] u) w1
        by_cases h : u = .f
        · rw [if_pos h, hu, h]
          rfl
        · rw [if_neg h, hu]
          rfl
  | cons row' rows ih =>
    cases r with
    | cons s r =>
      have g' := g.step s
      obtain ⟨b, rfl, hl, rfl, rfl⟩ := s.one
      rw [everyLoop, run_ok (run_nullList hx hc), everyRows]
      show (f [v] >>= _) w = _
      refine bind_congr_run fun u w' hv => ?_
      have ex := (hf _ _ _ _ hv).1
      have g'' := g'.after hf hv
      by_cases h : u = .f
      · rw [if_pos (isFalse_iff.2 h), if_pos h, h]
      · rw [if_neg (fun h' => h (isFalse_iff.1 h')), if_neg h, run_ok run_cdr, run_ok run_car, ex.cdr b hl, ex.car b hl]
        exact ih (r.after hf hv) g'' u (g''.closed List.mem_cons_self) (g''.clist _ List.mem_cons_self)

/-- **C99 for `every`**, if one of the lists ends. -/
theorem C99_every (hf : Harmless f) (r : Rows w.1 (x :: xs) rows zs) (hn : .null ∈ zs) (hs : Sound w.1 (x :: xs))
    (hc : ∀ y ∈ x :: xs, Clist w.1 y) (yes : Obj) : every e yes f x xs w = everyRows f rows yes w := by
  have g : Good w.1 (x :: xs) := ⟨hs, hc⟩
  rw [every]
  cases xs with
  | nil =>
    rw [if_pos (by rfl), run_ok (run_nullList (g.closed List.mem_cons_self) (g.clist _ List.mem_cons_self))]
    cases r with
    | nil =>
      have h1 : x = .null := by simpa [eq_comm] using hn
      subst h1
      rfl
    | cons s r =>
      have g' := g.step s
      obtain ⟨b, rfl, hl, rfl, rfl⟩ := s.one
      show (cdrM (.pair b) >>= _) w = _
      rw [run_ok run_cdr, run_ok run_car]
      exact everyLoop_rows hf r hn g' _
  | cons y ys =>
    rw [if_neg (by simp)]
    cases r with
    | nil =>
      rw [run_ok (carsCdrs_end g hn)]
      rfl
    | cons s r =>
      rw [run_ok (carsCdrs_step g s)]
      exact everyLoops_rows hf r hn (g.step s) _

theorem everyLoops_found (hf : Harmless f) {row last : List Obj} {rest : List (List Obj)} (r : Rows w.1 xs rest zs)
    (g : Good w.1 xs) (he : row :: rest = rows ++ [last]) {w' w'' : Heap × σ} {z u : Obj}
    (hr : everyRows f rows z w = some (.ok u, w')) (hne : u ≠ .f) (hv : f last w' = some (.ok .f, w'')) :
    everyLoops e f row xs w = some (.ok .f, w'') := by
  induction rows generalizing xs w row rest z with
  | nil =>
    have hw : w = w' := by cases hr; rfl
    subst hw
    injection he with h1 h2
    subst h1
    obtain ⟨q, hq⟩ := carsCdrs_total (e := e) g
    rw [everyLoops, run_ok hq]
    cases q with
    | none => exact hv
    | some q =>
      show (f row >>= _) w = _
      rw [run_ok hv]
      rfl
  | cons row' rows ih =>
    injection he with h1 h2
    subst h1
    cases r with
    | nil => simp at h2
    | cons s r =>
      rw [everyLoops, run_ok (carsCdrs_step g s)]
      show (f row >>= _) w = _
      rw [everyRows, run_bind] at hr
      cases hu : f row w with
      | none => rw [hu] at hr; simp at hr
      | some p =>
        obtain ⟨t, w1⟩ := p
        rw [hu] at hr
        cases t with
        | error t => simp at hr
        | ok t =>
          simp only at hr
          by_cases h : t = .f
          · rw [if_pos h, run_pure] at hr
            injection hr with hr
            injection hr with hr _
            injection hr with hr
            exact absurd hr.symm hne
          · rw [if_neg h] at hr
            rw [run_ok hu, if_neg (fun h' => h (isFalse_iff.1 h'))]
            exact ih (r.after hf hu) ((g.step s).after hf hu) h2 hr

theorem everyLoop_found (hf : Harmless f) {y : Obj} {last : List Obj} {rest : List (List Obj)}
    (r : Rows w.1 [x] rest zs) (g : Good w.1 [x]) (he : [y] :: rest = rows ++ [last]) {w' w'' : Heap × σ} {z u : Obj}
    (hr : everyRows f rows z w = some (.ok u, w')) (hne : u ≠ .f) (hv : f last w' = some (.ok .f, w'')) :
    everyLoop e (fun v => f [v]) y x w = some (.ok .f, w'') := by
  have hx := g.closed List.mem_cons_self
  have hc := g.clist x List.mem_cons_self
  induction rows generalizing x w y rest z with
  | nil =>
    have hw : w = w' := by cases hr; rfl
    subst hw
    injection he with h1 h2
    subst h1
    rw [everyLoop, run_ok (run_nullList hx hc)]
    cases isNull x with
    | true => exact hv
    | false =>
      show (f [y] >>= _) w = _
      rw [run_ok hv]
      rfl
  | cons row' rows ih =>
    injection he with h1 h2
    subst h1
    cases r with
    | nil => simp at h2
    | cons s r =>
      have g' := g.step s
      obtain ⟨b, rfl, hl, rfl, rfl⟩ := s.one
      rw [everyLoop, run_ok (run_nullList hx hc)]
      show (f [y] >>= _) w = _
      rw [everyRows, run_bind] at hr
      cases hu : f [y] w with
      | none => rw [hu] at hr; simp at hr
      | some p =>
        obtain ⟨t, w1⟩ := p
        rw [hu] at hr
        cases t with
        | error t => simp at hr
        | ok t =>
          simp only at hr
          have ex := (hf _ _ _ _ hu).1
          have g'' := g'.after hf hu
          by_cases h : t = .f
          · rw [if_pos h, run_pure] at hr
            injection hr with hr
            injection hr with hr _
            injection hr with hr
            exact absurd hr.symm hne
          · rw [if_neg h] at hr
            rw [run_ok hu, if_neg (fun h' => h (isFalse_iff.1 h')), run_ok run_cdr, run_ok run_car, ex.cdr b hl,
              ex.car b hl]
            exact ih (r.after hf hu) g'' h2 hr (g''.closed List.mem_cons_self) (g''.clist _ List.mem_cons_self)

/-- **C99 for `every` on circular lists**: after the first result `#f` the procedure is not called any more, whether
the lists end or not. -/
theorem C99_every_found (hf : Harmless f) {row : List Obj} (r : Rows w.1 (x :: xs) (rows ++ [row]) zs)
    (hs : Sound w.1 (x :: xs)) (hc : ∀ y ∈ x :: xs, Clist w.1 y) {w' w'' : Heap × σ} {yes u : Obj}
    (hr : everyRows f rows yes w = some (.ok u, w')) (hne : u ≠ .f) (hv : f row w' = some (.ok .f, w'')) :
    every e yes f x xs w = some (.ok .f, w'') := by
  have g : Good w.1 (x :: xs) := ⟨hs, hc⟩
  rw [every]
  generalize he : rows ++ [row] = all at r
  cases xs with
  | nil =>
    rw [if_pos (by rfl), run_ok (run_nullList (g.closed List.mem_cons_self) (g.clist _ List.mem_cons_self))]
    cases r with
    | nil => simp at he
    | cons s r =>
      have g' := g.step s
      obtain ⟨b, rfl, hl, rfl, rfl⟩ := s.one
      show (cdrM (.pair b) >>= _) w = _
      rw [run_ok run_cdr, run_ok run_car]
      exact everyLoop_found hf r g' he.symm hr hne hv
  | cons y ys =>
    rw [if_neg (by simp)]
    cases r with
    | nil => simp at he
    | cons s r =>
      rw [run_ok (carsCdrs_step g s)]
      exact everyLoops_found hf r (g.step s) he.symm hr hne hv

/-! ### Dotted lists -/

/-- **C99: a dotted list is an error**, raised before the procedure is called, if it is the first list that is not a
pair that starts a list or a circular list. -/
theorem C99_dotted {as : List Nat} {y : Obj} {ys : List Obj} (hx : x :: xs = as.map .pair ++ y :: ys)
    (hs : Sound w.1 (x :: xs)) (hc : ∀ a ∈ as, Clist w.1 (.pair a)) (hd : Dotted w.1 y) (z yes : Obj) :
    fold e f z x xs w = some (.error e, w) ∧ any e f x xs w = some (.error e, w) ∧
      every e yes f x xs w = some (.error e, w) ∧ listIndex e f x xs w = some (.error e, w) := by
  have cl : Closed w.1 y := ⟨fun a ha => hs.objects a (by rw [hx, ha]; simp), hs.cdr⟩
  have g : Good w.1 (as.map .pair) := ⟨⟨fun a ha => hs.objects a (by rw [hx]; simp_all), hs.cdr⟩, fun u hu => by
    obtain ⟨a, ha, rfl⟩ := List.mem_map.1 hu
    exact hc a ha⟩
  have hcc : (carsCdrs e (x :: xs) : M ε σ _) w = some (.error e, w) := by
    rw [hx]
    exact carsCdrs_dotted g cl hd
  cases xs with
  | nil =>
    have hy : x = y := by
      cases as with
      | nil => exact (List.cons.inj hx).1
      | cons a as => simp at hx
    subst hy
    have hnl := run_nullList_dotted (e := e) (σ := σ) (w := w) cl hd
    refine ⟨?_, ?_, ?_, ?_⟩
    · rw [fold, if_pos (by rfl), foldLoop, run_error hnl]
    · rw [any, if_pos (by rfl), run_error hnl]
    · rw [every, if_pos (by rfl), run_error hnl]
    · rw [listIndex, if_pos (by rfl), indexLoop, run_error hnl]
  | cons x' xs =>
    refine ⟨?_, ?_, ?_, ?_⟩
    · rw [fold, if_neg (by simp), foldLoops, run_error hcc]
    · rw [any, if_neg (by simp), run_error hcc]
    · rw [every, if_neg (by simp), run_error hcc]
    · rw [listIndex, if_neg (by simp), indexLoops, run_error hcc]

/-! ### A circular list and a list of two elements -/

/-- `#0=(a . #0#)` at 0, `(b c)` at 1. -/
def sampleHeap : Heap :=
  { next := 3, car := fun n => .atom (10 + n), cdr := fun n => if n = 0 then .pair 0 else if n = 1 then .pair 2 else .null }

theorem sample_circular : Circular sampleHeap (.pair 0) := by
  intro n
  induction n with
  | zero => exact ⟨[], 0, rfl, .nil _⟩
  | succ n ih =>
    obtain ⟨as, b, hl, s⟩ := ih
    exact ⟨0 :: as, b, by simp [hl], .cons (by decide) s⟩

theorem sample_proper : Proper sampleHeap (.pair 1) :=
  ⟨[1, 2], .cons (by decide) (.cons (by decide) (.nil _))⟩

theorem sample_sound : Sound sampleHeap [.pair 0, .pair 1] := by
  refine ⟨fun a ha => ?_, fun a b ha hb => ?_⟩
  · have : a = 0 ∨ a = 1 := by simpa using ha
    show a < 3
    omega
  · show b < 3
    change (if a = 0 then Obj.pair 0 else if a = 1 then .pair 2 else .null) = .pair b at hb
    split at hb
    · injection hb; omega
    · split at hb
      · injection hb; omega
      · cases hb

theorem sample_rows : Rows sampleHeap [.pair 0, .pair 1] [[.atom 10, .atom 11], [.atom 10, .atom 12]] [.pair 0, .null] :=
  .cons ⟨[0, 1], rfl, by decide, rfl, rfl⟩ (.cons ⟨[0, 2], rfl, by decide, rfl, rfl⟩ (.nil _))

/-- A procedure that counts its calls and returns its last operand. -/
def sampleProc (args : List Obj) : M String Nat Obj := fun w => some (.ok (args.getLastD .null), (w.1, w.2 + 1))

theorem sample_harmless : Harmless sampleProc := by
  intro args w r w' h
  cases h
  exact ⟨⟨Nat.le_refl _, fun _ _ => rfl, fun _ _ => rfl⟩, id⟩

/-- A non-trivial case: `map` along a circular list and a list of two elements calls the procedure twice. -/
example : map sampleProc (.pair 0) [.pair 1] (sampleHeap, 0) = some (.ok [.atom 11, .atom 12], (sampleHeap, 2)) :=
  C99_map (w := (sampleHeap, 0)) sample_harmless sample_rows (List.mem_cons_of_mem _ List.mem_cons_self)

/-- A non-trivial case for `fold`, `any`, `every` and `list-index`. -/
example : fold "dotted" sampleProc .null (.pair 0) [.pair 1] (sampleHeap, 0) = some (.ok .null, (sampleHeap, 2)) ∧
    any "dotted" sampleProc (.pair 0) [.pair 1] (sampleHeap, 0) = some (.ok (.atom 11), (sampleHeap, 1)) ∧
    every "dotted" (.atom 1) sampleProc (.pair 0) [.pair 1] (sampleHeap, 0) =
      some (.ok (.atom 12), (sampleHeap, 2)) ∧
    listIndex "dotted" sampleProc (.pair 0) [.pair 1] (sampleHeap, 0) = some (.ok (some 0), (sampleHeap, 1)) := by
  have hc : ∀ y ∈ [Obj.pair 0, Obj.pair 1], Clist sampleHeap y := by
    intro y hy
    rcases List.mem_cons.1 hy with rfl | hy
    · exact .inr sample_circular
    · rcases List.mem_cons.1 hy with rfl | hy
      · exact .inl sample_proper
      · simp at hy
  have r := sample_rows
  have hn : Obj.null ∈ [Obj.pair 0, Obj.null] := by simp
  exact ⟨C99_fold (w := (sampleHeap, 0)) sample_harmless r hn sample_sound hc _,
    C99_any (w := (sampleHeap, 0)) sample_harmless r hn sample_sound hc,
    C99_every (w := (sampleHeap, 0)) sample_harmless r hn sample_sound hc _,
    C99_listIndex (w := (sampleHeap, 0)) sample_harmless r hn sample_sound hc⟩

/-- A non-trivial case with circular lists only. -/
example : any "dotted" sampleProc (.pair 0) [.pair 0] (sampleHeap, 0) = some (.ok (.atom 10), (sampleHeap, 1)) := by
  have hc : ∀ y ∈ [Obj.pair 0, Obj.pair 0], Clist sampleHeap y := fun y hy => by
    have : y = .pair 0 := by simpa using hy
    exact this ▸ .inr sample_circular
  exact C99_any_found (rows := []) (zs := [.pair 0, .pair 0]) (w := (sampleHeap, 0)) sample_harmless
    (.cons ⟨[0, 0], rfl, by decide, rfl, rfl⟩ (.nil _))
    ⟨fun a ha => by
      have : a = 0 := by simpa using ha
      subst this
      decide, sample_sound.cdr⟩ hc rfl rfl (by decide)

/-- A non-trivial case of a dotted list: the procedure is not called. -/
example : any "dotted" sampleProc (.pair 0) [.atom 5] (sampleHeap, 0) = some (.error "dotted", (sampleHeap, 0)) :=
  (C99_dotted (w := (sampleHeap, 0)) (as := [0]) (y := .atom 5) (ys := []) rfl
    ⟨fun a ha => by
      have : a = 0 := by simpa using ha
      subst this
      decide, sample_sound.cdr⟩
    (fun a ha => by
      have : a = 0 := by simpa using ha
      subst this
      exact .inr sample_circular) ⟨[], 5, .nil _⟩ .null .null).2.1

end Meevax.ListWalk
