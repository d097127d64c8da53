import Verif.Spec.Quasiquote

/-!
C71: quasiquotation.
-/

namespace Meevax.Quasi

open Rules (Form)

variable {K : Keys}

theorem size_pos (f : Form) : 0 < f.size := by
  cases f <;> simp [Form.size]

theorem Runs.append {σ : Type} {ev : Form → σ → Option (Form × σ)} {o o' : List (Form × Form)} {s s' : σ}
    (h : Runs ev (o ++ o') s s') : ∃ m, Runs ev o' s m ∧ Runs ev o m s' := by
  induction o generalizing s' with
  | nil => exact ⟨s', h, .nil⟩
  | cons p o ih =>
    obtain ⟨e, v⟩ := p
    rw [List.cons_append] at h
    cases h with
    | cons h1 h2 =>
      obtain ⟨m, h3, h4⟩ := ih h1
      exact ⟨m, h3, .cons h4 h2⟩

theorem append2_prepend (vs : List Form) (w : Form) : append2 (prepend vs .nil) w = prepend vs w := by
  induction vs with
  | nil => rfl
  | cons v vs ih =>
    show Form.cons v (append2 (prepend vs .nil) w) = _
    rw [ih]
    rfl

theorem isList_prepend (vs : List Form) {w : Form} (h : isList w = true) : isList (prepend vs w) = true := by
  induction vs with
  | nil => exact h
  | cons v vs ih => exact ih

theorem keyword_of {x : Nat} (h : K.isUnquote x = true ∨ K.isSplicing x = true ∨ K.isQuasi x = true) :
    Keyword K (.id x) := ⟨x, rfl, h⟩

/-- The value of a list without keywords among its elements is a list. -/
theorem reads_list {D : Nat} : ∀ {xs : Form} {o : List (Form × Form)} {v : Form}, Reads K (D + 1) xs o v →
    (∀ x ∈ xs.toList.getD [], ¬ Keyword K x) → xs.toList.isSome = true → isList v = true := by
  intro xs
  induction xs with
  | nil => intro o v h _ _; cases h; rfl
  | cons a d _ ihd =>
    intro o v h hk hl
    have hl' : d.toList.isSome = true := by
      simpa [Form.toList] using hl
    obtain ⟨l, hd⟩ := Option.isSome_iff_exists.1 hl'
    have ha : ¬ Keyword K a := hk a (by simp [Form.toList, hd])
    have hk' : ∀ x ∈ d.toList.getD [], ¬ Keyword K x := by
      intro x hx
      refine hk x ?_
      rw [hd] at hx
      simp [Form.toList, hd]
      exact Or.inr (by simpa using hx)
    generalize hq : Form.cons a d = q at h
    cases h with
    | simple hs => subst hq; cases hs
    | unquote hu => cases hq; exact absurd (keyword_of (Or.inl hu)) ha
    | inner hu _ => cases hq; exact absurd (keyword_of (Or.inl hu)) ha
    | innerSplicing hu _ => cases hq; exact absurd (keyword_of (Or.inr (Or.inl hu))) ha
    | quasi hu _ => cases hq; exact absurd (keyword_of (Or.inr (Or.inr hu))) ha
    | @pair _ _ _ _ _ _ w _ _ _ h2 =>
      cases hq
      show isList w = true
      exact ihd h2 hk' hl'
    | splice _ h2 => cases hq; exact isList_prepend _ (ihd h2 hk' hl')
    | vec => cases hq
  | _ => intro o v _ _ hl; simp [Form.toList] at hl

/-- No template begins with a `,@` that is not an element. -/
theorem reads_splicing {u : Nat} {d : Form} {o : List (Form × Form)} {v : Form} (hK : K.Plain)
    (hu : K.isSplicing u = true) (h : Reads K 1 (.cons (.id u) d) o v) : False := by
  generalize hq : Form.cons (.id u) d = q at h
  generalize hD : 1 = D at h
  cases h with
  | simple hs => subst hq; cases hs
  | unquote h =>
    cases hq
    have := (hK.one _ h).1
    simp [hu] at this
  | inner => cases hD
  | innerSplicing => cases hD
  | quasi h =>
    cases hq
    have := hK.two _ hu
    simp [h] at this
  | pair h => cases hq; exact h (keyword_of (Or.inr (Or.inl hu)))
  | splice => cases hq
  | vec => cases hq

/-- The expansion of a template does what the template stands for. -/
theorem expand_reads (hK : K.Plain) {D : Nat} {f : Form} {o : List (Form × Form)} {v : Form}
    (h : Reads K D f o v) : ∀ n depth, D = depth + 1 → f.size ≤ n →
    ∃ t, K.expand n f depth = some t ∧
      ∀ {σ : Type} (ev : Form → σ → Option (Form × σ)) (s s' : σ), Runs ev o s s' →
        K.eval ev t s = some (v, s') := by
  induction h with
  | @simple D f hs =>
    intro n depth hD hn
    obtain ⟨n, rfl⟩ : ∃ m, n = m + 1 := ⟨n - 1, by have := size_pos f; omega⟩
    cases hs <;>
    · refine ⟨_, by rw [Keys.expand]; all_goals (intros; simp_all), ?_⟩
      intro σ ev s s' hr
      cases hr
      simp [Keys.eval, Keys.strip]
  | @unquote u e v hu =>
    intro n depth hD hn
    obtain ⟨n, rfl⟩ : ∃ m, n = m + 1 := ⟨n - 1, by have := size_pos (two (.id u) e); omega⟩
    obtain rfl : depth = 0 := by omega
    refine ⟨.user e, by simp [two, Keys.expand, Keys.unquoteAt, hu], ?_⟩
    intro σ ev s s' hr
    cases hr with
    | cons h1 h2 => cases h1; exact h2
  | @inner D u t o v hu _ ih =>
    intro n depth hD hn
    obtain ⟨n, rfl⟩ : ∃ m, n = m + 1 := ⟨n - 1, by have := size_pos (two (.id u) t); omega⟩
    obtain ⟨x, h1, h2⟩ := ih n (depth - 1) (by omega) (by simp [two, Form.size] at hn; omega)
    refine ⟨.list (.symbol K.unquote) x, ?_, ?_⟩
    · simp only [two, Keys.expand, Keys.unquoteAt, hu, if_true]
      rw [if_neg (by omega), h1]
      rfl
    · intro σ ev s s' hr
      simp [Keys.eval, h2 ev s s' hr, two, hK.unquote u hu]
  | @innerSplicing D u t o v hu _ ih =>
    intro n depth hD hn
    obtain ⟨n, rfl⟩ : ∃ m, n = m + 1 := ⟨n - 1, by have := size_pos (two (.id u) t); omega⟩
    obtain ⟨x, h1, h2⟩ := ih n (depth - 1) (by omega) (by simp [two, Form.size] at hn; omega)
    have hn1 : K.isUnquote u = false := by
      by_contra hc
      have := (hK.one u (by simpa using hc)).1
      simp [hu] at this
    refine ⟨.list (.symbol K.splicing) x, ?_, ?_⟩
    · simp only [two, Keys.expand, Keys.unquoteAt, Keys.splicingAt, hu, hn1, if_true, Bool.false_eq_true, if_false]
      rw [if_neg (by omega), h1]
      rfl
    · intro σ ev s s' hr
      simp [Keys.eval, h2 ev s s' hr, two, hK.splicing u hu]
  | @quasi D u t o v hu _ ih =>
    intro n depth hD hn
    obtain ⟨n, rfl⟩ : ∃ m, n = m + 1 := ⟨n - 1, by have := size_pos (two (.id u) t); omega⟩
    obtain ⟨x, h1, h2⟩ := ih n (depth + 1) (by omega) (by simp [two, Form.size] at hn; omega)
    have hn1 : K.isUnquote u = false := by
      by_contra hc
      have := (hK.one u (by simpa using hc)).2
      simp [hu] at this
    have hn2 : K.isSplicing u = false := by
      by_contra hc
      have := hK.two u (by simpa using hc)
      simp [hu] at this
    refine ⟨.list (.symbol K.quasi) x, ?_, ?_⟩
    · simp only [two, Keys.expand, Keys.unquoteAt, Keys.splicingAt, Keys.quasiAt, hu, hn1, hn2, if_true,
        Bool.false_eq_true, if_false]
      rw [h1]
      rfl
    · intro σ ev s s' hr
      simp [Keys.eval, h2 ev s s' hr, two, hK.quasi u hu]
  | @pair D a d o o' v w hk hs ha hd iha ihd =>
    intro n depth hD hn
    obtain ⟨n, rfl⟩ : ∃ m, n = m + 1 := ⟨n - 1, by have := size_pos (Form.cons a d); omega⟩
    obtain rfl : depth = D := by omega
    obtain ⟨x, h1, h2⟩ := iha n depth rfl (by simp [Form.size] at hn; omega)
    obtain ⟨y, h3, h4⟩ := ihd n depth rfl (by simp [Form.size] at hn; omega)
    have k1 : K.unquoteAt a = false := by
      cases a <;> simp [Keys.unquoteAt]
      rename_i z
      by_contra hc
      exact hk (keyword_of (Or.inl (by simpa using hc)))
    have k2 : K.splicingAt a = false := by
      cases a <;> simp [Keys.splicingAt]
      rename_i z
      by_contra hc
      exact hk (keyword_of (Or.inr (Or.inl (by simpa using hc))))
    have k3 : K.quasiAt a = false := by
      cases a <;> simp [Keys.quasiAt]
      rename_i z
      by_contra hc
      exact hk (keyword_of (Or.inr (Or.inr (by simpa using hc))))
    refine ⟨.cons x y, ?_, ?_⟩
    · have key : ∀ b r, a = .cons b r → ¬ (depth = 0 ∧ K.splicingAt b = true) := by
        rintro b r rfl ⟨rfl, hb⟩
        cases b <;> simp only [Keys.splicingAt, Bool.false_eq_true] at hb
        exact reads_splicing hK hb ha
      cases a with
      | cons b r =>
        simp only [Keys.expand, k1, k2, k3, Bool.false_eq_true, if_false, if_neg (key b r rfl), h1, h3]
        rfl
      | _ =>
        simp only [Keys.expand, k1, k2, k3, Bool.false_eq_true, if_false, h1, h3]
        rfl
    · intro σ ev s s' hr
      obtain ⟨m, r1, r2⟩ := hr.append
      simp [Keys.eval, h4 ev s m r1, h2 ev m s' r2]
  | @splice u e d vs o w hu hd ihd =>
    intro n depth hD hn
    obtain ⟨n, rfl⟩ : ∃ m, n = m + 1 := ⟨n - 1, by have := size_pos (Form.cons (two (.id u) e) d); omega⟩
    obtain rfl : depth = 0 := by omega
    by_cases hnil : d = .nil
    · subst hnil
      refine ⟨.user e, by simp [two, Keys.expand, Keys.unquoteAt, Keys.splicingAt, Keys.quasiAt, hu], ?_⟩
      intro σ ev s s' hr
      cases hd
      cases hr with
      | cons h1 h2 => cases h1; exact h2
    · obtain ⟨y, h3, h4⟩ := ihd n 0 rfl (by simp [Form.size] at hn; omega)
      refine ⟨.append (.user e) y, ?_, ?_⟩
      · simp [two, Keys.expand, Keys.unquoteAt, Keys.splicingAt, Keys.quasiAt, hu, hnil, h3]
      · intro σ ev s s' hr
        cases hr with
        | @cons _ _ _ _ m _ h1 h2 => simp [Keys.eval, h4 ev s m h1, h2, append2_prepend]
  | @vec D xs o v hk hl hx ih =>
    intro n depth hD hn
    obtain ⟨n, rfl⟩ : ∃ m, n = m + 1 := ⟨n - 1, by have := size_pos (Form.vec xs); omega⟩
    obtain ⟨x, h1, h2⟩ := ih n depth hD (by simp [Form.size] at hn; omega)
    refine ⟨.listToVector x, by simp [Keys.expand, h1], ?_⟩
    intro σ ev s s' hr
    simp [Keys.eval, h2 ev s s' hr, reads_list hx hk hl]

/-- **C71**: a quasiquotation evaluates each unquoted expression of its own level once, from right to left,
and no other expression; its value is the template with the values in the places of the unquoted
expressions, the elements of the spliced lists among the elements around them, and inner quasiquotations
as they were written. -/
theorem C71_quasiquote (hK : K.Plain) {f : Form} {o : List (Form × Form)} {v : Form} (h : Reads K 1 f o v) :
    ∃ t, K.quasiquote f = some t ∧
      ∀ {σ : Type} (ev : Form → σ → Option (Form × σ)) (s s' : σ), Runs ev o s s' →
        K.eval ev t s = some (v, s') :=
  expand_reads hK h _ 0 rfl (Nat.le_refl _)

/-- No keyword occurs in `f`; vectors hold lists. -/
def Free (K : Keys) : Form → Prop
  | .id x => ¬ Keyword K (.id x)
  | .cons a d => Free K a ∧ Free K d
  | .vec xs => xs.toList.isSome = true ∧ Free K xs
  | _ => True

theorem free_elements : ∀ {xs : Form}, Free K xs → ∀ x ∈ xs.toList.getD [], ¬ Keyword K x := by
  intro xs
  induction xs with
  | cons a d _ ihd =>
    intro h x hx
    cases hd : d.toList with
    | none => simp [Form.toList, hd] at hx
    | some l =>
      simp only [Form.toList, hd, Option.map_some, Option.getD_some, List.mem_cons] at hx
      rcases hx with rfl | hx
      · rintro ⟨y, rfl, hy⟩
        exact h.1 ⟨y, rfl, hy⟩
      · exact ihd h.2 x (by rw [hd]; exact hx)
  | _ => intro _ x hx; simp [Form.toList] at hx

theorem free_reads (D : Nat) {f : Form} (h : Free K f) : Reads K (D + 1) f [] (K.strip f) := by
  induction f with
  | cons a d iha ihd =>
    refine Reads.pair (o := []) (o' := []) ?_ ?_ (iha h.1) (ihd h.2)
    · rintro ⟨x, rfl, hx⟩
      exact h.1 ⟨x, rfl, hx⟩
    · rintro u e _ rfl
      by_contra hc
      exact h.1.1 (keyword_of (Or.inr (Or.inl (by simpa using hc))))
  | vec xs ih => exact Reads.vec (free_elements h.2) h.1 (ih h.2)
  | nil => exact .simple .nil
  | bool b => exact .simple (.bool b)
  | num n => exact .simple (.num n)
  | atom n => exact .simple (.atom n)
  | undefined => exact .simple .undefined
  | id x => exact .simple (.id x)

/-- **C71**: a quasiquotation without keywords in it is a quotation. -/
theorem C71_quote (hK : K.Plain) {f : Form} (h : Free K f) :
    ∃ t, K.quasiquote f = some t ∧
      ∀ {σ : Type} (ev : Form → σ → Option (Form × σ)) (s : σ),
        K.eval ev t s = K.eval ev (.quote f) s := by
  obtain ⟨t, h1, h2⟩ := C71_quasiquote hK (free_reads 0 h)
  exact ⟨t, h1, fun ev s => h2 ev s s .nil⟩

theorem prepend_inj : ∀ {vs ws : List Form}, prepend vs .nil = prepend ws .nil → vs = ws
  | [], [], _ => rfl
  | [], _ :: _, h => by cases h
  | _ :: _, [], h => by cases h
  | v :: vs, w :: ws, h => by
    injection h with h1 h2
    rw [h1, prepend_inj h2]

/-- **C71**: the template determines which expressions are evaluated, and these and their values determine
the result. -/
theorem C71_unique (hK : K.Plain) {D : Nat} {f : Form} {o o' : List (Form × Form)} {v v' : Form}
    (h : Reads K D f o v) (h' : Reads K D f o' v') :
    o.map Prod.fst = o'.map Prod.fst ∧ (o = o' → v = v') := by
  have no1 : ∀ {x}, K.isUnquote x = true → K.isSplicing x = true → False := fun h1 h2 => by
    have := (hK.one _ h1).1; simp [h2] at this
  have no2 : ∀ {x}, K.isUnquote x = true → K.isQuasi x = true → False := fun h1 h2 => by
    have := (hK.one _ h1).2; simp [h2] at this
  have no3 : ∀ {x}, K.isSplicing x = true → K.isQuasi x = true → False := fun h1 h2 => by
    have := hK.two _ h1; simp [h2] at this
  induction h generalizing o' v' with
  | simple hs =>
    cases hs <;> (cases h'; exact ⟨rfl, fun _ => rfl⟩)
  | @unquote u e v hu =>
    generalize hD : 1 = D at h'
    generalize hq : two (.id u) e = q at h'
    cases h' with
    | simple hs => subst hq; cases hs
    | unquote _ =>
      cases hq
      refine ⟨rfl, fun e => ?_⟩
      simpa using e
    | inner => cases hD
    | innerSplicing => cases hD
    | quasi hu' => cases hq; exact (no2 hu hu').elim
    | pair hk => cases hq; exact (hk (keyword_of (Or.inl hu))).elim
    | splice => cases hq
    | vec => cases hq
  | @inner D u t o v hu _ ih =>
    generalize hD : D + 2 = D' at h'
    generalize hq : two (.id u) t = q at h'
    cases h' with
    | simple hs => subst hq; cases hs
    | unquote _ => cases hD
    | inner _ h2 =>
      cases hD
      cases hq
      obtain ⟨i1, i2⟩ := ih h2
      exact ⟨i1, fun e => by rw [i2 e]⟩
    | innerSplicing hu' => cases hq; exact (no1 hu hu').elim
    | quasi hu' => cases hq; exact (no2 hu hu').elim
    | pair hk => cases hq; exact (hk (keyword_of (Or.inl hu))).elim
    | splice => cases hD
    | vec => cases hq
  | @innerSplicing D u t o v hu _ ih =>
    generalize hD : D + 2 = D' at h'
    generalize hq : two (.id u) t = q at h'
    cases h' with
    | simple hs => subst hq; cases hs
    | unquote _ => cases hD
    | innerSplicing _ h2 =>
      cases hD
      cases hq
      obtain ⟨i1, i2⟩ := ih h2
      exact ⟨i1, fun e => by rw [i2 e]⟩
    | inner hu' => cases hq; exact (no1 hu' hu).elim
    | quasi hu' => cases hq; exact (no3 hu hu').elim
    | pair hk => cases hq; exact (hk (keyword_of (Or.inr (Or.inl hu)))).elim
    | splice => cases hD
    | vec => cases hq
  | @quasi D u t o v hu _ ih =>
    generalize hD : D + 1 = D' at h'
    generalize hq : two (.id u) t = q at h'
    cases h' with
    | simple hs => subst hq; cases hs
    | unquote hu' => cases hq; exact (no2 hu' hu).elim
    | quasi _ h2 =>
      cases hD
      cases hq
      obtain ⟨i1, i2⟩ := ih h2
      exact ⟨i1, fun e => by rw [i2 e]⟩
    | inner hu' => cases hq; exact (no2 hu' hu).elim
    | innerSplicing hu' => cases hq; exact (no3 hu' hu).elim
    | pair hk => cases hq; exact (hk (keyword_of (Or.inr (Or.inr hu)))).elim
    | splice => cases hq
    | vec => cases hq
  | @pair D a d o₁ o₂ v w hk hs _ _ iha ihd =>
    generalize hD : D + 1 = D' at h'
    generalize hq : Form.cons a d = q at h'
    cases h' with
    | simple hs => subst hq; cases hs
    | unquote hu => cases hq; exact (hk (keyword_of (Or.inl hu))).elim
    | inner hu => cases hq; exact (hk (keyword_of (Or.inl hu))).elim
    | innerSplicing hu => cases hq; exact (hk (keyword_of (Or.inr (Or.inl hu)))).elim
    | quasi hu => cases hq; exact (hk (keyword_of (Or.inr (Or.inr hu)))).elim
    | pair _ _ h1 h2 =>
      cases hD
      cases hq
      obtain ⟨i1, i2⟩ := iha h1
      obtain ⟨j1, j2⟩ := ihd h2
      refine ⟨by rw [List.map_append, List.map_append, i1, j1], fun e => ?_⟩
      have hlen : _ = _ := congrArg List.length i1
      rw [List.length_map, List.length_map] at hlen
      obtain ⟨e1, e2⟩ := List.append_inj e hlen
      rw [i2 e1, j2 e2]
    | splice hu =>
      cases hq
      cases hD
      have := hs _ _ rfl rfl
      simp [hu] at this
    | vec => cases hq
  | @splice u e d vs o w hu _ ih =>
    generalize hD : 1 = D' at h'
    generalize hq : Form.cons (two (.id u) e) d = q at h'
    cases h' with
    | simple hs => subst hq; cases hs
    | unquote hu => cases hq
    | inner hu => cases hq
    | innerSplicing hu => cases hq
    | quasi hu => cases hq
    | pair _ hs =>
      cases hq
      cases hD
      have := hs _ _ rfl rfl
      simp [hu] at this
    | splice _ h2 =>
      cases hq
      obtain ⟨i1, i2⟩ := ih h2
      refine ⟨by simp [i1], fun e => ?_⟩
      simp only [List.cons.injEq, Prod.mk.injEq, true_and] at e
      rw [i2 e.2, prepend_inj e.1]
    | vec => cases hq
  | @vec D xs o v _ _ _ ih =>
    generalize hD : D + 1 = D' at h'
    generalize hq : Form.vec xs = q at h'
    cases h' with
    | simple hs => subst hq; cases hs
    | vec _ _ h2 =>
      cases hD
      cases hq
      obtain ⟨i1, i2⟩ := ih h2
      exact ⟨i1, fun e => by rw [i2 e]⟩
    | _ => cases hq

/-! ### An example -/

/-- `unquote` is 1, `unquote-splicing` 2, `quasiquote` 3. -/
def keys : Keys where
  isUnquote := (· == 1)
  isSplicing := (· == 2)
  isQuasi := (· == 3)
  symbol := id
  unquote := 1
  splicing := 2
  quasi := 3

theorem keys_plain : keys.Plain where
  unquote := by simp [keys]
  splicing := by simp [keys]
  quasi := by simp [keys]
  one := by simp [keys]
  two := by simp [keys]

/-- `` `(1 ,@x `(,y ,(a ,z)) . #(,y)) `` with `x = (5 6)`, `y = 7`, `z = 8` is
`` (1 5 6 `(,y ,(a 8)) . #(7)) ``. -/
theorem ex_reads : Reads keys 1
    (.cons (.num 1) (.cons (two (.id 2) (.id 20)) (.cons
      (two (.id 3) (.cons (two (.id 1) (.id 21))
        (.cons (two (.id 1) (.cons (.id 10) (.cons (two (.id 1) (.id 22)) .nil))) .nil)))
      (.vec (.cons (two (.id 1) (.id 21)) .nil)))))
    [(.id 20, prepend [.num 5, .num 6] .nil), (.id 22, .num 8), (.id 21, .num 7)]
    (.cons (.num 1) (prepend [.num 5, .num 6] (.cons
      (two (.id 3) (.cons (two (.id 1) (.id 21))
        (.cons (two (.id 1) (.cons (.id 10) (.cons (.num 8) .nil))) .nil)))
      (.vec (.cons (.num 7) .nil))))) := by
  have nk : ∀ {f : Form}, (∀ x, f ≠ .id x) → ¬ Keyword keys f := fun h ⟨x, e, _⟩ => h x e
  refine .pair (o := []) (nk (by simp)) (by simp [two]) (.simple (.num 1)) ?_
  refine .splice (by rfl) ?_
  refine .pair (o := [(.id 22, .num 8)]) (o' := [(.id 21, .num 7)]) (nk (by simp [two])) ?_ ?_ ?_
  · intro u e _ h
    cases h
    rfl
  · refine .quasi (by rfl) ?_
    refine .pair (o := []) (nk (by simp [two])) (by simp) (.inner (by rfl) (.simple (.id 21))) ?_
    refine .pair (o := [(.id 22, .num 8)]) (o' := []) (nk (by simp [two])) (by simp) ?_ (.simple .nil)
    refine .inner (by rfl) ?_
    refine .pair (o := []) ?_ (by simp [two]) (.simple (.id 10)) ?_
    · rintro ⟨x, h, h'⟩
      cases h
      simp [keys] at h'
    refine .pair (o := [(.id 22, .num 8)]) (o' := []) (nk (by simp [two])) ?_ (.unquote (by rfl)) (.simple .nil)
    intro u e _ h
    cases h
    rfl
  · refine .vec ?_ (by rfl) ?_
    · intro x hx
      simp [Form.toList] at hx
      subst hx
      exact nk (by simp [two])
    · refine .pair (o := [(.id 21, .num 7)]) (o' := []) (nk (by simp [two])) ?_ (.unquote (by rfl)) (.simple .nil)
      intro u e _ h
      cases h
      rfl

end Meevax.Quasi
