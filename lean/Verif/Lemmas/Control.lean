import Verif.Spec.Control

/-
The invariant behind C41-C43: the log is balanced, the extents that are entered are those the running
code is lexically inside of, the registers hold what belongs to these extents.
-/

namespace Meevax.Control

variable {C W S P : Type}

/-- The content of `a[0]` while the code on top of this stack runs. -/
def register : Stack C W P → Extents C P
  | [] => []
  | .next _ :: s => register s
  | .entered _ _ _ :: s => register s
  | .body e :: s => e :: register s
  | .result _ :: s => register s
  | .unwound source _ :: _ => source
  | .unwoundLast source _ :: _ => source
  | .rewound target :: _ => target.tail
  | .rethrow _ :: s => register s
  | .stop xs :: _ => xs
  | .rewinding _ :: _ => []
  | .finish _ :: _ => []
  | .resume _ _ :: _ => []

theorem register_eq_lexical : ∀ {s : Stack C W P}, insideAfter s = false → register s = lexical s
  | [], _ => rfl
  | .next _ :: s, h => by
      simp only [insideAfter, List.any_cons, Frame.isAfter, Bool.false_or] at h
      exact register_eq_lexical (s := s) h
  | .entered _ _ _ :: s, h => by
      simp only [insideAfter, List.any_cons, Frame.isAfter, Bool.false_or] at h
      exact register_eq_lexical (s := s) h
  | .body e :: s, h => by
      simp only [insideAfter, List.any_cons, Frame.isAfter, Bool.false_or] at h
      simp only [register, lexical, register_eq_lexical (s := s) h]
  | .result _ :: s, h => by
      simp only [insideAfter, List.any_cons, Frame.isAfter, Bool.false_or] at h
      exact register_eq_lexical (s := s) h
  | .unwound _ _ :: _, h => by simp [insideAfter, Frame.isAfter] at h
  | .unwoundLast _ _ :: _, h => by simp [insideAfter, Frame.isAfter] at h
  | .rewound _ :: _, _ => rfl
  | .rethrow _ :: s, h => by
      simp only [insideAfter, List.any_cons, Frame.isAfter, Bool.false_or] at h
      exact register_eq_lexical (s := s) h
  | .stop _ :: _, _ => rfl
  | .rewinding _ :: _, _ => rfl
  | .finish _ :: _, _ => rfl
  | .resume _ _ :: _, _ => rfl

/-- What there is besides the running code: how many pairs there are, which list each pair starts, the
continuations. -/
structure World (C W P : Type) where
  n : Nat
  cell : Nat → Extents C P
  conts : List (Stack C W P × Extents C P)

/-- The thunks of an extent belong together. -/
def Fit (n : Nat) (e : Extent C P) (outer : Extents C P) : Prop :=
  match e.before with
  | .code _ => ∃ c, e.after = .code c
  | .setBindings b => e.after = .setBindings (bindingsOf outer) ∧ ∀ x ∈ b, x.2 < n
  | .setHandlers _ => e.after = .setHandlers (handlersOf outer)

/-- A list made of the pairs of the world. -/
inductive Known (w : World C W P) : Extents C P → Prop
  | nil : Known w []
  | cons {e t} : w.cell e.id = e :: t → e.id < w.n → Fit w.n e t → Known w t → Known w (e :: t)

/-- A stack that can be returned to: by code (`none`), or by a `windup!` to the given extents. -/
inductive Good (w : World C W P) : Option (Extents C P) → Stack C W P → Prop
  | nil : Good w none []
  | next {c s} : Good w none s → Good w none (.next c :: s)
  | entered {b body a s} : Good w none s → Good w none (.entered (.code b) body (.code a) :: s)
  | body {e s} : Good w none s → Known w (e :: lexical s) → Good w none (.body e :: s)
  | result {v s} : Good w none s → Good w none (.result v :: s)
  | unwound {x xs e t s} : Known w (x :: xs) → Good w (some (e :: t)) s →
      Good w none (.unwound (x :: xs) (e :: t) :: s)
  | unwoundLast {x xs s} : Known w (x :: xs) → Good w (some []) s →
      Good w none (.unwoundLast (x :: xs) [] :: s)
  | rewound {e t b s} : e.before = .code b → Good w (some (e :: t)) s →
      Good w none (.rewound (e :: t) :: s)
  | rethrow {v s} : Good w none s → Good w none (.rethrow v :: s)
  | stop {xs s} : Good w none (.stop xs :: s)
  | rewinding {e t s} : Good w (some (e :: t)) s → Good w (some t) (.rewinding (e :: t) :: s)
  | finish {t s} : Good w (some t) s → Good w (some t) (.finish t :: s)
  | resume {k v s t s'} : w.conts[k]? = some (s', t) → Known w t →
      Good w (some t) (.resume k v :: s)

theorem Known.tail {w : World C W P} {e : Extent C P} {t : Extents C P} (h : Known w (e :: t)) :
    Known w t := by cases h; assumption

theorem Known.fit {w : World C W P} {e : Extent C P} {t : Extents C P} (h : Known w (e :: t)) :
    Fit w.n e t := by cases h; assumption

theorem Known.cell {w : World C W P} {e : Extent C P} {t : Extents C P} (h : Known w (e :: t)) :
    w.cell e.id = e :: t := by cases h; assumption

theorem Good.known {w : World C W P} {o : Option (Extents C P)} {s : Stack C W P} (h : Good w o s) :
    ∀ t, o = some t → Known w t := by
  induction h <;> intro u hu <;> cases hu
  case rewinding ih => exact (ih _ rfl).tail
  case finish ih => exact ih _ rfl
  case resume h => exact h

theorem Good.known' {w : World C W P} {t : Extents C P} {s : Stack C W P} (h : Good w (some t) s) :
    Known w t := h.known t rfl

/-- The same pair starts the same list. -/
theorem sameCell_iff {w : World C W P} {a b : Extents C P} (ha : Known w a) (hb : Known w b) :
    sameCell a b = true ↔ a = b := by
  cases ha with
  | nil => cases hb <;> simp [sameCell]
  | cons h1 _ _ _ =>
    cases hb with
    | nil => simp [sameCell]
    | cons h2 _ _ _ =>
      simp only [sameCell, beq_iff_eq]
      constructor
      · intro h
        rw [h, h2] at h1
        exact h1.symm
      · intro h
        injection h with h _
        rw [h]

theorem Known.suffix_of_mem {w : World C W P} : ∀ {t : Extents C P}, Known w t → ∀ e ∈ t,
    ∃ t', w.cell e.id = e :: t' ∧ t'.length < t.length := by
  intro t h
  induction h with
  | nil => intro e he; cases he
  | @cons e t h1 _ _ _ ih =>
    intro e' he'
    rcases List.mem_cons.1 he' with rfl | h
    · exact ⟨t, h1, by simp⟩
    · obtain ⟨t', h3, h4⟩ := ih e' h
      exact ⟨t', h3, by simp only [List.length_cons]; omega⟩

/-- No pair occurs twice in a list. -/
theorem Known.notMem {w : World C W P} {e : Extent C P} {t : Extents C P} (h : Known w (e :: t)) :
    e.id ∉ t.map Extent.id := by
  intro hm
  obtain ⟨e', he', hid⟩ := List.mem_map.1 hm
  obtain ⟨t', h1, h2⟩ := h.tail.suffix_of_mem e' he'
  rw [hid, h.cell] at h1
  injection h1 with _ h1
  rw [h1] at h2
  omega

theorem Known.lt {w : World C W P} : ∀ {t : Extents C P}, Known w t → ∀ e ∈ t, e.id < w.n := by
  intro t h
  induction h with
  | nil => intro e he; cases he
  | cons _ h2 _ _ ih =>
    intro e' he'
    rcases List.mem_cons.1 he' with rfl | h
    · exact h2
    · exact ih _ h

/-- The world grows. -/
structure World.Le (w w' : World C W P) : Prop where
  n : w.n ≤ w'.n
  cell : ∀ i, i < w.n → w'.cell i = w.cell i
  conts : ∀ (k : Nat) (x : Stack C W P × Extents C P), w.conts[k]? = some x → w'.conts[k]? = some x

theorem Fit.mono {n m : Nat} {e : Extent C P} {t : Extents C P} (h : Fit n e t) (hle : n ≤ m) :
    Fit m e t := by
  unfold Fit at h ⊢
  split
  · rename_i h1; simpa only [h1] using h
  · rename_i h1
    simp only [h1] at h
    exact ⟨h.1, fun x hx => lt_of_lt_of_le' (h.2 x hx) hle⟩
  · rename_i h1; simpa only [h1] using h
where
  lt_of_lt_of_le' {a b c : Nat} (h : a < b) (h' : b ≤ c) : a < c := by omega

theorem Known.mono {w w' : World C W P} (hle : w.Le w') {t : Extents C P} (h : Known w t) :
    Known w' t := by
  induction h with
  | nil => exact .nil
  | cons h1 h2 h3 _ ih =>
    exact .cons (by rw [hle.cell _ h2]; exact h1) (by have := hle.n; omega) (h3.mono hle.n) ih

theorem Good.mono {w w' : World C W P} (hle : w.Le w') {o : Option (Extents C P)} {s : Stack C W P}
    (h : Good w o s) : Good w' o s := by
  induction h with
  | nil => exact .nil
  | next _ ih => exact .next ih
  | entered _ ih => exact .entered ih
  | body _ h ih => exact .body ih (h.mono hle)
  | result _ ih => exact .result ih
  | unwound h _ ih => exact .unwound (h.mono hle) ih
  | unwoundLast h _ ih => exact .unwoundLast (h.mono hle) ih
  | rewound h _ ih => exact .rewound h ih
  | rethrow _ ih => exact .rethrow ih
  | stop => exact .stop
  | rewinding _ ih => exact .rewinding ih
  | finish _ ih => exact .finish ih
  | resume h h' => exact .resume (hle.conts _ _ h) (h'.mono hle)

/-- A continuation that can be called. -/
def GoodCont (w : World C W P) (k : Stack C W P × Extents C P) : Prop :=
  Good w none k.1 ∧ lexical k.1 = k.2 ∧ register k.1 = k.2 ∧ Known w k.2

/-- The registers hold what belongs to these extents. -/
def Regs (s : Config C W S P) (xs : Extents C P) : Prop :=
  s.bindings = bindingsOf xs ∧ s.handlers = handlersOf xs

/-- The state of the machine fits the extents that are entered. -/
inductive Shape (w : World C W P) (xs : Extents C P) (s : Config C W S P) : Mode C W P → Prop
  | run {c v} : Good w none s.stack → xs = lexical s.stack → s.extents = register s.stack →
      Regs s xs → Shape w xs s (.run c v)
  | ret {v} : Good w none s.stack → xs = lexical s.stack → s.extents = register s.stack →
      Regs s xs → Shape w xs s (.ret v)
  | wound {v} : Good w (some xs) s.stack → s.extents = xs → Regs s xs → Shape w xs s (.ret v)
  | entering {v b body a rest} : s.stack = .entered b body a :: rest → Good w none rest →
      xs = lexical rest → s.extents = register rest → Fit s.fresh ⟨0, b, a⟩ xs →
      Regs s (⟨0, b, a⟩ :: xs) → Shape w xs s (.ret v)
  | reentering {v e rest} : s.stack = .rewound (e :: xs) :: rest → Good w (some (e :: xs)) rest →
      Regs s (e :: xs) → Shape w xs s (.ret v)
  | windup {target} : Known w target → Good w (some target) s.stack → Regs s xs →
      Shape w xs s (.windup xs target)
  | returned {v} : (s.stack = [] → xs = []) → Shape w xs s (.returned v)
  | thrown {v} : Shape w xs s (.thrown v)
  | exited : xs = lexical s.stack → Shape w xs s .exited
  | stuck : Shape w xs s .stuck

/-- The invariant. -/
structure Inv (w : World C W P) (xs : Extents C P) (s : Config C W S P) : Prop where
  n : w.n = s.fresh
  conts : w.conts = s.conts
  known : Known w xs
  balanced : Balanced s.log (xs.map Extent.id)
  good : ∀ k ∈ s.conts, GoodCont w k
  shape : Shape w xs s s.mode

theorem bindingsOf_code {e : Extent C P} {t : Extents C P} {c : C} (h : e.before = .code c) :
    bindingsOf (e :: t) = bindingsOf t := by simp only [bindingsOf, h]

theorem handlersOf_code {e : Extent C P} {t : Extents C P} {c : C} (h : e.before = .code c) :
    handlersOf (e :: t) = handlersOf t := by simp only [handlersOf, h]

variable [DecidableEq P]

omit [DecidableEq P] in
/-- Calling the `after` of the innermost extent. -/
theorem inv_after {pr : Program C W S P} {w : World C W P} {e : Extent C P} {t : Extents C P}
    {s : Config C W S P} {stack : Stack C W P} (hn : w.n = s.fresh) (hc : w.conts = s.conts)
    (hk : Known w (e :: t)) (hb : Balanced s.log ((e :: t).map Extent.id))
    (hg : ∀ k ∈ s.conts, GoodCont w k) (hr : Regs s (e :: t)) (hs : Good w none stack)
    (hl : lexical stack = t) (xs : Extents C P) (hx : xs = register stack) :
    Inv w t (callThunk pr e.after stack
      { s with extents := xs, log := .leave e.id :: s.log }) := by
  have hfit := hk.fit
  unfold Fit at hfit
  obtain ⟨hr1, hr2⟩ := hr
  have hb' : Balanced (.leave e.id :: s.log) (t.map Extent.id) := .leave hb
  split at hfit
  · rename_i c hbe
    obtain ⟨c', ha⟩ := hfit
    rw [ha]
    refine ⟨hn, hc, hk.tail, hb', hg, ?_⟩
    refine .run hs hl.symm hx ⟨?_, ?_⟩
    · exact hr1.trans (bindingsOf_code hbe)
    · exact hr2.trans (handlersOf_code hbe)
  · rename_i b hbe
    rw [hfit.1]
    refine ⟨hn, hc, hk.tail, hb', hg, ?_⟩
    refine .ret hs hl.symm hx ⟨rfl, ?_⟩
    refine hr2.trans ?_
    simp only [handlersOf, hbe]
  · rename_i b hbe
    rw [hfit]
    refine ⟨hn, hc, hk.tail, hb', hg, ?_⟩
    refine .ret hs hl.symm hx ⟨?_, rfl⟩
    refine hr1.trans ?_
    simp only [bindingsOf, hbe]

omit [DecidableEq P] in
/-- Calling a `before` that the library made. -/
theorem inv_enter {pr : Program C W S P} {w : World C W P} {xs : Extents C P} {s : Config C W S P}
    {b a : Thunk C P} {body : Body C W} {rest : Stack C W P} (hn : w.n = s.fresh)
    (hc : w.conts = s.conts) (hk : Known w xs) (hb : Balanced s.log (xs.map Extent.id))
    (hg : ∀ k ∈ s.conts, GoodCont w k) (hr : Regs s xs) (hs : Good w none rest)
    (hl : xs = lexical rest) (hx : s.extents = register rest) (hf : Fit s.fresh ⟨0, b, a⟩ xs) :
    Inv w xs (callThunk pr b (.entered b body a :: rest) s) := by
  obtain ⟨hr1, hr2⟩ := hr
  cases b with
  | code c =>
    obtain ⟨c', rfl⟩ : ∃ c', a = .code c' := hf
    exact ⟨hn, hc, hk, hb, hg, .run (.entered hs) hl hx ⟨hr1, hr2⟩⟩
  | setBindings b =>
    refine ⟨hn, hc, hk, hb, hg, .entering rfl hs hl hx hf ⟨rfl, ?_⟩⟩
    exact hr2
  | setHandlers h =>
    refine ⟨hn, hc, hk, hb, hg, .entering rfl hs hl hx hf ⟨?_, rfl⟩⟩
    exact hr1

/-- A world with one more pair. -/
def World.push (w : World C W P) (e : Extent C P) (t : Extents C P) : World C W P :=
  { w with n := w.n + 1, cell := fun i => if i = e.id then e :: t else w.cell i }

omit [DecidableEq P] in
theorem World.le_push (w : World C W P) (e : Extent C P) (t : Extents C P) (h : e.id = w.n) :
    w.Le (w.push e t) := by
  refine ⟨Nat.le_succ _, fun i hi => ?_, fun k x h => h⟩
  show (if i = e.id then _ else _) = _
  rw [if_neg (by omega)]

/-- A world whose counter has moved on. -/
def World.grow (w : World C W P) (m : Nat) : World C W P := { w with n := m }

omit [DecidableEq P] in
theorem World.le_grow (w : World C W P) (m : Nat) (h : w.n ≤ m) : w.Le (w.grow m) :=
  ⟨h, fun _ _ => rfl, fun _ _ h => h⟩

/-- A world with one more continuation. -/
def World.capture (w : World C W P) (k : Stack C W P × Extents C P) : World C W P :=
  { w with conts := w.conts ++ [k] }

omit [DecidableEq P] in
theorem World.le_capture (w : World C W P) (k : Stack C W P × Extents C P) : w.Le (w.capture k) := by
  refine ⟨Nat.le_refl _, fun _ _ => rfl, fun i x h => ?_⟩
  show (w.conts ++ [k])[i]? = some x
  rw [List.getElem?_append_left]
  · exact h
  · obtain ⟨h, _⟩ := List.getElem?_eq_some_iff.1 h
    exact h

omit [DecidableEq P] in
theorem GoodCont.mono {w w' : World C W P} (hle : w.Le w') {k : Stack C W P × Extents C P}
    (h : GoodCont w k) : GoodCont w' k :=
  ⟨h.1.mono hle, h.2.1, h.2.2.1, h.2.2.2.mono hle⟩

omit [DecidableEq P] in
theorem Regs.of_eq {s s' : Config C W S P} {xs : Extents C P} (h : Regs s xs)
    (h1 : s'.bindings = s.bindings) (h2 : s'.handlers = s.handlers) : Regs s' xs :=
  ⟨h1.trans h.1, h2.trans h.2⟩

omit [DecidableEq P] in
/-- The body of a `dynamic-wind` starts. -/
theorem inv_body {pr : Program C W S P} {w : World C W P} {xs : Extents C P} {s : Config C W S P}
    {b a : Thunk C P} {body : Body C W} {rest : Stack C W P} (hn : w.n = s.fresh)
    (hc : w.conts = s.conts) (hk : Known w xs) (hb : Balanced s.log (xs.map Extent.id))
    (hg : ∀ k ∈ s.conts, GoodCont w k) (hs : Good w none rest) (hl : xs = lexical rest)
    (hx : s.extents = register rest) (hf : Fit s.fresh ⟨0, b, a⟩ xs)
    (hr : Regs s (⟨0, b, a⟩ :: xs)) :
    Inv (w.push ⟨s.fresh, b, a⟩ xs) (⟨s.fresh, b, a⟩ :: xs)
      (callBody pr body (.body ⟨s.fresh, b, a⟩ :: rest)
        { s with
          extents := ⟨s.fresh, b, a⟩ :: s.extents
          fresh := s.fresh + 1
          log := .enter s.fresh :: s.log }) := by
  have hle := w.le_push ⟨s.fresh, b, a⟩ xs hn.symm
  have hk' : Known (w.push ⟨s.fresh, b, a⟩ xs) (⟨s.fresh, b, a⟩ :: xs) := by
    refine .cons ?_ ?_ ?_ (hk.mono hle)
    · show (if _ = _ then _ else _) = _
      rw [if_pos rfl]
    · show s.fresh < w.n + 1
      omega
    · show Fit (w.n + 1) _ xs
      rw [hn]
      exact (show Fit s.fresh ⟨s.fresh, b, a⟩ xs from hf).mono (Nat.le_succ _)
  have hb' : Balanced (.enter s.fresh :: s.log) (((⟨s.fresh, b, a⟩ : Extent C P) :: xs).map Extent.id) :=
    .enter hb hk'.notMem
  have hg' : ∀ k ∈ s.conts, GoodCont (w.push ⟨s.fresh, b, a⟩ xs) k := fun k h => (hg k h).mono hle
  have hn' : (w.push ⟨s.fresh, b, a⟩ xs).n = s.fresh + 1 := by show w.n + 1 = _; omega
  have hgood : Good (w.push ⟨s.fresh, b, a⟩ xs) none (.body ⟨s.fresh, b, a⟩ :: rest) :=
    .body (hs.mono hle) (by rw [← hl]; exact hk')
  have hlex : (⟨s.fresh, b, a⟩ : Extent C P) :: xs = lexical (.body ⟨s.fresh, b, a⟩ :: rest : Stack C W P) := by
    simp only [lexical, hl]
  have hreg : (⟨s.fresh, b, a⟩ : Extent C P) :: s.extents = register (.body ⟨s.fresh, b, a⟩ :: rest : Stack C W P) := by
    simp only [register, hx]
  have hr' : Regs s (⟨s.fresh, b, a⟩ :: xs) := hr
  cases body with
  | thunk c => exact ⟨hn', hc, hk', hb', hg', .run hgood hlex hreg (hr'.of_eq rfl rfl)⟩
  | handler c v continuable =>
    cases continuable with
    | true => exact ⟨hn', hc, hk', hb', hg', .run hgood hlex hreg (hr'.of_eq rfl rfl)⟩
    | false => exact ⟨hn', hc, hk', hb', hg', .run (.rethrow hgood) hlex hreg (hr'.of_eq rfl rfl)⟩

/-- What `bindCells` leaves alone. -/
theorem bindCells_spec (pr : Program C W S P) : ∀ (bs : List (P × W)) (s : Config C W S P),
    ∃ cells, (bindCells pr bs s).2 = { s with fresh := s.fresh + bs.length, cells := cells } ∧
      (∀ x ∈ (bindCells pr bs s).1, s.fresh ≤ x.2 ∧ x.2 < s.fresh + bs.length) ∧
      (∀ c, (∀ i, s.fresh ≤ i → c ≠ .bound i) → cells c = s.cells c)
  | [], s => ⟨s.cells, rfl, fun x hx => (by cases hx), fun _ _ => rfl⟩
  | (p, v) :: bs, s => by
    obtain ⟨cells, h1, h2, h3⟩ := bindCells_spec pr bs { s with
      fresh := s.fresh + 1
      cells := fun c => if c = .bound s.fresh then pr.convert p v else s.cells c }
    refine ⟨cells, ?_, ?_, ?_⟩
    · show (bindCells pr bs _).2 = _
      rw [h1]
      simp only [List.length_cons]
      congr 1
      omega
    · intro x hx
      rcases List.mem_cons.1 hx with rfl | hx
      · simp
      · have := h2 x hx
        simp only [List.length_cons] at this ⊢
        omega
    · intro c hc
      rw [h3 c fun i hi => hc i (by simp only at hi; omega)]
      simp only
      rw [if_neg (hc _ (Nat.le_refl _))]

/-- `raise` keeps the invariant. -/
theorem inv_raise {pr : Program C W S P} {w : World C W P} {xs : Extents C P} {s : Config C W S P}
    {v : W} {continuable : Bool} {rest : Stack C W P} (hn : w.n = s.fresh) (hc : w.conts = s.conts)
    (hk : Known w xs) (hb : Balanced s.log (xs.map Extent.id)) (hg : ∀ k ∈ s.conts, GoodCont w k)
    (hr : Regs s xs) (hs : Good w none rest) (hl : xs = lexical rest) (hx : s.extents = register rest) :
    Inv w xs (raise pr v continuable rest s) := by
  unfold raise
  split
  · rename_i inner outer h
    refine inv_enter hn hc hk hb hg hr hs hl hx ?_
    show Thunk.setHandlers s.handlers = _
    rw [hr.2]
  · exact ⟨hn, hc, hk, hb, hg, .thrown⟩

omit [DecidableEq P] in
theorem bound_of_known {w : World C W P} {xs : Extents C P} (h : Known w xs) :
    ∀ x ∈ bindingsOf xs, x.2 < w.n := by
  induction h with
  | nil => intro x hx; cases hx
  | @cons e t _ _ hf _ ih =>
    intro x hx
    unfold Fit at hf
    simp only [bindingsOf] at hx
    split at hx
    · rename_i h
      simp only [h] at hf
      exact hf.2 x hx
    · exact ih x hx

/-- The user's code keeps the invariant. -/
theorem inv_perform {pr : Program C W S P} {w : World C W P} {xs : Extents C P} {s : Config C W S P}
    {c : C} {v : W} (hm : s.mode = .run c v) (h : Inv w xs s) (a : Action C W P)
    (hcalm : a.escapes = true → insideAfter s.stack = false) :
    ∃ w' xs', w.Le w' ∧ Inv w' xs' (perform pr s a) := by
  obtain ⟨hn, hc, hk, hb, hg, hshape⟩ := h
  rw [hm] at hshape
  cases hshape with
  | run hs hl hx hr =>
  have hrefl : w.Le w := ⟨Nat.le_refl _, fun _ _ => rfl, fun _ _ h => h⟩
  cases a with
  | ret v => exact ⟨w, xs, hrefl, hn, hc, hk, hb, hg, .ret hs hl hx hr⟩
  | goto c v => exact ⟨w, xs, hrefl, hn, hc, hk, hb, hg, .run hs hl hx hr⟩
  | call c v next => exact ⟨w, xs, hrefl, hn, hc, hk, hb, hg, .run hs.next hl hx hr⟩
  | wind before thunk after next =>
    refine ⟨w, xs, hrefl, ?_⟩
    show Inv w xs (callThunk pr (.code before) (.entered (.code before) _ (.code after) :: _) s)
    exact inv_enter hn hc hk hb hg hr hs.next hl hx ⟨_, rfl⟩
  | parameterize bs thunk next =>
    obtain ⟨cells, h1, h2, h3⟩ := bindCells_spec pr bs s
    have hle : w.Le (w.grow (s.fresh + bs.length)) := w.le_grow _ (by omega)
    refine ⟨_, xs, hle, ?_⟩
    show Inv _ _ (callThunk pr (.setBindings ((bindCells pr bs s).1 ++ s.bindings))
      (.entered (.setBindings ((bindCells pr bs s).1 ++ s.bindings)) (.thunk thunk)
        (.setBindings s.bindings) :: .next next :: s.stack) (bindCells pr bs s).2)
    rw [h1]
    refine inv_enter rfl hc (hk.mono hle) hb (fun k h => (hg k h).mono hle) (hr.of_eq rfl rfl)
      (hs.next.mono hle) hl hx ?_
    refine ⟨?_, ?_⟩
    · show Thunk.setBindings s.bindings = _
      rw [hr.1]
    · intro x hx
      rcases List.mem_append.1 hx with hx | hx
      · exact (h2 x hx).2
      · rw [hr.1] at hx
        have := bound_of_known hk x hx
        show x.2 < s.fresh + bs.length
        omega
  | assign p v next => exact ⟨w, xs, hrefl, hn, hc, hk, hb, hg, .run hs hl hx hr⟩
  | handle handler thunk next =>
    refine ⟨w, xs, hrefl, ?_⟩
    show Inv w xs (callThunk pr (.setHandlers (handler :: s.handlers))
      (.entered (.setHandlers (handler :: s.handlers)) _ (.setHandlers s.handlers) :: _) s)
    refine inv_enter hn hc hk hb hg hr hs.next hl hx ?_
    show Thunk.setHandlers s.handlers = _
    rw [hr.2]
  | raise v => exact ⟨w, xs, hrefl, inv_raise hn hc hk hb hg hr hs hl hx⟩
  | raiseContinuable v next => exact ⟨w, xs, hrefl, inv_raise hn hc hk hb hg hr hs.next hl hx⟩
  | callcc body next =>
    have he := register_eq_lexical (hcalm rfl)
    have hle := w.le_capture (.next next :: s.stack, s.extents)
    refine ⟨_, xs, hle, hn, ?_, hk.mono hle, hb, ?_, .run (hs.next.mono hle) hl hx hr⟩
    · show w.conts ++ _ = s.conts ++ _
      rw [hc]
    · intro k hk'
      rcases List.mem_append.1 hk' with h | h
      · exact (hg k h).mono hle
      · rw [List.mem_singleton.1 h]
        refine ⟨hs.next.mono hle, ?_, ?_, ?_⟩
        · exact he.symm.trans hx.symm
        · exact hx.symm
        · have h3 : s.extents = xs := by rw [hx, he, hl]
          exact (show Known w s.extents by rw [h3]; exact hk).mono hle
  | jump k v =>
    have he := register_eq_lexical (hcalm rfl)
    show ∃ w' xs', _ ∧ Inv w' xs' (match s.conts[k]? with
      | some (_, extents) =>
        { s with mode := .windup s.extents extents, stack := .resume k v :: s.stack }
      | none => { s with mode := .stuck })
    rcases hk' : s.conts[k]? with _ | ⟨s', t⟩
    · exact ⟨w, xs, hrefl, hn, hc, hk, hb, hg, .stuck⟩
    · have hgk := hg (s', t) (List.mem_of_getElem? hk')
      refine ⟨w, xs, hrefl, hn, hc, hk, hb, hg, ?_⟩
      show Shape w xs _ (.windup s.extents t)
      rw [hx, he, ← hl]
      exact .windup hgk.2.2.2 (.resume (by rw [hc]; exact hk') hgk.2.2.2) hr
  | fault v =>
    have he := register_eq_lexical (hcalm rfl)
    refine ⟨w, xs, hrefl, inv_raise hn hc hk hb hg hr .stop ?_ rfl⟩
    show xs = s.extents
    rw [hx, he, hl]
  | exit =>
    exact ⟨w, xs, hrefl, hn, hc, hk, hb, hg, .exited hl⟩

/-- Returning keeps the invariant. -/
theorem inv_return {pr : Program C W S P} {w : World C W P} {xs : Extents C P} {s : Config C W S P}
    {v : W} (hm : s.mode = .ret v) (h : Inv w xs s) :
    ∃ w' xs', w.Le w' ∧ Inv w' xs' (returnTo pr v s) := by
  obtain ⟨hn, hc, hk, hb, hg, hshape⟩ := h
  rw [hm] at hshape
  have hrefl : w.Le w := ⟨Nat.le_refl _, fun _ _ => rfl, fun _ _ h => h⟩
  generalize hst : s.stack = stack at hshape
  cases hshape with
  | ret hs hl hx hr =>
    rw [hst] at hs hl hx
    unfold returnTo
    rw [hst]
    cases hs with
    | nil => exact ⟨w, xs, hrefl, hn, hc, hk, hb, hg, .returned fun _ => hl⟩
    | next hs => exact ⟨w, xs, hrefl, hn, hc, hk, hb, hg, .run hs hl hx hr⟩
    | entered hs =>
      refine ⟨_, _, w.le_push _ _ hn.symm, inv_body (body := _) (xs := xs) hn hc hk hb hg hs hl hx ⟨_, rfl⟩ ?_⟩
      exact ⟨hr.1, hr.2⟩
    | @body e rest hs hke =>
      have hl' : xs = e :: lexical rest := hl
      refine ⟨w, _, hrefl, inv_after hn hc hke ?_ hg ?_ (.result hs) rfl _ ?_⟩
      · rw [← hl']; exact hb
      · rw [← hl']; exact hr
      · rw [hx]; rfl
    | result hs => exact ⟨w, xs, hrefl, hn, hc, hk, hb, hg, .ret hs hl hx hr⟩
    | @unwound x t e t' rest hkx hs =>
      have hl' : xs = t := hl
      subst hl'
      exact ⟨w, xs, hrefl, hn, hc, hk, hb, hg, .windup hs.known'.tail (.rewinding hs) hr⟩
    | @unwoundLast x t rest hkx hs =>
      have hl' : xs = t := hl
      subst hl'
      exact ⟨w, xs, hrefl, hn, hc, hk, hb, hg, .windup .nil (.finish hs) hr⟩
    | @rewound e t b rest hbe hs =>
      have hl' : xs = t := hl
      subst hl'
      have hke := hs.known'
      refine ⟨w, e :: xs, hrefl, hn, hc, hke, .enter hb hke.notMem, hg, .wound hs rfl ⟨?_, ?_⟩⟩
      · rw [bindingsOf_code hbe]; exact hr.1
      · rw [handlersOf_code hbe]; exact hr.2
    | rethrow hs => exact ⟨w, xs, hrefl, hn, hc, hk, hb, hg, .thrown⟩
    | stop => exact ⟨w, xs, hrefl, hn, hc, hk, hb, hg, .returned fun h => by simp only [hst] at h; cases h⟩
  | wound hs hx hr =>
    rw [hst] at hs
    unfold returnTo
    rw [hst]
    cases hs with
    | @rewinding e t rest hs =>
      have hke := hs.known'
      have hfit := hke.fit
      unfold Fit at hfit
      show ∃ w' xs', _ ∧ Inv w' xs' (callThunk pr e.before (.rewound (e :: xs) :: rest) s)
      split at hfit
      · rename_i c hbe
        rw [hbe]
        exact ⟨w, xs, hrefl, hn, hc, hk, hb, hg, .run (.rewound hbe hs) rfl hx hr⟩
      · rename_i b hbe
        rw [hbe]
        refine ⟨w, xs, hrefl, hn, hc, hk, hb, hg, .reentering rfl hs ⟨?_, ?_⟩⟩
        · simp only [bindingsOf, hbe, callThunk]
        · simp only [handlersOf, hbe, callThunk]; exact hr.2
      · rename_i b hbe
        rw [hbe]
        refine ⟨w, xs, hrefl, hn, hc, hk, hb, hg, .reentering rfl hs ⟨?_, ?_⟩⟩
        · simp only [bindingsOf, hbe, callThunk]; exact hr.1
        · simp only [handlersOf, hbe, callThunk]
    | finish hs => exact ⟨w, xs, hrefl, hn, hc, hk, hb, hg, .wound hs rfl hr⟩
    | @resume k v rest _ s' hk' _ =>
      rw [hc] at hk'
      have hgk := hg _ (List.mem_of_getElem? hk')
      simp only [hk']
      refine ⟨w, xs, hrefl, hn, hc, hk, hb, hg, .ret hgk.1 hgk.2.1.symm (hx.trans hgk.2.2.1.symm) hr⟩
  | entering hs' hs hl hx hf hr =>
    rw [hst] at hs'
    unfold returnTo
    rw [hst, hs']
    exact ⟨_, _, w.le_push _ _ hn.symm, inv_body (xs := xs) hn hc hk hb hg hs hl hx hf hr⟩
  | @reentering _ e rest hs' hs hr =>
    rw [hst] at hs'
    unfold returnTo
    rw [hst, hs']
    have hke := hs.known'
    exact ⟨w, e :: xs, hrefl, hn, hc, hke, .enter hb hke.notMem, hg, .wound hs rfl hr⟩

omit [DecidableEq P] in
/-- `windup!` keeps the invariant. -/
theorem inv_windup {pr : Program C W S P} {w : World C W P} {xs : Extents C P} {s : Config C W S P}
    {source target : Extents C P} (hm : s.mode = .windup source target) (h : Inv w xs s) :
    ∃ xs', Inv w xs' (windup pr source target s) := by
  obtain ⟨hn, hc, hk, hb, hg, hshape⟩ := h
  rw [hm] at hshape
  cases hshape with
  | windup hkt hs hr =>
  unfold windup
  by_cases hsame : sameCell xs target = true
  · have := (sameCell_iff hk hkt).1 hsame
    subst this
    simp only [hsame, if_true]
    exact ⟨xs, hn, hc, hk, hb, hg, .wound hs rfl hr⟩
  · simp only [if_neg hsame]
    cases hk with
    | nil =>
      cases hkt with
      | nil => exact absurd rfl hsame
      | @cons e t h1 h2 h3 h4 =>
        exact ⟨[], hn, hc, .nil, hb, hg, .windup h4 (.rewinding hs) hr⟩
    | @cons x t h1 h2 h3 h4 =>
      have hk : Known w (x :: t) := .cons h1 h2 h3 h4
      cases hkt with
      | nil =>
        refine ⟨t, ?_⟩
        exact inv_after (s := { s with extents := x :: t }) hn hc hk hb hg (hr.of_eq rfl rfl)
          (.unwoundLast hk hs) rfl _ rfl
      | @cons e t' h1' h2' h3' h4' =>
        refine ⟨t, ?_⟩
        exact inv_after (s := { s with extents := x :: t }) hn hc hk hb hg (hr.of_eq rfl rfl)
          (.unwound hk hs) rfl _ rfl

/-- Every calm step keeps the invariant. -/
theorem inv_step {pr : Program C W S P} {w : World C W P} {xs : Extents C P} {s s' : Config C W S P}
    (h : Inv w xs s) (hcalm : Calm pr s) (hstep : step pr s = some s') :
    ∃ w' xs', w.Le w' ∧ Inv w' xs' s' := by
  have hrefl : w.Le w := ⟨Nat.le_refl _, fun _ _ => rfl, fun _ _ h => h⟩
  unfold step at hstep
  split at hstep
  · rename_i c v hm
    simp only [Option.some.injEq] at hstep
    subst hstep
    have h' : Inv w xs { s with user := (pr.step c v s.user fun p => s.cells (cellOf s.bindings p)).1 } := by
      obtain ⟨h1, h2, h3, h4, h5, h6⟩ := h
      refine ⟨h1, h2, h3, h4, h5, ?_⟩
      simp only [hm] at h6 ⊢
      cases h6 with
      | run a b c d => exact .run a b c d
    refine inv_perform (s := { s with user :=
      (pr.step c v s.user fun p => s.cells (cellOf s.bindings p)).1 }) hm h' _ fun he => ?_
    refine hcalm _ ?_ he
    unfold nextAction
    simp only [hm]
  · rename_i v hm
    cases hstep
    exact inv_return hm h
  · rename_i hm
    cases hstep
    obtain ⟨xs', h'⟩ := inv_windup (pr := pr) hm h
    exact ⟨w, xs', hrefl, h'⟩
  all_goals cases hstep

omit [DecidableEq P] in
/-- The invariant holds at the start. -/
theorem inv_start (c : C) (v : W) (u : S) (cells : Cell P → W) :
    Inv (⟨0, fun _ => [], []⟩ : World C W P) [] (start c v u cells) :=
  ⟨rfl, rfl, .nil, .nil, fun k hk => (by cases hk), .run .nil rfl rfl ⟨rfl, rfl⟩⟩

/-- The invariant holds in every state a calm run reaches. -/
theorem inv_run {pr : Program C W S P} {c : C} {v : W} {u : S} {cells : Cell P → W}
    {s : Config C W S P} (h : CalmRun pr (start c v u cells) s) : ∃ w xs, Inv w xs s := by
  induction h with
  | refl => exact ⟨_, _, inv_start c v u cells⟩
  | step _ hc hst ih =>
    obtain ⟨w, xs, h⟩ := ih
    obtain ⟨w', xs', _, h'⟩ := inv_step h hc hst
    exact ⟨w', xs', h'⟩

end Meevax.Control
