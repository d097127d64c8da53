import Verif.Spec.Apply
import Verif.Lemmas.SecdSim

/-!
C84: `apply`.
-/

namespace Meevax.Secd.Apply

open Meevax.Secd

/-! ### Pairs that are added -/

theorem Extends.refl (h : Cells) : Extends h h := ⟨Nat.le_refl _, fun _ _ => rfl⟩

theorem Extends.trans {h₁ h₂ h₃ : Cells} (h : Extends h₁ h₂) (h' : Extends h₂ h₃) : Extends h₁ h₃ :=
  ⟨Nat.le_trans h.1 h'.1, fun l hl => (h'.2 l (Nat.lt_of_lt_of_le hl h.1)).trans (h.2 l hl)⟩

theorem Extends.cons (h : Cells) (a d : Value) : Extends h (h.cons a d) :=
  ⟨Nat.le_succ _, fun l hl => by simp [Cells.cons, Nat.ne_of_lt hl]⟩

theorem cell_cons (h : Cells) (a d : Value) : (h.cons a d).cell h.next = (a, d) := by simp [Cells.cons]

theorem Chain.extends {h h' : Cells} (hx : Extends h h') : ∀ {v : Value} {xs : List Value} {t : Value} {ls : List Nat},
    Chain h v xs t ls → Allocated h ls → Chain h' v xs t ls
  | _, _, _, _, .nil t, _ => .nil t
  | _, _, _, _, .cons (l := l) ht, ha => by
    have hl := hx.2 l (ha l (List.mem_cons_self ..))
    have := Chain.cons (h := h') (l := l) (by
      rw [hl]; exact ht.extends hx fun l hl => ha l (List.mem_cons_of_mem _ hl))
    rw [hl] at this
    exact this

theorem Allocated.extends {h h' : Cells} (hx : Extends h h') {ls : List Nat} (ha : Allocated h ls) : Allocated h' ls :=
  fun l hl => Nat.lt_of_lt_of_le (ha l hl) hx.1

theorem chain_isList {h : Cells} {v : Value} {xs : List Value} {ls : List Nat} (hc : Chain h v xs .nil ls) :
    IsList h v xs ls := by
  generalize ht : Value.nil = t at hc
  induction hc with
  | nil t => subst ht; exact .nil
  | cons _ ih => exact .cons (ih ht)

theorem isList_chain {h : Cells} {v : Value} {xs : List Value} {ls : List Nat} (hc : IsList h v xs ls) :
    Chain h v xs .nil ls := by
  induction hc with
  | nil => exact .nil _
  | cons _ ih => exact .cons ih

theorem Chain.trans {h : Cells} {v : Value} {xs : List Value} {t : Value} {ls : List Nat} (hc : Chain h v xs t ls)
    {ys : List Value} {u : Value} {ls' : List Nat} (hc' : Chain h t ys u ls') : Chain h v (xs ++ ys) u (ls ++ ls') := by
  induction hc with
  | nil t => exact hc'
  | cons _ ih => exact .cons (ih hc')

theorem Chain.new {h : Cells} {t : Value} {xs : List Value} {u : Value} {ls : List Nat} (a : Value)
    (hc : Chain h t xs u ls) (ha : Allocated h ls) :
    Chain (h.cons a t) (.pair h.next) (a :: xs) u (h.next :: ls) := by
  have := Chain.cons (h := h.cons a t) (l := h.next) (xs := xs) (t := u) (ls := ls) (by
    rw [cell_cons]; exact hc.extends (Extends.cons ..) ha)
  rw [cell_cons] at this
  exact this

theorem Allocated.new {h : Cells} {ls : List Nat} (a d : Value) (ha : Allocated h ls) :
    Allocated (h.cons a d) (h.next :: ls) := by
  intro l hl
  rcases List.mem_cons.1 hl with rfl | hl
  · exact Nat.lt_succ_self _
  · exact Nat.lt_succ_of_lt (ha l hl)

theorem push_spec : ∀ (vs : List Value) (a : Value) (h : Cells) {xs : List Value} {t : Value} {ls : List Nat},
    Chain h a xs t ls → Allocated h ls →
    ∃ ls', Chain (push vs a h).2 (push vs a h).1 (vs.reverse ++ xs) t ls' ∧ Allocated (push vs a h).2 ls' ∧
      Extends h (push vs a h).2
  | [], a, h, xs, t, ls, hc, ha => ⟨ls, hc, ha, Extends.refl h⟩
  | v :: vs, a, h, xs, t, ls, hc, ha => by
    obtain ⟨ls', h1, h2, h3⟩ := push_spec vs (.pair h.next) (h.cons v a) (hc.new v ha) (ha.new v a)
    refine ⟨ls', ?_, h2, (Extends.cons ..).trans h3⟩
    rw [List.reverse_cons, List.append_assoc]
    exact h1

theorem copy_spec : ∀ (vs : List Value) (y : Value) (h : Cells),
    ∃ ls', Chain (copy vs y h).2 (copy vs y h).1 vs y ls' ∧ Allocated (copy vs y h).2 ls' ∧ Extends h (copy vs y h).2 ∧
      ∀ l ∈ ls', h.next ≤ l
  | [], y, h => ⟨[], .nil y, (fun _ hl => by cases hl), Extends.refl h, (fun _ hl => by cases hl)⟩
  | v :: vs, y, h => by
    obtain ⟨ls', h1, h2, h3, h4⟩ := copy_spec vs y h
    refine ⟨_, h1.new v h2, h2.new _ _, h3.trans (Extends.cons ..), ?_⟩
    intro l hl
    rcases List.mem_cons.1 hl with rfl | hl
    · exact h3.1
    · exact h4 l hl

/-! ### Pieces of code -/

/-- The code `c` pushes `v`. -/
def Y (P : Prims) (G R : Nat → Value) (e : Value) (h : Cells) (c : Code) (v : Value) (h' : Cells) : Prop :=
  ∀ (s : List Value) (k : Code) (d : Dump), ∃ n, Steps P n ⟨s, e, c ++ k, d, ⟨h, G, R⟩⟩ ⟨v :: s, e, k, d, ⟨h', G, R⟩⟩

variable {P : Prims} {G R : Nat → Value} {e : Value}

theorem Y.constant (h : Cells) (k : Form) : Y P G R e h [.loadConstant k] (.datum k) h := fun _ _ _ =>
  ⟨1, _, rfl, rfl⟩

theorem Y.relative {h : Cells} {i j : Nat} {f v : Value} (hf : h.head e i = some f) (hv : h.head f j = some v) :
    Y P G R e h [.loadRelative i j] v h := fun s k d =>
  ⟨1, Steps.one (by simp [step, hf, hv, Result.ofOption])⟩

theorem step_relative {h : Cells} {i j : Nat} {f v : Value} (hf : h.head e i = some f) (hv : h.head f j = some v) (s : List Value)
    (k : Code) (d : Dump) : step P ⟨s, e, .loadRelative i j :: k, d, ⟨h, G, R⟩⟩ = .next ⟨v :: s, e, k, d, ⟨h, G, R⟩⟩ := by
  simp [step, hf, hv, Result.ofOption]

theorem step_store {h h' : Cells} {i j : Nat} {f v : Value} (hf : h.head e i = some f) (hv : h.setHead f j v = some h')
    (s : List Value) (k : Code) (d : Dump) :
    step P ⟨v :: s, e, .storeRelative i j :: k, d, ⟨h, G, R⟩⟩ = .next ⟨v :: s, e, k, d, ⟨h', G, R⟩⟩ := by
  simp [step, hf, hv, Result.ofOption]

theorem car_cons (h : Cells) (a d : Value) : (h.cons a d).car (.pair h.next) = some a := by simp [Cells.car, cell_cons]

theorem cdr_cons (h : Cells) (a d : Value) : (h.cons a d).cdr (.pair h.next) = some d := by simp [Cells.cdr, cell_cons]

theorem Y.variadic {h : Cells} {i j : Nat} {f v : Value} (hf : h.head e i = some f) (hv : h.tail f j = some v) :
    Y P G R e h [.loadVariadic i j] v h := fun s k d =>
  ⟨1, Steps.one (by simp [step, hf, hv, Result.ofOption])⟩

theorem Y.call1 {h h₁ h₂ : Cells} {c : Code} {v w : Value} {p : Nat} (hc : Y P G R e h c v h₁) (hg : G p = .prim p)
    (hp : P p (.pair h₁.next) (h₁.cons v .nil) = .ok w h₂) :
    Y P G R e h (.loadConstant .nil :: c ++ [.cons, .loadAbsolute p, .call]) w h₂ := by
  intro s k d
  obtain ⟨n, hn⟩ := hc (.nil :: s) ([.cons, .loadAbsolute p, .call] ++ k) d
  refine ⟨1 + (n + 3), Steps.add (m' := ⟨.nil :: s, e, c ++ ([.cons, .loadAbsolute p, .call] ++ k), d, ⟨h, G, R⟩⟩)
    (Steps.one (by simp [step])) (Steps.add hn ?_)⟩
  refine ⟨_, rfl, _, rfl, _, ?_, rfl⟩
  show call P (G p :: .pair h₁.next :: s) e k d ⟨h₁.cons v .nil, G, R⟩ = _
  simp only [call, hg, hp]

theorem Y.call2 {h h₁ h₂ h₃ : Cells} {c c' : Code} {v w u : Value} {p : Nat} (hc : Y P G R e h c v h₁)
    (hc' : Y P G R e (h₁.cons v .nil) c' w h₂) (hg : G p = .prim p)
    (hp : P p (.pair h₂.next) (h₂.cons w (.pair h₁.next)) = .ok u h₃) :
    Y P G R e h (.loadConstant .nil :: c ++ .cons :: c' ++ [.cons, .loadAbsolute p, .call]) u h₃ := by
  intro s k d
  obtain ⟨n, hn⟩ := hc (.nil :: s) (.cons :: c' ++ [.cons, .loadAbsolute p, .call] ++ k) d
  obtain ⟨m, hm⟩ := hc' (.pair h₁.next :: s) ([.cons, .loadAbsolute p, .call] ++ k) d
  refine ⟨1 + (n + (1 + (m + 3))), Steps.add (m' := ⟨.nil :: s, e, c ++ (.cons :: c' ++ [.cons, .loadAbsolute p, .call] ++ k), d,
    ⟨h, G, R⟩⟩) (Steps.one (by simp [step])) (Steps.add hn (Steps.add (m' := ⟨.pair h₁.next :: s, e,
      c' ++ ([.cons, .loadAbsolute p, .call] ++ k), d, ⟨h₁.cons v .nil, G, R⟩⟩)
      (Steps.one (by simp [step])) (Steps.add hm ?_)))⟩
  refine ⟨_, rfl, _, rfl, _, ?_, rfl⟩
  show call P (G p :: .pair h₂.next :: s) e k d ⟨h₂.cons w (.pair h₁.next), G, R⟩ = _
  simp only [call, hg, hp]

/-- The source compiles. -/
theorem compiles : generate globals source [] [] false = some [.loadClosure code] := by
  simp [code, source, form, callWith, generate, genOperand, genBody, keyword, identify, scanScopes, scanFormals, globals,
    loadInstr, nF, nX, nXs, nNull, nAppend, nReverse, nCdr, nCar, nCons, nIf, nLambda]

theorem code_eq : code =
    [.loadConstant .nil, .loadVariadic 0 2, .cons, .loadAbsolute nNull, .call, .tailSelect
      [.loadRelative 0 1, .loadRelative 0 0, .tailCall]
      ([.loadConstant .nil] ++ (.loadConstant .nil :: (.loadConstant .nil :: [.loadVariadic 0 2] ++ .cons ::
          [.loadRelative 0 1] ++ [.cons, .loadAbsolute nCons, .call]) ++ [.cons, .loadAbsolute nReverse, .call]) ++
        [.cons, .loadClosure
          ([.loadConstant .nil] ++
            (.loadConstant .nil :: (.loadConstant .nil :: [.loadRelative 0 0] ++ [.cons, .loadAbsolute nCar, .call]) ++
              .cons :: (.loadConstant .nil :: (.loadConstant .nil :: [.loadRelative 0 0] ++
                [.cons, .loadAbsolute nCdr, .call]) ++ [.cons, .loadAbsolute nReverse, .call]) ++
              [.cons, .loadAbsolute nAppend, .call]) ++
            [.cons, .loadClosure [.loadRelative 0 0, .loadRelative 2 0, .tailCall], .tailCall]),
          .tailCall])] := by
  simp [code, source, form, callWith, generate, genOperand, genBody, keyword, identify, scanScopes, scanFormals, globals,
      loadInstr, nF, nX, nXs, nNull, nAppend, nReverse, nCdr, nCar, nCons, nIf, nLambda]

/-! ### The procedure -/

theorem Chain.uncons {h : Cells} {v : Value} {x : Value} {xs : List Value} {t : Value} {ls : List Nat}
    (hc : Chain h v (x :: xs) t ls) : ∃ l ls', v = .pair l ∧ ls = l :: ls' ∧ (h.cell l).1 = x ∧ Chain h (h.cell l).2 xs t ls' := by
  cases hc with
  | cons ht => exact ⟨_, _, rfl, rfl, rfl, ht⟩

theorem head_zero {h : Cells} {l : Nat} {a d : Value} (hl : h.cell l = (a, d)) : h.head (.pair l) 0 = some a := by
  simp [Cells.head, Cells.tail, Cells.car, hl]

theorem head_two {h : Cells} {l l₁ l₂ : Nat} {a b c d : Value} (hl : h.cell l = (a, .pair l₁)) (hl₁ : h.cell l₁ = (b, .pair l₂))
    (hl₂ : h.cell l₂ = (c, d)) : h.head (.pair l) 2 = some c := by
  simp [Cells.head, Cells.tail, Cells.car, Cells.cdr, hl, hl₁, hl₂]

/-- `(reverse …)` of the value of an expression. -/
theorem Y.reverse (hP : Library P) (hg : G nReverse = .prim nReverse) {h h₁ : Cells} {c : Code} {v : Value} {vs : List Value}
    {ls : List Nat} (hc : Y P G R e h c v h₁) (hx : Extends h h₁) (hv : Chain h₁ v vs .nil ls) (ha : Allocated h₁ ls) :
    ∃ w h' ls', Y P G R e h (.loadConstant .nil :: c ++ [.cons, .loadAbsolute nReverse, .call]) w h' ∧
      Chain h' w vs.reverse .nil ls' ∧ Allocated h' ls' ∧ Extends h h' := by
  have h0 : Extends h₁ (h₁.cons v .nil) := Extends.cons ..
  have hl := chain_isList (hv.extends h0 ha)
  obtain ⟨ls', h1, h2, h3⟩ := push_spec vs .nil (h₁.cons v .nil) (.nil _) (ls := []) (fun _ hl => by cases hl)
  rw [List.append_nil] at h1
  exact ⟨_, _, ls', hc.call1 hg (hP.reverse (car_cons ..) hl), h1, h2, (hx.trans h0).trans h3⟩

/-- **C84**: `(apply f x …)` calls `f` in tail position, with an operand list of the arguments but the last,
ended by the last one itself. -/
theorem C84_apply (hP : Library P) {f x : Value} {xs : List Value} {firsts : List Value} {last : Value}
    (hf : x :: xs = firsts ++ [last]) {h : Heap} (hb : Bound h) {ops : Value} {ls : List Nat}
    (ho : IsList h.cells ops (f :: x :: xs) ls) (ha : Allocated h.cells ls) (e₀ : Value) (s : List Value) (e : Value) (c : Code)
    (d : Dump) : ∃ n args ls' e' h', Steps P n ⟨.closure code e₀ :: ops :: s, e, .call :: c, d, h⟩
        ⟨[f, args], e', [.tailCall], .frame s e c d, h'⟩ ∧
      Chain h'.cells args firsts last ls' ∧ (∀ l ∈ ls', h.cells.next ≤ l ∧ l < h'.cells.next) ∧ Extends h.cells h'.cells ∧
      h'.globals = h.globals ∧ h'.regs = h.regs := by
  obtain ⟨h, G, R⟩ := h
  simp only at hb ho ha ⊢
  have hg : ∀ p ∈ [nNull, nAppend, nReverse, nCdr, nCar, nCons], G p = .prim p := hb
  obtain ⟨lf, ls₁, rfl, rfl, hlf, ho₁⟩ := (isList_chain ho).uncons
  obtain ⟨lx, ls₂, hlx', rfl, hlx, ho₂⟩ := ho₁.uncons
  have clf : h.cell lf = (f, .pair lx) := Prod.ext hlf hlx'
  generalize hr : (h.cell lx).2 = r at ho₂
  have clx : h.cell lx = (x, r) := Prod.ext hlx hr
  have alf : lf < h.next := ha lf (by simp)
  have alx : lx < h.next := ha lx (by simp)
  have ha₂ : Allocated h ls₂ := fun l hl => ha l (by simp [hl])
  -- the frame
  let h₁ := h.cons (.pair lf) e₀
  have x₁ : Extends h h₁ := Extends.cons ..
  have c₁ : h₁.cell h.next = (.pair lf, e₀) := cell_cons ..
  have n₁ : h.next < h₁.next := Nat.lt_succ_self _
  -- the variables, from now on
  have hframe : ∀ {k : Cells}, Extends h₁ k → k.head (.pair h.next) 0 = some (.pair lf) := fun hx =>
    head_zero ((hx.2 _ n₁).trans c₁)
  have hlfk : ∀ {k : Cells}, Extends h₁ k → k.cell lf = (f, .pair lx) := fun hx => ((x₁.trans hx).2 _ alf).trans clf
  have hlxk : ∀ {k : Cells}, Extends h₁ k → k.cell lx = (x, r) := fun hx => ((x₁.trans hx).2 _ alx).trans clx
  have hvf : ∀ {k : Cells}, Extends h₁ k → k.head (.pair lf) 0 = some f := fun hx => head_zero (hlfk hx)
  have hvx : ∀ {k : Cells}, Extends h₁ k → k.head (.pair lf) 1 = some x := fun hx => by
    simp [Cells.head, Cells.tail, Cells.car, Cells.cdr, hlfk hx, hlxk hx]
  have hvr : ∀ {k : Cells}, Extends h₁ k → k.tail (.pair lf) 2 = some r := fun hx => by
    simp [Cells.tail, Cells.cdr, hlfk hx, hlxk hx]
  -- `(null? xs)`
  have ht := (Y.variadic (P := P) (G := G) (R := R) (hframe (Extends.refl h₁)) (hvr (Extends.refl h₁))).call1 (p := nNull)
    (hg _ (by simp)) (hP.null (v := r) (car_cons ..))
  let h₂ := h₁.cons r .nil
  have x₂ : Extends h₁ h₂ := Extends.cons ..
  obtain ⟨n₁', hn₁⟩ := ht [] [.tailSelect
      [.loadRelative 0 1, .loadRelative 0 0, .tailCall]
      ([.loadConstant .nil] ++ (.loadConstant .nil :: (.loadConstant .nil :: [.loadVariadic 0 2] ++ .cons ::
          [.loadRelative 0 1] ++ [.cons, .loadAbsolute nCons, .call]) ++ [.cons, .loadAbsolute nReverse, .call]) ++
        [.cons, .loadClosure
          ([.loadConstant .nil] ++
            (.loadConstant .nil :: (.loadConstant .nil :: [.loadRelative 0 0] ++ [.cons, .loadAbsolute nCar, .call]) ++
              .cons :: (.loadConstant .nil :: (.loadConstant .nil :: [.loadRelative 0 0] ++
                [.cons, .loadAbsolute nCdr, .call]) ++ [.cons, .loadAbsolute nReverse, .call]) ++
              [.cons, .loadAbsolute nAppend, .call]) ++
            [.cons, .loadClosure [.loadRelative 0 0, .loadRelative 2 0, .tailCall], .tailCall]),
          .tailCall])] (.frame s e c d)
  have hstart : step P ⟨.closure code e₀ :: .pair lf :: s, e, .call :: c, d, ⟨h, G, R⟩⟩
      = .next ⟨[], .pair h.next, code, .frame s e c d, ⟨h₁, G, R⟩⟩ := rfl
  rw [code_eq] at hstart ⊢
  have hpre := Steps.add (Steps.one hstart) hn₁
  cases xs with
  | nil =>
    -- `(f . x)`
    have hr0 : r = .nil := by cases ho₂; rfl
    subst hr0
    have hfl : firsts = [] ∧ x = last := by
      cases firsts with
      | nil => simpa using hf
      | cons a firsts =>
        have := congrArg List.length hf
        simp at this
    obtain ⟨rfl, rfl⟩ := hfl
    refine ⟨_, x, [], .pair h.next, ⟨h₂, G, R⟩, Steps.add (n' := 3) hpre ?_, .nil _, (fun _ hl => by cases hl), x₁.trans x₂, rfl, rfl⟩
    · refine ⟨_, rfl, ⟨[x], .pair h.next, [.loadRelative 0 0, .tailCall], .frame s e c d, ⟨h₂, G, R⟩⟩, ?_, _, ?_, rfl⟩
      · exact step_relative (hframe x₂) (hvx x₂) ..
      · exact step_relative (hframe x₂) (hvf x₂) ..
  | cons y ys =>
    obtain ⟨lr, ls₃, rfl, rfl, _, _⟩ := ho₂.uncons
    -- `(cons x xs)`
    have hc₁ := (Y.variadic (P := P) (G := G) (R := R) (h := h₂) (hframe x₂) (hvr x₂)).call2 (p := nCons)
      (c' := [.loadRelative 0 1])
      (Y.relative (hframe (x₂.trans (Extends.cons ..))) (hvx (x₂.trans (Extends.cons ..)))) (hg _ (by simp))
      (hP.cons (v := x) (ys := .pair h₂.next) (w := .pair lr) (car_cons ..)
        (cdr_cons ..) (by simp [Cells.car, Cells.cons]))
    have x₃ : Extends h₂ (((h₂.cons (.pair lr) .nil).cons x (.pair h₂.next)).cons x (.pair lr)) :=
      ((Extends.cons ..).trans (Extends.cons ..)).trans (Extends.cons ..)
    have hchain := ((ho₂.extends ((x₁.trans x₂).trans ((Extends.cons h₂ (.pair lr) .nil).trans
      (Extends.cons _ x (.pair h₂.next)))) ha₂).new x (ha₂.extends ((x₁.trans x₂).trans ((Extends.cons h₂ (.pair lr) .nil).trans
      (Extends.cons _ x (.pair h₂.next))))))
    have halloc := ((ha₂.extends ((x₁.trans x₂).trans ((Extends.cons h₂ (.pair lr) .nil).trans
      (Extends.cons _ x (.pair h₂.next))))).new x (.pair lr))
    -- `(reverse (cons x xs))`
    obtain ⟨w, h₄, ls₄, hc₂, hw, haw, x₄⟩ := Y.reverse hP (hg _ (by simp)) hc₁ x₃ hchain halloc
    rw [hf, List.reverse_append, List.reverse_cons, List.reverse_nil, List.nil_append, List.singleton_append] at hw
    obtain ⟨lw, ls₅, rfl, rfl, hlw, hw₂⟩ := hw.uncons
    generalize hr₂ : (h₄.cell lw).2 = r₂ at hw₂
    have clw : h₄.cell lw = (last, r₂) := Prod.ext hlw hr₂
    have alw : lw < h₄.next := haw lw (by simp)
    have x₂₄ : Extends h₁ h₄ := x₂.trans x₄
    -- the inner procedure is called
    let h₅ := h₄.cons (.pair lw) .nil
    let h₆ := h₅.cons (.pair h₄.next) (.pair h.next)
    have x₅ : Extends h₄ h₅ := Extends.cons ..
    have x₆ : Extends h₅ h₆ := Extends.cons ..
    have n₅ : h₄.next < h₅.next := Nat.lt_succ_self _
    have n₆ : h₅.next < h₆.next := Nat.lt_succ_self _
    have c₅ : h₆.cell h₄.next = (.pair lw, .nil) := (x₆.2 _ n₅).trans (cell_cons ..)
    have c₆ : h₆.cell h₅.next = (.pair h₄.next, .pair h.next) := cell_cons ..
    have hframe₂ : ∀ {k : Cells}, Extends h₆ k → k.head (.pair h₅.next) 0 = some (.pair h₄.next) := fun hx =>
      head_zero ((hx.2 _ n₆).trans c₆)
    have hvw : ∀ {k : Cells}, Extends h₆ k → k.head (.pair h₄.next) 0 = some (.pair lw) := fun hx =>
      head_zero ((hx.2 _ (Nat.lt_trans n₅ n₆)).trans c₅)
    have hlwk : ∀ {k : Cells}, Extends h₆ k → k.cell lw = (last, r₂) := fun hx =>
      (((x₅.trans x₆).trans hx).2 _ alw).trans clw
    -- `(car xs)`
    have hc₃ := (Y.relative (P := P) (G := G) (R := R) (hframe₂ (Extends.refl h₆)) (hvw (Extends.refl h₆))).call1 (p := nCar)
      (hg _ (by simp)) (hP.car (v := .pair lw) (w := last) (car_cons ..)
        (by simp [Cells.car, hlwk (Extends.cons ..)]))
    let h₇ := h₆.cons (.pair lw) .nil
    have x₇ : Extends h₆ h₇ := Extends.cons ..
    let h₈ := h₇.cons last .nil
    have x₈ : Extends h₆ h₈ := x₇.trans (Extends.cons ..)
    -- `(cdr xs)`
    have hc₄ := (Y.relative (P := P) (G := G) (R := R) (hframe₂ x₈) (hvw x₈)).call1 (p := nCdr)
      (hg _ (by simp)) (hP.cdr (v := .pair lw) (w := r₂) (car_cons ..)
        (by simp [Cells.cdr, hlwk (x₈.trans (Extends.cons ..))]))
    let h₉ := h₈.cons (.pair lw) .nil
    have x₉ : Extends h₈ h₉ := Extends.cons ..
    have x₄₉ : Extends h₄ h₉ := ((x₅.trans x₆).trans x₈).trans x₉
    have haw₂ : Allocated h₄ ls₅ := fun l hl => haw l (by simp [hl])
    -- `(reverse (cdr xs))`
    obtain ⟨w₂, h₁₀, ls₁₀, hc₅, hw₃, haw₃, x₁₀⟩ := Y.reverse hP (hg _ (by simp)) hc₄ x₉ (hw₂.extends x₄₉ haw₂)
      (haw₂.extends x₄₉)
    rw [List.reverse_reverse] at hw₃
    -- `(append … (car xs))`
    let h₁₁ := h₁₀.cons w₂ (.pair h₇.next)
    have x₁₁ : Extends h₁₀ h₁₁ := Extends.cons ..
    have c₁₁ : h₁₁.cell h₇.next = (last, .nil) :=
      ((x₁₀.trans x₁₁).2 _ (Nat.lt_succ_self _)).trans (cell_cons ..)
    have hc₆ := hc₃.call2 (p := nAppend) hc₅ (hg _ (by simp)) (hP.append (v := w₂) (ys := .pair h₇.next) (w := last)
      (car_cons ..) (chain_isList (hw₃.extends x₁₁ haw₃)) (cdr_cons ..)
      (by show some (h₁₁.cell h₇.next).1 = _; rw [c₁₁]))
    obtain ⟨ls₁₂, hargs, haargs, x₁₂, hnew⟩ := copy_spec firsts last h₁₁
    generalize hargsv : (copy firsts last h₁₁).1 = args at hc₆ hargs
    generalize hh₁₂ : (copy firsts last h₁₁).2 = h₁₂ at hc₆ hargs haargs x₁₂
    have x₆₁₂ : Extends h₆ h₁₂ := ((x₈.trans x₁₀).trans x₁₁).trans x₁₂
    -- the innermost procedure is called
    let h₁₃ := h₁₂.cons args .nil
    let h₁₄ := h₁₃.cons (.pair h₁₂.next) (.pair h₅.next)
    have x₁₃ : Extends h₁₂ h₁₃ := Extends.cons ..
    have x₁₄ : Extends h₁₃ h₁₄ := Extends.cons ..
    have x₆₁₄ : Extends h₆ h₁₄ := x₆₁₂.trans (x₁₃.trans x₁₄)
    have x₁₁₄ : Extends h₁ h₁₄ := (x₂₄.trans (x₅.trans x₆)).trans x₆₁₄
    have c₁₃ : h₁₄.cell h₁₂.next = (args, .nil) := (x₁₄.2 _ (Nat.lt_succ_self _)).trans (cell_cons ..)
    have c₁₄ : h₁₄.cell h₁₃.next = (.pair h₁₂.next, .pair h₅.next) := cell_cons ..
    obtain ⟨n₂, hn₂⟩ := hc₂ [.nil] [.cons, .loadClosure
          ([.loadConstant .nil] ++
            (.loadConstant .nil :: (.loadConstant .nil :: [.loadRelative 0 0] ++ [.cons, .loadAbsolute nCar, .call]) ++
              .cons :: (.loadConstant .nil :: (.loadConstant .nil :: [.loadRelative 0 0] ++
                [.cons, .loadAbsolute nCdr, .call]) ++ [.cons, .loadAbsolute nReverse, .call]) ++
              [.cons, .loadAbsolute nAppend, .call]) ++
            [.cons, .loadClosure [.loadRelative 0 0, .loadRelative 2 0, .tailCall], .tailCall]),
          .tailCall] (.frame s e c d)
    obtain ⟨n₃, hn₃⟩ := hc₆ [.nil] [.cons, .loadClosure [.loadRelative 0 0, .loadRelative 2 0, .tailCall], .tailCall]
      (.frame s e c d)
    have hs₁ := Steps.add hpre (Steps.add (n := 2) ⟨_, rfl, _, rfl, rfl⟩ hn₂)
    have hs₂ := Steps.add hs₁ (Steps.add (n := 4) ⟨_, rfl, _, rfl, _, rfl, _, rfl, rfl⟩ hn₃)
    refine ⟨_, args, ls₁₂, .pair h₁₃.next, ⟨h₁₄, G, R⟩, Steps.add hs₂ (n' := 5) ⟨_, rfl, _, rfl, _, rfl,
        ⟨[args], .pair h₁₃.next, [.loadRelative 2 0, .tailCall], .frame s e c d, ⟨h₁₄, G, R⟩⟩, ?_, _, ?_, rfl⟩,
      hargs.extends (x₁₃.trans x₁₄) haargs, ?_, x₁.trans x₁₁₄, rfl, rfl⟩
    · exact step_relative (head_zero c₁₄) (head_zero c₁₃) ..
    · exact step_relative (head_two c₁₄ ((x₆₁₄.2 _ n₆).trans c₆) ((x₁₁₄.2 _ n₁).trans c₁)) (hvf x₁₁₄) ..
    · intro l hl
      exact ⟨Nat.le_trans ((x₁.trans (x₂₄.trans (x₅.trans x₆))).trans ((x₈.trans x₁₀).trans x₁₁)).1 (hnew l hl),
        (haargs.extends (x₁₃.trans x₁₄)) l hl⟩

/-- **C84**: if the last argument is a list, the operands are the arguments before and its elements. -/
theorem C84_apply_arguments (hP : Library P) {f x : Value} {xs : List Value} {firsts : List Value} {last : Value}
    (hf : x :: xs = firsts ++ [last]) {h : Heap} (hb : Bound h) {ops : Value} {ls : List Nat}
    (ho : IsList h.cells ops (f :: x :: xs) ls) (ha : Allocated h.cells ls) {vs : List Value} {lv : List Nat}
    (hl : IsList h.cells last vs lv) (hal : Allocated h.cells lv) (e₀ : Value) (s : List Value) (e : Value) (c : Code)
    (d : Dump) : ∃ n args ls' e' h', Steps P n ⟨.closure code e₀ :: ops :: s, e, .call :: c, d, h⟩
        ⟨[f, args], e', [.tailCall], .frame s e c d, h'⟩ ∧ IsList h'.cells args (firsts ++ vs) (ls' ++ lv) ∧
      Extends h.cells h'.cells := by
  obtain ⟨n, args, ls', e', h', h1, h2, _, h4, _⟩ := C84_apply hP hf hb ho ha e₀ s e c d
  exact ⟨n, args, ls', e', h', h1, chain_isList (h2.trans ((isList_chain hl).extends h4 hal)), h4⟩

theorem tail_chain {h : Cells} : ∀ {v : Value} {xs : List Value} {t : Value} {ls : List Nat}, Chain h v xs t ls →
    h.tail v xs.length = some t
  | _, _, _, _, .nil _ => rfl
  | _, _, _, _, .cons ht => by
    simp only [List.length_cons, Cells.tail, Cells.cdr, Option.bind_eq_bind, Option.bind_some]
    exact tail_chain ht

/-- `(lambda (a … b . c) (set! b k))` with `j` parameters before `b`. -/
def assigns (j : Nat) (k : Form) : Code := [.loadConstant k, .storeRelative 0 j, .ret]

/-- That is what the code generator makes of it. -/
example : generate { globals with syn := fun g => if g = 18 then some .set else globals.syn g }
    (form [.sym nLambda, form [.sym nX], form [.sym 18, .sym nX, .atom 7]]) [] [] false =
      some [.loadClosure (assigns 0 (.atom 7))] := by
  simp [form, generate, genBody, keyword, identify, scanScopes, scanFormals, globals, storeInstr, assigns, nX, nIf, nLambda]

/-- **C84** fails: the parameters of the procedure are the pairs of the list, so an assignment to a parameter
changes the list that was given to `apply`. -/
theorem C84_apply_fails (hP : Library P) {x : Value} {xs : List Value} {firsts : List Value} {l : Nat} (k : Form) (e₁ : Value)
    (hf : x :: xs = firsts ++ [.pair l]) {h : Heap} (hb : Bound h) {ops : Value} {ls : List Nat}
    (ho : IsList h.cells ops (.closure (assigns firsts.length k) e₁ :: x :: xs) ls) (ha : Allocated h.cells ls)
    (hl : l < h.cells.next) (e₀ : Value) (s : List Value) (e : Value) (c : Code) (d : Dump) :
    ∃ n h', Steps P n ⟨.closure code e₀ :: ops :: s, e, .call :: c, d, h⟩ ⟨.datum k :: s, e, c, d, h'⟩ ∧
      h'.cells.cell l = (.datum k, (h.cells.cell l).2) := by
  obtain ⟨n, args, ls', e', ⟨h', G, R⟩, h1, h2, h3, h4, h5, h6⟩ := C84_apply hP hf hb ho ha e₀ s e c d
  simp only at h1 h2 h4
  let h₁ := h'.cons args e₁
  have hx : Extends h' h₁ := Extends.cons ..
  have hal : Allocated h' ls' := fun l hl => (h3 l hl).2
  have hc := h2.extends hx hal
  have hh : h₁.head (.pair h'.next) 0 = some args := head_zero (cell_cons ..)
  have hs : h₁.setHead args firsts.length (.datum k) = some (h₁.setCar l (.datum k)) := by
    simp only [Cells.setHead, tail_chain hc, Option.bind_eq_bind, Option.bind_some]
  refine ⟨n + 4, ⟨h₁.setCar l (.datum k), G, R⟩, Steps.add h1 ⟨_, rfl, _, rfl, ⟨[.datum k], .pair h'.next, [.ret], .frame s e c d,
    ⟨h₁.setCar l (.datum k), G, R⟩⟩, ?_, _, rfl, rfl⟩, ?_⟩
  · exact step_store hh hs ..
  · simp only [Cells.setCar, if_true]
    rw [hx.2 l (Nat.lt_of_lt_of_le hl h4.1), h4.2 l hl]

/-- `null?` is true of the empty list only. -/
theorem isNull_iff (v : Value) : isNull v = true ↔ v = .nil := by
  cases v with
  | datum f => cases f <;> simp [isNull]
  | _ => simp [isNull]

/-! ### An example -/

theorem isList_unique {h : Cells} : ∀ {v : Value} {xs ys : List Value} {ls ls' : List Nat}, IsList h v xs ls → IsList h v ys ls' →
    xs = ys
  | _, _, _, _, _, .nil, .nil => rfl
  | _, _, _, _, _, .cons h₁, .cons h₂ => by rw [isList_unique h₁ h₂]

open Classical in
/-- Primitive procedures that meet the conditions. -/
noncomputable def primitives : Prims := fun p xs h =>
  match h.car xs with
  | none => .undefined
  | some v =>
    if p = nNull then .ok (.datum (.bool (isNull v))) h
    else if p = nCar then match h.car v with | some w => .ok w h | none => .undefined
    else if p = nCdr then match h.cdr v with | some w => .ok w h | none => .undefined
    else if p = nReverse then
      if hl : ∃ vs ls, IsList h v vs ls then .ok (push hl.choose .nil h).1 (push hl.choose .nil h).2 else .undefined
    else
      match (h.cdr xs).bind h.car with
      | none => .undefined
      | some w =>
        if p = nCons then .ok (.pair h.next) (h.cons v w)
        else if p = nAppend then
          if hl : ∃ vs ls, IsList h v vs ls then .ok (copy hl.choose w h).1 (copy hl.choose w h).2 else .undefined
        else .undefined

theorem primitives_library : Library primitives where
  null h1 := by simp [primitives, h1]
  car h1 h2 := by simp [primitives, h1, h2, nNull, nCar]
  cdr h1 h2 := by simp [primitives, h1, h2, nNull, nCar, nCdr]
  cons h1 h2 h3 := by simp [primitives, h1, h2, h3, nNull, nCar, nCdr, nReverse, nCons]
  reverse {h xs v vs ls} h1 h2 := by
    have hl : ∃ vs ls, IsList h v vs ls := ⟨vs, ls, h2⟩
    have : hl.choose = vs := isList_unique hl.choose_spec.choose_spec h2
    simp [primitives, h1, hl, this, nNull, nCar, nCdr, nReverse]
  append {h xs ys v w vs ls} h1 h2 h3 h4 := by
    have hl : ∃ vs ls, IsList h v vs ls := ⟨vs, ls, h2⟩
    have : hl.choose = vs := isList_unique hl.choose_spec.choose_spec h2
    simp [primitives, h1, h3, h4, hl, this, nNull, nCar, nCdr, nReverse, nCons, nAppend]

/-- The list `(1 2)` at 0, and the operands of `(apply (lambda (a b) (set! b 7)) 5 '(1 2))` at 2. -/
def exampleHeap : Heap where
  cells :=
    { cell := fun l =>
        if l = 0 then (.datum (.atom 1), .pair 1) else if l = 1 then (.datum (.atom 2), .nil)
        else if l = 2 then (.closure (assigns 1 (.atom 7)) .nil, .pair 3)
        else if l = 3 then (.datum (.atom 5), .pair 4) else (.pair 0, .nil)
      next := 5 }
  globals := .prim
  regs := fun _ => .nil

/-- The list is `(7 2)` afterwards. -/
example : ∃ n h', Steps primitives n ⟨[.closure code .nil, .pair 2], .nil, [.call, .stop], .nil, exampleHeap⟩
      ⟨[.datum (.atom 7)], .nil, [.stop], .nil, h'⟩ ∧ h'.cells.cell 0 = (.datum (.atom 7), .pair 1) :=
  C84_apply_fails primitives_library (x := .datum (.atom 5)) (xs := [.pair 0]) (firsts := [.datum (.atom 5)]) (l := 0)
    (.atom 7) .nil rfl (fun _ _ => rfl) (ls := [2, 3, 4]) (.cons (.cons (.cons .nil)))
    (by simp [Allocated, exampleHeap]) (by simp [exampleHeap]) .nil [] .nil [.stop] .nil

/-- The arguments are `5`, `1` and `2`. -/
example : ∃ n args ls e' h', Steps primitives n ⟨[.closure code .nil, .pair 2], .nil, [.call, .stop], .nil, exampleHeap⟩
      ⟨[.closure (assigns 1 (.atom 7)) .nil, args], e', [.tailCall], .frame [] .nil [.stop] .nil, h'⟩ ∧
    IsList h'.cells args [.datum (.atom 5), .datum (.atom 1), .datum (.atom 2)] (ls ++ [0, 1]) ∧
    Extends exampleHeap.cells h'.cells :=
  C84_apply_arguments primitives_library (f := .closure (assigns 1 (.atom 7)) .nil) (x := .datum (.atom 5)) (xs := [.pair 0])
    (firsts := [.datum (.atom 5)]) (last := .pair 0) rfl
    (fun _ _ => rfl) (ls := [2, 3, 4]) (.cons (.cons (.cons .nil))) (by simp [Allocated, exampleHeap])
    (vs := [.datum (.atom 1), .datum (.atom 2)]) (lv := [0, 1]) (.cons (.cons .nil)) (by simp [Allocated, exampleHeap])
    .nil [] .nil [.stop] .nil

end Meevax.Secd.Apply
