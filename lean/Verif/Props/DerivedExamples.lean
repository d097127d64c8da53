import Verif.Props.DerivedForms
import Verif.Lemmas.CodeEq

/-! Programs that meet the hypotheses of the theorems on C66, and one that does not. -/

namespace Meevax.Expand.Derived.Example

open Secd (Name Code)
open Spec

/-- The transformers of the library have the numbers 0 to 5. -/
def ids : Macro → Nat
  | .cond => 0
  | .and => 1
  | .or => 2
  | .let_ => 3
  | .letStar => 4
  | .do_ => 5

def macros : Nat → Macro
  | 0 => .cond
  | 1 => .and
  | 2 => .or
  | 3 => .let_
  | 4 => .letStar
  | _ => .do_

/-- `lambda set! if letrec begin cond and or let let* do` as in Model/DerivedForms.lean; `quote` is 18 and
`define` is 19; `car cdr cons null?` are 40 to 43. -/
def globals (x : Name) : Option Nat :=
  if x ∈ [0, 1, 2, 5, 6, 7, 8, 9, 10, 11, 12, 18, 19, 40, 41, 42, 43] then some x else none

def value (g : Nat) : Option Keyword :=
  if g = 0 then some (.syn .lambda)
  else if g = 1 then some (.syn .set)
  else if g = 2 then some (.syn .cond)
  else if g = 5 then some (.syn .letrec)
  else if g = 6 then some (.syn .begin)
  else if g = 7 then some (.transformer 0)
  else if g = 8 then some (.transformer 1)
  else if g = 9 then some (.transformer 2)
  else if g = 10 then some (.transformer 3)
  else if g = 11 then some (.transformer 4)
  else if g = 12 then some (.transformer 5)
  else if g = 18 then some (.syn .quote)
  else if g = 19 then some (.syn .define)
  else none

def template (n : Nat) : Form → Template := (macros n).template

def C : Ctx := ⟨value, globals, (· + 100), fun _ => globals, template, fun _ => 1⟩

def W : World := ⟨value, (· + 100), fun p => erTransformer (template p), fun _ => 0⟩

def st : St where
  next := 0
  made := 0
  envs _ := ⟨[], globals⟩
  nextEnv := 2
  macros t := (t, 1)
  nextMacro := 6
  alpha := []

theorem ready : Ready C W 2 st where
  value := rfl
  fresh := rfl
  pos := by decide
  lam := rfl
  set := rfl
  home := fun _ _ _ => by simp [C]
  template := fun _ t _ _ hf => src_template (macros t) hf
  envs := fun _ _ => rfl
  old := by decide
  macros := fun _ _ _ => ⟨rfl, rfl⟩

theorem library : Library C 1 ids where
  lambda := rfl
  cond := rfl
  letrec := rfl
  begin := rfl
  macros := fun k => by cases k <;> rfl
  place := fun k => rfl
  template := fun k => by cases k <;> rfl
  result := rfl
  rec_ := rfl
  it := rfl

/-- The global variables. -/
def free : Name → Nat := C.index

/-- `car cdr cons null?` have their values. -/
def g₀ (i : Nat) : Base :=
  if i = 40 then .prim 1 else if i = 41 then .prim 2 else if i = 42 then .prim 0 else if i = 43 then .prim 7
  else .datum .undefined

abbrev s (x : Name) : Form := .sym x
abbrev l := Form.ofList

theorem binds {sc : Scheme.Scopes} {xs : List Name} (h : xs.Nodup) (hg : ∀ x ∈ xs, globals x = none) :
    C.Binds sc xs := by
  refine ⟨h, fun x hx hk => ?_⟩
  exact absurd (by simp [Ctx.symbol, C, hg x hx]) hk

/-- `(do ((l l (cdr l)) (rec '() (cons (car l) rec))) ((null? l) rec))` -/
def loop : Form :=
  l [s 12, l [l [s 30, s 30, l [s 41, s 30]], l [s 16, l [s 18, .nil], l [s 42, l [s 40, s 30], s 16]]],
    l [l [s 43, s 30], s 16]]

/-- `(define (reverse l) (do ...))`: one of its variables has the name of a variable of the macro. -/
def item₁ : Item :=
  ⟨C, W, 2, st, 1, ids, .cons (s 19) (.cons (.cons (s 31) (l [s 30])) (l [loop])),
    .set 31 (.lam [30] none (.loop [30, 16] [.var 30, .const .nil]
      [.app (.var 41) [.var 30], .app (.var 42) [.app (.var 40) [.var 30], .var 16]]
      (.app (.var 43) [.var 30]) [.var 16] []))⟩

theorem item₁_ok : item₁.Ok free := by
  refine ⟨ready, library, ?_, by simp [item₁, Surface.Expr.Avoids, Surface.Avoid], rfl⟩
  refine .procedure (C := C) (ids := ids) (base := 2) (q := 19) (x := 31) (fs := [30]) (rest := none) (body := l [loop])
    rfl (binds (by decide) (by decide)) (by simp [loop, l, s, Form.ofList, Src]) (.exprs (es := [_]) (.cons ?_ .nil) (by simp))
  refine .do_ (q := 12) (specs := [(30, s 30, some (l [s 41, s 30])),
    (16, l [s 18, .nil], some (l [s 42, l [s 40, s 30], s 16]))]) (test := l [s 43, s 30]) (res := [s 16])
    (commands := []) ⟨by decide, rfl⟩ (binds (by decide) (by decide)) ?_ ?_ ?_ ?_ .nil
  · exact .cons (.var (.inl (by decide))) (.cons (.quote ⟨by decide, rfl⟩ rfl) .nil)
  · exact .cons (.app (.var (.inr rfl)) (.cons (.var (.inl (by decide))) .nil))
      (.cons (.app (.var (.inr rfl)) (.cons (.app (.var (.inr rfl)) (.cons (.var (.inl (by decide))) .nil))
        (.cons (.var (.inl (by decide))) .nil))) .nil)
  · exact .app (.var (.inr rfl)) (.cons (.var (.inl (by decide))) .nil)
  · exact .cons (.var (.inl (by decide))) .nil

/-- `(let* ((result #f) (x '(5 6))) (or result (cond ((reverse x) => car) (else result))))` -/
def item₂ : Item :=
  ⟨C, W, 2, st, 1, ids, l [s 11, l [l [s 15, .bool false], l [s 32, l [s 18, l [.atom 5, .atom 6]]]],
    l [s 9, s 15, l [s 7, l [l [s 31, s 32], s 14, s 40], l [s 13, s 15]]]],
    .let_ [15] [.const (.bool false)] (.let_ [32] [.const (.cons (.atom 5) (.cons (.atom 6) .nil))]
      (.let_ [] [] (.orElse (.var 15)
        (.arrow (.app (.var 31) [.var 32]) (.var 40) (.var 15)))))⟩

theorem item₂_ok : item₂.Ok free := by
  refine ⟨ready, library, ?_, by simp [item₂, Surface.Expr.Avoids, Surface.Avoid], rfl⟩
  refine .expr (by simp [item₂, l, s, Form.ofList, Src]) ?_
  refine .letStar (q := 11) ⟨by decide, rfl⟩ (.letStarCons (binds (by decide) (by decide)) (.const rfl (by simp) rfl)
    (.letStarCons (binds (by decide) (by decide)) (.quote ⟨by decide, rfl⟩ rfl)
      (.letStarNil (.exprs (es := [_]) (.cons ?_ .nil) (by simp)))))
  refine .or (q := 9) ⟨by decide, rfl⟩ (.orCons (.var (.inl (by decide))) (.orOne (fun x h => by cases h) ?_))
  exact .cond (q := 7) ⟨by decide, rfl⟩ (.condArrow (by decide) (by decide)
    (.app (.var (.inr rfl)) (.cons (.var (.inl (by decide))) .nil)) (.var (.inr rfl))
    (.condElse (es := [_]) (by decide) (.cons (.var (.inl (by decide))) .nil) (by simp)))

theorem items_behave : ∃ o₁ o₂, Surface.Behaves free Surface.core (Surface.initial g₀)
    (exprsOf [item₁, item₂]) [o₁, o₂] .finished ∧ o₂ 3 = .datum (.atom 6) :=
  ⟨_, _, .cons 5 rfl (.cons 100 rfl (.nil _)), rfl⟩

/-- C66 applies: the program prints 6, although its variables have the names of the variables of the
macros. -/
theorem C66_example : ∃ codes outs, List.Forall₂ Item.Compiles [item₁, item₂] codes ∧
    Secd.Behaves Secd.core (Secd.initial g₀ g₀) codes outs .finished ∧
    outs[1]?.map (· 3) = some (.datum (.atom 6)) := by
  obtain ⟨o₁, o₂, hb, ho⟩ := items_behave
  obtain ⟨codes, h₁, h₂⟩ := C66_program_partial (items := [item₁, item₂]) (by
    intro i hi
    simp only [List.mem_cons, List.not_mem_nil, or_false] at hi
    rcases hi with rfl | rfl
    · exact item₁_ok
    · exact item₂_ok) g₀ g₀ (Surface.not_inError hb)
  exact ⟨codes, _, h₁, (h₂ _ _).2 hb, by simpa using ho⟩

/-- `(define (f l) (define (g y) (begin (define z (car y)) (cons z '()))) (define w (g (cdr l))) (or #f w))` -/
def item₃ : Item :=
  ⟨C, W, 2, st, 1, ids, .cons (s 19) (.cons (.cons (s 31) (l [s 30])) (l [
      .cons (s 19) (.cons (.cons (s 33) (l [s 34])) (l [l [s 6, l [s 19, s 35, l [s 40, s 34]], l [s 42, s 35, l [s 18, .nil]]]])),
      l [s 19, s 36, l [s 33, l [s 41, s 30]]],
      l [s 9, .bool false, s 36]])),
    .set 31 (.lam [30] none (internal [33, 36]
      [.lam [34] none (internal [35] [.app (.var 40) [.var 34]] [.app (.var 42) [.var 35, .const .nil]]),
        .app (.var 33) [.app (.var 41) [.var 30]]]
      [.orElse (.const (.bool false)) (.var 36)]))⟩

theorem defines {sc : Scheme.Scopes} {xs : List Name} (h : xs.Nodup)
    (hg : ∀ x ∈ xs, globals x = none ∧ ¬ boundIn x sc) : C.Defines sc xs :=
  ⟨h, fun x hx => ⟨by simp [Ctx.symbol, C, (hg x hx).1], (hg x hx).2⟩⟩

theorem item₃_ok : item₃.Ok free := by
  refine ⟨ready, library, ?_, by simp [item₃, internal, Surface.sequence, Surface.Expr.Avoids, Surface.Avoid], rfl⟩
  refine .procedure (C := C) (ids := ids) (base := 2) (q := 19) (x := 31) (fs := [30]) (rest := none)
    rfl (binds (by decide) (by decide)) (by simp [l, s, Form.ofList, Src]) ?_
  refine .internal (ds := [.cons (s 19) (.cons (.cons (s 33) (l [s 34]))
        (l [l [s 6, l [s 19, s 35, l [s 40, s 34]], l [s 42, s 35, l [s 18, .nil]]]])),
      l [s 19, s 36, l [s 33, l [s 41, s 30]]]]) (b := l [s 9, .bool false, s 36]) (bs := []) rfl
    (.form (.form .stop)) (by simp)
    (defines (by decide) (by simp [globals, boundIn])) ?_ ?_ ?_ .nil
  · refine .defsFun (fs := [34]) (rest := none) ⟨by decide, rfl⟩ (binds (by decide) (by decide)) ?_
      (.defsVar ⟨by decide, rfl⟩
        (.app (.var (.inl (by decide))) (.cons (.app (.var (.inr rfl)) (.cons (.var (.inl (by decide))) .nil)) .nil)) .defsNil)
    refine .internal (ds := [l [s 19, s 35, l [s 40, s 34]]]) (b := l [s 42, s 35, l [s 18, .nil]]) (bs := []) rfl
      (.begin (q := 6) (ys := [l [s 19, s 35, l [s 40, s 34]], l [s 42, s 35, l [s 18, .nil]]]) (zs := [])
        ⟨by decide, rfl⟩ (.form .stop)) (by simp)
      (defines (by decide) (by simp [globals, boundIn])) (.defsVar ⟨by decide, rfl⟩
        (.app (.var (.inr rfl)) (.cons (.var (.inl (by decide))) .nil)) .defsNil) ?_ ?_ .nil
    · intro q d h
      cases h
      rintro ⟨-, h⟩
      cases h
    · exact .app (.var (.inr rfl)) (.cons (.var (.inl (by decide))) (.cons (.quote ⟨by decide, rfl⟩ rfl) .nil))
  · intro q d h
    cases h
    rintro ⟨-, h⟩
    cases h
  · exact .or (q := 9) ⟨by decide, rfl⟩ (.orCons (.const rfl (by simp) rfl)
      (.orOne (fun x h => by cases h; simp [reboundIn, boundIn]) (.var (.inl (by decide)))))

/-- `(f '(5 6))` -/
def item₄ : Item :=
  ⟨C, W, 2, st, 1, ids, l [s 31, l [s 18, l [.atom 5, .atom 6]]],
    .app (.var 31) [.const (.cons (.atom 5) (.cons (.atom 6) .nil))]⟩

theorem item₄_ok : item₄.Ok free := by
  refine ⟨ready, library, ?_, by simp [item₄, Surface.Expr.Avoids, Surface.Avoid], rfl⟩
  refine .expr (by simp [item₄, l, s, Form.ofList, Src]) ?_
  exact .app (.var (.inr rfl)) (.cons (.quote ⟨by decide, rfl⟩ rfl) .nil)

/-- C66 applies to bodies with internal definitions: `(f '(5 6))` is `(6)`. -/
theorem C66_internal_example : ∃ codes outs, List.Forall₂ Item.Compiles [item₃, item₄] codes ∧
    Secd.Behaves Secd.core (Secd.initial g₀ g₀) codes outs .finished ∧
    outs[1]?.map (· 3) = some (.pair (.datum (.atom 6)) (.datum .nil)) := by
  obtain ⟨o₁, o₂, hb, ho⟩ : ∃ o₁ o₂, Surface.Behaves free Surface.core (Surface.initial g₀)
      (exprsOf [item₃, item₄]) [o₁, o₂] .finished ∧ o₂ 3 = .pair (.datum (.atom 6)) (.datum .nil) :=
    ⟨_, _, .cons 5 rfl (.cons 100 rfl (.nil _)), rfl⟩
  obtain ⟨codes, h₁, h₂⟩ := C66_program_partial (items := [item₃, item₄]) (by
    intro i hi
    simp only [List.mem_cons, List.not_mem_nil, or_false] at hi
    rcases hi with rfl | rfl
    · exact item₃_ok
    · exact item₄_ok) g₀ g₀ (Surface.not_inError hb)
  exact ⟨codes, _, h₁, (h₂ _ _).2 hb, by simpa using ho⟩

/-- `(let car ((x (car '(5)))) x)` -/
def outer : Item :=
  ⟨C, W, 2, st, 1, ids, l [s 10, s 40, l [l [s 32, l [s 40, l [s 18, l [.atom 5]]]]], s 32],
    .named 40 [32] [.app (.var 40) [.const (.cons (.atom 5) .nil)]] (.var 32)⟩

theorem outer_means : Means outer.C outer.ids outer.base outer.form outer.expr := by
  refine .expr (by simp [outer, l, s, Form.ofList, Src]) ?_
  exact .named (q := 10) (f := 40) (xs := [32]) (fs := [l [s 40, l [s 18, l [.atom 5]]]]) ⟨by decide, rfl⟩
    ⟨by decide, fun x hx => ⟨by obtain rfl := List.mem_singleton.1 hx; rfl, by simp [boundIn]⟩⟩ (by decide) (by decide)
    (binds (by decide) (by decide)) rfl
    (.cons (.app (.var (.inr rfl)) (.cons (.quote ⟨by decide, rfl⟩ rfl) .nil)) .nil)
    (.exprs (es := [_]) (.cons (.var (.inl (by decide))) .nil) (by simp))

/-- What the library makes of it. -/
theorem outer_good : ∃ T m', Good C [] [] outer.form 0 m' T
    (.letrec [40] [.lam [32] none (.var 32)] (.app (.var 40) [.app (.var 40) [.const (.cons (.atom 5) .nil)]])) := by
  refine library.use (k := .let_) (q := s 10) (out := .cons (renamed 1 0 letrecName) (.cons (.ofList
      (List.zipWith (fun v e => Form.ofList [v, e]) [s 40]
        [.cons (renamed 1 1 lambdaName) (.cons (l [s 32]) (l [s 32]))]))
      (l [.cons (s 40) (l [l [s 40, l [s 18, l [.atom 5]]]])])))
    rfl rfl 2 rfl rfl (by simp) ?_
  refine ⟨_, _, Good.letrec rfl rfl ⟨by decide, ?_⟩ rfl
    (Goods.cons (Good.lam (F := ⟨[s 32], none⟩) rfl rfl rfl ⟨by decide, ?_⟩
      (Goods.body (es := [_]) (Goods.cons (good_zero rfl) Goods.nil) (by simp))) Goods.nil)
    (Goods.body (es := [_]) (Goods.cons (Good.app (fun _ => rfl) (good_zero rfl)
      (Goods.cons (Good.app (fun _ => rfl) (good_zero rfl) (Goods.cons (m₁ := 3) (T := .const (.cons (.atom 5) .nil)) ?_ Goods.nil)) Goods.nil)) Goods.nil)
    (by simp))⟩
  · intro v hv
    obtain rfl := List.mem_singleton.1 hv
    exact ⟨rfl, rfl, fun x hx => by simp [bound]⟩
  · intro v hv hk
    obtain rfl : v = s 32 := by simpa [Frame.ids] using hv
    exact absurd rfl hk
  · exact ⟨.quote rfl rfl (.datum rfl), fun k tail _ => by simp [emit, Secd.comp], by simp, by omega⟩

/-- **C66** fails for a named `let` whose name occurs in the initial values: R7RS 4.2.4 evaluates them
outside the scope of the name, the library inside.  `(let car ((x (car '(5)))) x)` is 5; here it
is `(5)`. -/
theorem C66_named_let_fails :
    Ready outer.C outer.W outer.base outer.st ∧ Library outer.C outer.home outer.ids ∧
    Means outer.C outer.ids outer.base outer.form outer.expr ∧
    (∃ o, Surface.Behaves free Surface.core (Surface.initial g₀) [outer.expr] [o] .finished ∧
      o 3 = .datum (.atom 5)) ∧
    ∃ code o, outer.Compiles code ∧ Secd.Behaves Secd.core (Secd.initial g₀ g₀) [code] [o] .finished ∧
      o 3 = .datum (.cons (.atom 5) .nil) := by
  refine ⟨ready, library, outer_means, ⟨_, .cons 20 rfl (.nil _), rfl⟩, ?_⟩
  obtain ⟨T, m', hg⟩ := outer_good
  obtain ⟨M, h⟩ := C53_compile_partial ready (form := outer.form) (by simp [outer, l, s, Form.ofList, Src]) hg.den
  refine ⟨_, _, ⟨M, fun n hn => (h n hn).trans (by rw [hg.codes _ false (by simp)])⟩, .cons 30 rfl (.nil _), rfl⟩

/-- `(do ((x '() x)) (#f))` -/
def forever : Item :=
  ⟨C, W, 2, st, 1, ids, l [s 12, l [l [s 32, l [s 18, .nil], s 32]], l [.bool false]],
    .loop [32] [.const .nil] [.var 32] (.const (.bool false)) [] []⟩

theorem forever_ok : forever.Ok free := by
  refine ⟨ready, library, ?_, by simp [forever, Surface.Expr.Avoids, Surface.Avoid], rfl⟩
  refine .expr (by simp [forever, l, s, Form.ofList, Src]) ?_
  refine .do_ (q := 12) (specs := [(32, l [s 18, .nil], some (s 32))]) (test := .bool false) (res := [])
    (commands := []) ⟨by decide, rfl⟩ (binds (by decide) (by decide)) ?_ ?_ ?_ .nil .nil
  · exact .cons (.quote ⟨by decide, rfl⟩ rfl) .nil
  · exact .cons (.var (.inl (by decide))) .nil
  · exact .const rfl (by simp) rfl

/-- The states of the loop. -/
inductive Going : Surface.State → Prop where
  | test (σ : Surface.Store) (a : Nat) (v : Surface.Val) (h : σ.vars a = some v) :
    Going ⟨.eval (.const (.bool false)) [(32, a)],
      .test ⟨[32], [.var 32], .const (.bool false), [], [], []⟩ [(32, a)] .halt, σ⟩
  | value (σ : Surface.Store) (a : Nat) (v : Surface.Val) (h : σ.vars a = some v) :
    Going ⟨.value (.datum (.bool false)),
      .test ⟨[32], [.var 32], .const (.bool false), [], [], []⟩ [(32, a)] .halt, σ⟩
  | step (σ : Surface.Store) (a : Nat) (v : Surface.Val) (h : σ.vars a = some v) :
    Going ⟨.eval (.var 32) [(32, a)],
      .loop [] [] ⟨[32], [.var 32], .const (.bool false), [], [], []⟩ [(32, a)] .halt, σ⟩
  | stepped (σ : Surface.Store) (a : Nat) (v : Surface.Val) :
    Going ⟨.value v,
      .loop [] [] ⟨[32], [.var 32], .const (.bool false), [], [], []⟩ [(32, a)] .halt, σ⟩

theorem going (n : Nat) : ∀ {st : Surface.State}, Going st →
    ∃ st', Surface.run free Surface.core n st = .running st' ∧ Going st' := by
  induction n with
  | zero => exact fun h => ⟨_, rfl, h⟩
  | succ n ih =>
    intro st h
    cases h with
    | test σ a v h => exact ih (.value σ a v h)
    | value σ a v h => exact ih (.step σ a v h)
    | step σ a v h =>
      obtain ⟨st', h₁, h₂⟩ := ih (.stepped σ a v)
      refine ⟨st', ?_, h₂⟩
      simpa [Surface.run, Surface.step, List.lookup, h] using h₁
    | stepped σ a v =>
      have := ih (.test (σ.bind [some v]).2 σ.nvars v (by simp [Surface.Store.bind]))
      simpa [Surface.run, Surface.step, Surface.loops, Surface.bindings, Surface.Store.bind] using this

/-- The loop goes on for ever, at depth 1. -/
theorem forever_runs (n : Nat) : ∃ st, Surface.run free Surface.core n
    (Surface.toplevel forever.expr (Surface.initial g₀)) = .running st ∧ st.κ.depth ≤ 1 := by
  match n with
  | 0 => exact ⟨_, rfl, by simp [Surface.toplevel, Surface.Kont.depth]⟩
  | 1 => exact ⟨_, rfl, by simp [Surface.Kont.depth]⟩
  | 2 => exact ⟨_, rfl, by simp [Surface.Kont.depth]⟩
  | n + 3 =>
    obtain ⟨st, h₁, h₂⟩ := going n (.test ((Surface.initial g₀).bind [some (.datum .nil)]).2 0 (.datum .nil)
      (by simp [Surface.Store.bind, Surface.initial]))
    exact ⟨st, h₁, by cases h₂ <;> simp [Surface.Kont.depth]⟩

/-- C66 applies: the machine runs `(do ((x '() x)) (#f))` for ever in bounded control space. -/
theorem C66_example_space : ∃ code, forever.Compiles code ∧
    Secd.Behaves Secd.core (Secd.initial g₀ g₀) [code] [] .forever ∧
    ∃ K, ∀ m, Secd.Reaches Secd.core (Secd.initial g₀ g₀) [code] m → m.space ≤ K := by
  have hok : ∀ i ∈ [forever], i.Ok free := by
    intro i hi
    obtain rfl := List.mem_singleton.1 hi
    exact forever_ok
  have hb : Surface.Behaves free Surface.core (Surface.initial g₀) (exprsOf [forever]) [] .forever :=
    .forever fun n => (forever_runs n).imp fun _ h => h.1
  obtain ⟨codes, h₁, h₂⟩ := C66_program_partial hok g₀ g₀ (Surface.not_inError hb)
  obtain ⟨K, hK⟩ := C66_control_space hok h₁
  cases h₁ with
  | cons hc ht =>
    cases ht
    refine ⟨_, hc, (h₂ _ _).2 hb, K * 2, fun m hm => ?_⟩
    obtain ⟨st, h₃, h₄⟩ := hK g₀ g₀ m (Surface.not_inError hb) hm
    refine Nat.le_trans h₄ (Nat.mul_le_mul_left _ ?_)
    cases h₃ with
    | here n h =>
      obtain ⟨st', h', hd⟩ := forever_runs n
      rw [h'] at h
      cases h
      omega
    | later n h _ =>
      obtain ⟨st', h', hd⟩ := forever_runs n
      rw [h'] at h
      cases h

end Meevax.Expand.Derived.Example
