import Verif.Props.Hygiene
import Verif.Lemmas.CodeEq

/-! Programs that meet the hypotheses of the theorems on C53. -/

namespace Meevax.Expand.Example

open Secd (Name Code)
open Spec

/-- `lambda set! if or2 t define begin swap! tmp letrec quote` have the names 0 to 10. -/
def globals (x : Name) : Option Nat := if x < 11 ∧ x ≠ 4 ∧ x ≠ 8 then some x else none

def value : Nat → Option Keyword
  | 0 => some (.syn .lambda)
  | 1 => some (.syn .set)
  | 2 => some (.syn .cond)
  | 3 => some (.transformer 0)
  | 5 => some (.syn .define)
  | 6 => some (.syn .begin)
  | 7 => some (.transformer 1)
  | 9 => some (.syn .letrec)
  | 10 => some (.syn .quote)
  | _ => none

def tlist : List Template → Template
  | [] => .use .nil
  | a :: d => .pair a (tlist d)

/-- `(or2 a b)` becomes `((lambda (t) (if t t b)) a)`, and `(swap! a b)` becomes
`((lambda (tmp) (set! a b) (set! b tmp)) a)`. -/
def template : Nat → Form → Template
  | 0, .cons _ (.cons a (.cons b .nil)) =>
    tlist [tlist [.insert (.sym 0), tlist [.insert (.sym 4)],
      tlist [.insert (.sym 2), .insert (.sym 4), .insert (.sym 4), .use b]], .use a]
  | 1, .cons _ (.cons a (.cons b .nil)) =>
    tlist [tlist [.insert (.sym 0), tlist [.insert (.sym 8)],
      tlist [.insert (.sym 1), .use a, .use b],
      tlist [.insert (.sym 1), .use b, .insert (.sym 8)]], .use a]
  | _, _ => .use .nil

def C : Ctx := ⟨value, globals, (· + 100), fun _ => globals, template, fun _ => 1⟩

def W : World := ⟨value, (· + 100), fun p => erTransformer (template p), fun _ => 0⟩

def st : St where
  next := 0
  made := 0
  envs _ := ⟨[], globals⟩
  nextEnv := 2
  macros t := (t, 1)
  nextMacro := 2
  alpha := []

theorem ready : Ready C W 2 st where
  value := rfl
  fresh := rfl
  pos := by decide
  lam := rfl
  set := rfl
  home := fun _ _ _ => by simp [C]
  template := by
    intro g t _ form hf
    show SrcT 2 (template t form)
    unfold template
    split
    · simp only [Src] at hf
      simp [tlist, SrcT, Src, Form.isIdentifier, hf]
    · simp only [Src] at hf
      simp [tlist, SrcT, Src, Form.isIdentifier, hf]
    · simp [SrcT, Src]
  envs := fun _ _ => rfl
  old := by decide
  macros := fun _ _ _ => ⟨rfl, rfl⟩

abbrev s (x : Name) : Form := .sym x
abbrev l := Form.ofList

theorem bindable_if_t : C.Bindable [] ⟨[s 2, s 4], none⟩ := by
  refine ⟨by decide, ?_⟩
  intro v hv _
  simp only [Frame.ids, Option.toList, List.append_nil, List.mem_cons, List.not_mem_nil, or_false] at hv
  rcases hv with rfl | rfl
  · exact ⟨2, rfl, by simp [bound]⟩
  · exact ⟨4, rfl, by simp [bound]⟩

theorem bindable_alias {ρ : List Frame} {n e : Nat} {v : Form} (h : (C.origin e v).bind C.value = none) :
    C.Bindable ρ ⟨[.closure (.rename n) e [] v], none⟩ := by
  refine ⟨by simp [Frame.ids], ?_⟩
  intro w hw hk
  simp only [Frame.ids, Option.toList, List.append_nil, List.mem_singleton] at hw
  subst hw
  exact absurd h hk

/-- `(lambda (if t) (or2 if t))`: the user binds both the keyword that the macro uses, and the name
of the variable that it binds. -/
def capture : Form := l [s 0, l [s 2, s 4], l [s 3, s 2, s 4]]

/-- `(lambda (a b) ((lambda (c) (if c c b)) a))` -/
def captureTerm : Term :=
  .lam 2 false [.app (.lam 1 false [.ite (.ref (.loc 0 0)) (.ref (.loc 0 0)) (.ref (.loc 1 1))]) [.ref (.loc 0 0)]]

theorem capture_den : Den C .expr [] capture 0 [captureTerm] 4 := by
  refine .lam (f := ⟨[s 2, s 4], none⟩) rfl rfl rfl bindable_if_t (.exprs (by simp) (.cons ?_ .nil))
  refine .use (t := 0) rfl rfl rfl (by intro x h; cases h) ?_
  refine .app (by simp [Form.isIdentifier]) (by intro g h; cases h) (.cons (m₁ := 4) ?_ (.cons (m₁ := 4) ?_ .nil))
  · refine .lam (f := ⟨[.closure (.rename 1) 1 [] (s 4)], none⟩) rfl rfl rfl (bindable_alias rfl)
      (.exprs (by simp) (.cons ?_ .nil))
    refine .ite rfl rfl (.cons (by exact .var rfl rfl) (.cons (by exact .var rfl rfl) (.cons (by exact .var rfl rfl) .nil)))
  · exact .var rfl rfl

example : ∃ M, ∀ n ≥ M, compile W n C.globals capture st = some (emit captureTerm [.stop] false) :=
  C53_compile_partial ready (by simp [capture, l, s, Form.ofList, Src]) capture_den

example : compile W 40 C.globals capture st = some [.loadClosure [
    .loadConstant .nil, .loadRelative 0 0, .cons,
    .loadClosure [.loadRelative 0 0, .tailSelect [.loadRelative 0 0, .ret] [.loadRelative 1 1, .ret]],
    .tailCall], .stop] := by decide +kernel

/-- `(lambda (tmp set!) (swap! tmp set!))` -/
def swap : Form := l [s 0, l [s 8, s 1], l [s 7, s 8, s 1]]

def swapTerm : Term :=
  .lam 2 false [.app (.lam 1 false [.set (.loc 1 0) (.ref (.loc 1 1)), .set (.loc 1 1) (.ref (.loc 0 0))])
    [.ref (.loc 0 0)]]

theorem swap_den : Den C .expr [] swap 0 [swapTerm] 4 := by
  refine .lam (f := ⟨[s 8, s 1], none⟩) rfl rfl rfl ?_ (.exprs (by simp) (.cons ?_ .nil))
  · refine ⟨by decide, ?_⟩
    intro v hv _
    simp only [Frame.ids, Option.toList, List.append_nil, List.mem_cons, List.not_mem_nil, or_false] at hv
    rcases hv with rfl | rfl
    · exact ⟨8, rfl, by simp [bound]⟩
    · exact ⟨1, rfl, by simp [bound]⟩
  refine .use (t := 1) rfl rfl rfl (by intro x h; cases h) ?_
  refine .app (by simp [Form.isIdentifier]) (by intro g h; cases h) (.cons (m₁ := 4) ?_ (.cons (m₁ := 4) ?_ .nil))
  · refine .lam (f := ⟨[.closure (.rename 1) 1 [] (s 8)], none⟩) rfl rfl rfl (bindable_alias rfl)
      (.exprs (by simp) (.cons (m₁ := 4) ?_ (.cons (m₁ := 4) ?_ .nil)))
    · exact .set rfl rfl rfl rfl (.cons (by exact .var rfl rfl) (.cons (by exact .var rfl rfl) .nil))
    · exact .set rfl rfl rfl rfl (.cons (by exact .var rfl rfl) (.cons (by exact .var rfl rfl) .nil))
  · exact .var rfl rfl

example : ∃ M, ∀ n ≥ M, compile W n C.globals swap st = some (emit swapTerm [.stop] false) :=
  C53_compile_partial ready (by simp [swap, l, s, Form.ofList, Src]) swap_den

/-- Shadowing, internal definitions, and a macro use as the first expression:
`(lambda (x) (lambda (x) (define y x) (define (g x) (or2 y x)) (or2 g (g y))))` with `x`, `y`, `g` the
names 20, 21, 22. -/
def inner : Form := l [s 0, l [s 20], l [s 0, l [s 20],
  l [s 5, s 21, s 20],
  .cons (s 5) (.cons (l [s 22, s 20]) (l [l [s 3, s 21, s 20]])),
  l [s 3, s 22, l [s 22, s 21]]]]

def or2Term (a b : Term) : Term := .app (.lam 1 false [.ite (.ref (.loc 0 0)) (.ref (.loc 0 0)) b]) [a]

def innerTerm : Term :=
  .lam 1 false [.lam 1 false [.app (.lam 2 false [
      .set (.loc 0 0) (.ref (.loc 1 0)),
      .set (.loc 0 1) (.lam 1 false [or2Term (.ref (.loc 1 0)) (.ref (.loc 1 0))]),
      or2Term (.ref (.loc 0 1)) (.app (.ref (.loc 1 1)) [.ref (.loc 1 0)])])
    [.const .nil, .const .nil]]]

theorem bindable_sym {ρ : List Frame} {x : Name} (h : C.keyword (s x) = none) :
    C.Bindable ρ ⟨[s x], none⟩ := by
  refine ⟨by simp [Frame.ids], ?_⟩
  intro w hw hk
  simp only [Frame.ids, Option.toList, List.append_nil, List.mem_singleton] at hw
  subst hw
  exact absurd h hk

theorem inner_den : Den C .expr [] inner 0 [innerTerm] 8 := by
  refine .lam (f := ⟨[s 20], none⟩) rfl rfl rfl (bindable_sym rfl) (.exprs (by simp) (.cons ?_ .nil))
  refine .lam (f := ⟨[s 20], none⟩) rfl rfl rfl (bindable_sym rfl) ?_
  refine .defineUse (C := C) (ρ := [⟨[s 20], none⟩, ⟨[s 20], none⟩]) (m₁ := 4) (m₂ := 8) (ds := [l [s 5, s 21, s 20],
    .cons (s 5) (.cons (l [s 22, s 20]) (l [l [s 3, s 21, s 20]]))]) (vs := [s 21, s 22]) (es := [])
    (q := s 3) (d := l [s 22, l [s 22, s 21]]) (t := 0)
    (ts₁ := [.ref (.loc 1 0), .lam 1 false [or2Term (.ref (.loc 1 0)) (.ref (.loc 1 0))]])
    (t₀ := or2Term (.ref (.loc 0 1)) (.app (.ref (.loc 1 1)) [.ref (.loc 1 0)]))
    (.form (.form .stop)) (by simp) rfl ?_ rfl rfl ?_ ?_ .nil
  · refine ⟨by decide, ?_⟩
    intro v hv
    simp only [List.mem_cons, List.not_mem_nil, or_false] at hv
    rcases hv with rfl | rfl
    · exact ⟨rfl, rfl, fun x hx => by cases hx; simp [bound, s]⟩
    · exact ⟨rfl, rfl, fun x hx => by cases hx; simp [bound, s]⟩
  · refine .use (t := 0) rfl rfl rfl (by intro x h; cases h) ?_
    refine .app (by simp [Form.isIdentifier]) (by intro g h; cases h) (.cons (m₁ := 4) ?_ (.cons (m₁ := 4) ?_ .nil))
    · refine .lam (f := ⟨[.closure (.rename 1) 1 [] (s 4)], none⟩) rfl rfl rfl (bindable_alias rfl)
        (.exprs (by simp) (.cons ?_ .nil))
      refine .ite rfl rfl (.cons (by exact .var rfl rfl) (.cons (by exact .var rfl rfl) (.cons ?_ .nil)))
      refine .app (fun _ => rfl) (by intro g h; cases h) (.cons (by exact .var rfl rfl) (.cons (by exact .var rfl rfl) .nil))
    · exact .var rfl rfl
  · refine .defsVar (m₁ := 4) rfl rfl rfl (by exact .var rfl rfl) ?_
    refine .defsFun (m₁ := 8) (f := ⟨[s 20], none⟩) rfl rfl rfl (bindable_sym rfl) ?_ .defsNil
    refine .exprs (by simp) (.cons (m₁ := 8) ?_ .nil)
    refine .use (t := 0) rfl rfl rfl (by intro x h; cases h) ?_
    refine .app (by simp [Form.isIdentifier]) (by intro g h; cases h) (.cons (m₁ := 8) ?_ (.cons (m₁ := 8) ?_ .nil))
    · refine .lam (f := ⟨[.closure (.rename 5) 1 [] (s 4)], none⟩) rfl rfl rfl (bindable_alias rfl)
        (.exprs (by simp) (.cons (m₁ := 8) ?_ .nil))
      exact .ite rfl rfl (.cons (by exact .var rfl rfl) (.cons (by exact .var rfl rfl) (.cons (by exact .var rfl rfl) .nil)))
    · exact .var rfl rfl

example : ∃ M, ∀ n ≥ M, compile W n C.globals inner st = some (emit innerTerm [.stop] false) :=
  C53_compile_partial ready (by simp [inner, l, s, Form.ofList, Src]) inner_den

example : compile W 100 C.globals inner st = some (emit innerTerm [.stop] false) := by decide +kernel

/-- `(define (f if t) (or2 if t))` -/
example : ∃ M, ∀ n ≥ M,
    compile W n C.globals (.cons (s 5) (.cons (.cons (s 30) (l [s 2, s 4])) (l [l [s 3, s 2, s 4]]))) st =
      some [.loadClosure (emitBody [or2Term (.ref (.loc 0 0)) (.ref (.loc 1 1))]), .storeAbsolute 130,
        .stop] := by
  refine C53_define_procedure_partial ready (f := ⟨[s 2, s 4], none⟩) (x := 30) (m' := 4)
    (by simp [Src]) (by simp [l, Form.ofList, Src]) (by simp [l, Form.ofList, Src]) rfl rfl rfl
    bindable_if_t (.exprs (by simp) (.cons ?_ .nil))
  refine .use (t := 0) rfl rfl rfl (by intro x h; cases h) ?_
  refine .app (by simp [Form.isIdentifier]) (by intro g h; cases h) (.cons (m₁ := 4) ?_ (.cons (m₁ := 4) ?_ .nil))
  · refine .lam (f := ⟨[.closure (.rename 1) 1 [] (s 4)], none⟩) rfl rfl rfl (bindable_alias rfl)
      (.exprs (by simp) (.cons ?_ .nil))
    refine .ite rfl rfl (.cons (by exact .var rfl rfl) (.cons (by exact .var rfl rfl) (.cons (by exact .var rfl rfl) .nil)))
  · exact .var rfl rfl

/-- `(define f or2-free)`: `(define x (lambda (if t) (or2 if t)))` -/
example : ∃ M, ∀ n ≥ M, compile W n C.globals (l [s 5, s 31, capture]) st =
    some (emit captureTerm [.storeAbsolute 131, .stop] false) :=
  C53_define_partial ready (x := 31) (by simp [Src]) (by simp [capture, l, s, Form.ofList, Src]) rfl rfl
    capture_den

end Meevax.Expand.Example
