import Verif.Lemmas.Readback
import Verif.Lemmas.SecdSpace
import Verif.Props.SecdSpace
import Verif.Props.HygieneExamples

/-!
C64: programs that use macros, from the source to the running code.

C53 says which code the compiler gives a program; here we say what the machine does with it: what the
hygienic meaning of the program, as an expression with a name of its own for every variable, means in
the semantics of Spec/Scheme.lean.
-/

namespace Meevax.Expand

open Secd (Name Code)
open Spec

/-- The meaning of a form at the outermost level: an expression, or a definition of a variable or of a
procedure. -/
inductive Means (C : Ctx) (base m : Nat) : Form → Term → Prop
  | expr {form : Form} {t : Term} {m' : Nat} : Src base form → Den C .expr [] form m [t] m' →
    Means C base m form t
  | define {q e : Form} {x : Name} {t : Term} {m' : Nat} : Src base q → Src base e →
    q.isIdentifier = true → C.keyword q = some (.syn .define) → Den C .expr [] e m [t] m' →
    Means C base m (.ofList [q, .sym x, e]) (.set (.glob ((C.globals x).getD (C.fresh x))) t)
  | procedure {q F forms : Form} {f : Frame} {x : Name} {ts : List Term} {m' : Nat} : Src base q →
    Src base F → Src base forms → q.isIdentifier = true → C.keyword q = some (.syn .define) →
    parse F = some f → C.Bindable [] f → Den C .body [f] forms m ts m' →
    Means C base m (.cons q (.cons (.cons (.sym x) F) forms))
      (.set (.glob ((C.globals x).getD (C.fresh x))) (.lam f.fixed.length f.rest.isSome ts))

/-- A form of a program, the bindings and macros when it is compiled, and its meaning. -/
structure Item where
  C : Ctx
  W : World
  base : Nat
  st : St
  form : Form
  term : Term

structure Item.Ok (i : Item) : Prop where
  ready : Ready i.C i.W i.base i.st
  means : Means i.C i.base i.st.made i.form i.term

/-- The compiler gives the form this code. -/
def Item.Compiles (i : Item) (c : Code) : Prop :=
  ∃ M, ∀ n ≥ M, compile i.W n i.C.globals i.form i.st = some c

theorem Item.Compiles.unique {i : Item} {c c' : Code} (h : i.Compiles c) (h' : i.Compiles c') : c = c' := by
  obtain ⟨M, h⟩ := h
  obtain ⟨M', h'⟩ := h'
  exact Option.some.inj ((h (max M M') (by omega)).symm.trans (h' (max M M') (by omega)))

theorem Means.closed {C : Ctx} {base m : Nat} {form : Form} {t : Term} (h : Means C base m form t) :
    Closed [] t := by
  cases h with
  | expr _ hd => exact (den_closed hd).1 _ (by simp)
  | define _ _ _ _ hd =>
    simp only [Closed]
    exact ⟨trivial, (den_closed hd).1 _ (by simp)⟩
  | procedure _ _ _ _ _ _ _ hd =>
    simp only [Closed, closedAll_iff]
    exact ⟨trivial, (den_closed hd).2 rfl, (den_closed hd).1⟩

/-- The code of a form is the code of its meaning. -/
theorem Item.Ok.compiles {i : Item} (h : i.Ok) :
    i.Compiles (Secd.comp free [] (i.term.expr 0) [.stop] false) := by
  obtain ⟨C, W, base, st, form, t⟩ := i
  obtain ⟨hr, hm⟩ := h
  simp only at hr hm ⊢
  rw [show Secd.comp free [] (t.expr 0) [.stop] false = emit t [.stop] false from
    comp_emit t [] _ false hm.closed (by simp)]
  cases hm with
  | expr hs hd => exact C53_compile_partial hr hs hd
  | define hs hse hi hq hd =>
    obtain ⟨M, h⟩ := C53_define_partial hr hs hse hi hq hd
    refine ⟨M, fun n hn => ?_⟩
    simp only [emit]
    exact h n hn
  | procedure hs hsF hsf hi hq hF hb hd =>
    obtain ⟨M, h⟩ := C53_define_procedure_partial hr hs hsF hsf hi hq hF hb hd
    refine ⟨M, fun n hn => ?_⟩
    simp only [emit]
    exact h n hn

/-- The expressions of a program. -/
def exprsOf (items : List Item) : List Scheme.Expr := items.map fun i => i.term.expr 0

theorem exprsOf_plain {items : List Item} : ∀ e ∈ exprsOf items, Scheme.Plain e := by
  intro e he
  obtain ⟨i, -, rfl⟩ := List.mem_map.1 he
  exact expr_plain _ _

theorem exprsOf_placed {items : List Item} : ∀ e ∈ exprsOf items, Scheme.Placed false e := by
  intro e he
  obtain ⟨i, -, rfl⟩ := List.mem_map.1 he
  exact expr_placed _ _ _

theorem items_compile {items : List Item} (h : ∀ i ∈ items, i.Ok) :
    List.Forall₂ Item.Compiles items
      ((exprsOf items).map fun e => Secd.comp free [] e [.stop] false) := by
  induction items with
  | nil => exact .nil
  | cons i is ih => exact .cons (h i (by simp)).compiles (ih fun j hj => h j (by simp [hj]))

/-- **C64**: what the machine does with the code of a program that uses macros is what the hygienic
meaning of the program means: the same values form by form, the same object raised, or no end.

Partial: within the limits of C53 (`Means`, `Ready`); no `call-with-current-continuation!`; programs
in error by the report are excluded. -/
theorem C64_program_partial {items : List Item} (h : ∀ i ∈ items, i.Ok) (g r : Nat → Base)
    (hf : ¬ Scheme.InError free Scheme.core (Scheme.initial g r) (exprsOf items)) :
    ∃ codes, List.Forall₂ Item.Compiles items codes ∧
      ∀ outs x, Secd.Behaves Secd.core (Secd.initial g r) codes outs x ↔
        Scheme.Behaves free Scheme.core (Scheme.initial g r) (exprsOf items) outs x := by
  have hf' : ¬ Scheme.Faulty free Scheme.core (Scheme.initial g r) (exprsOf items) :=
    fun h => hf (Scheme.Plain.faulty Scheme.core_plain h (Scheme.Plain.initial g r) exprsOf_plain)
  refine ⟨_, items_compile h, fun outs x => ⟨fun hb => ?_, fun hb => ?_⟩⟩
  · rcases Secd.behaves_or_faulty (free := free) Scheme.core (exprsOf items) (Scheme.initial g r) with
      ⟨outs', x', hb'⟩ | h
    · obtain ⟨rfl, rfl⟩ := hb.det (Secd.behaves_of Secd.core_ok hb' (Secd.initial_inv g r) exprsOf_placed)
      exact hb'
    · exact absurd h hf'
  · exact Secd.behaves_of Secd.core_ok hb (Secd.initial_inv g r) exprsOf_placed

/-- **C64**: the code of such a program, in error or not, never looks for an operand or an entry of
the dump that is not there. -/
theorem C64_no_underflow {items : List Item} (h : ∀ i ∈ items, i.Ok) {codes : List Code}
    (hc : List.Forall₂ Item.Compiles items codes) (g r : Nat → Base) {m : Secd.State}
    (hm : Secd.Reaches Secd.core (Secd.initial g r) codes m) : ¬ Secd.Underflow m := by
  obtain rfl := Secd.forall₂_unique (R := Item.Compiles) (fun _ _ _ h h' => Item.Compiles.unique h h') hc (items_compile h)
  obtain ⟨t, js, hok⟩ := Secd.reaches_ok (B := Secd.nestingOf (exprsOf items)) Secd.core_inert hm
    (Secd.initial_ok g r) (by
      intro c hc
      obtain ⟨e, he, rfl⟩ := List.mem_map.1 hc
      have := Secd.le_nestingArgs he
      exact Secd.comp_ok _ _ e _ false true [] 0 (exprsOf_placed e he) (by simp)
        (by simpa [Secd.nestingOf] using this) (by simpa [Secd.nestingOf] using this) .stop)
  exact Secd.not_underflow hok

/-- **C64**: tail calls in the expansion are tail calls: the control space of the machine is at most a
constant times the depth of the continuation of the program. -/
theorem C64_control_space {items : List Item} (h : ∀ i ∈ items, i.Ok) {codes : List Code}
    (hc : List.Forall₂ Item.Compiles items codes) (g r : Nat → Base)
    (hf : ¬ Scheme.InError free Scheme.core (Scheme.initial g r) (exprsOf items)) {m : Secd.State}
    (hm : Secd.Reaches Secd.core (Secd.initial g r) codes m) :
    ∃ st, Scheme.Reaches free Scheme.core (Scheme.initial g r) (exprsOf items) st ∧
      m.space ≤ (2 * Secd.nestingOf (exprsOf items) + 1) * (st.κ.depth + 2) := by
  have hf' : ¬ Scheme.Faulty free Scheme.core (Scheme.initial g r) (exprsOf items) :=
    fun h => hf (Scheme.Plain.faulty Scheme.core_plain h (Scheme.Plain.initial g r) exprsOf_plain)
  obtain rfl := Secd.forall₂_unique (R := Item.Compiles) (fun _ _ _ h h' => Item.Compiles.unique h h') hc (items_compile h)
  obtain ⟨st, h₁, h₂⟩ := Secd.reaches_bound Secd.core_ok hm rfl (Secd.initial_inv g r) exprsOf_placed hf'
  obtain ⟨t, js, hok⟩ := Secd.reaches_ok (B := Secd.nestingOf (exprsOf items)) Secd.core_inert hm
    (Secd.initial_ok g r) (by
      intro c hc
      obtain ⟨e, he, rfl⟩ := List.mem_map.1 hc
      have := Secd.le_nestingArgs he
      exact Secd.comp_ok _ _ e _ false true [] 0 (exprsOf_placed e he) (by simp)
        (by simpa [Secd.nestingOf] using this) (by simpa [Secd.nestingOf] using this) .stop)
  exact ⟨st, h₁, Nat.le_trans hok.space (Nat.mul_le_mul_left _ (by omega))⟩

/-- The variables of a program have different names, whatever the places where they are bound. -/
theorem C64_names_distinct {d d' j j' g g' : Nat} :
    (localName d j = localName d' j' ↔ d = d' ∧ j = j') ∧
    (globalName g = globalName g' ↔ g = g') ∧ localName d j ≠ globalName g := by
  refine ⟨⟨localName_inj, fun h => by rw [h.1, h.2]⟩, ⟨fun h => ?_, fun h => by rw [h]⟩,
    fun h => global_ne_local h.symm⟩
  have h : 2 * g + 1 = 2 * g' + 1 := h
  omega

namespace Example

/-- `(define f (lambda (if t) (or2 if t)))` -/
def item₁ : Item := ⟨C, W, 2, st, l [s 5, s 31, capture], .set (.glob 131) captureTerm⟩

/-- `(f #f 5)` -/
def item₂ : Item :=
  ⟨C, W, 2, st, l [s 31, .bool false, .atom 5],
    .app (.ref (.glob 131)) [.const (.bool false), .const (.atom 5)]⟩

theorem item₁_ok : item₁.Ok :=
  ⟨ready, .define (C := C) (x := 31) (by simp [Src]) (by simp [capture, l, s, Form.ofList, Src]) rfl rfl
    capture_den⟩

theorem item₂_ok : item₂.Ok := by
  refine ⟨ready, .expr (m' := 0) (by simp [item₂, l, s, Form.ofList, Src]) ?_⟩
  refine .app (by intro _; rfl) (by intro g h; cases h; rfl) (.cons (m₁ := 0) (by exact .var rfl rfl)
    (.cons (m₁ := 0) (.const rfl (by intro _ _ h; cases h) rfl)
      (.cons (m₁ := 0) (.const rfl (by intro _ _ h; cases h) rfl) .nil)))

def g₀ (_ : Nat) : Base := .datum .undefined

theorem items_behave : ∃ o₁ o₂, Scheme.Behaves free Scheme.core (Scheme.initial g₀ g₀)
    (exprsOf [item₁, item₂]) [o₁, o₂] .finished ∧ o₂ 3 = .datum (.atom 5) :=
  ⟨_, _, .cons 5 rfl (.cons 40 rfl (.nil _)), rfl⟩

/-- C64 applies: the program prints 5, although it binds both the keyword and the variable of the
macro. -/
theorem C64_example : ∃ codes outs, List.Forall₂ Item.Compiles [item₁, item₂] codes ∧
    Secd.Behaves Secd.core (Secd.initial g₀ g₀) codes outs .finished ∧
    outs[1]?.map (· 3) = some (.datum (.atom 5)) := by
  obtain ⟨o₁, o₂, hb, ho⟩ := items_behave
  have hne : ¬ Scheme.InError free Scheme.core (Scheme.initial g₀ g₀) (exprsOf [item₁, item₂]) :=
    fun h => Secd.behaves_not_faulty hb h.faulty
  obtain ⟨codes, h₁, h₂⟩ := C64_program_partial (items := [item₁, item₂]) (by
    intro i hi
    simp only [List.mem_cons, List.not_mem_nil, or_false] at hi
    rcases hi with rfl | rfl
    · exact item₁_ok
    · exact item₂_ok) g₀ g₀ hne
  exact ⟨codes, _, h₁, (h₂ _ _).2 hb, by simpa using ho⟩

end Example

end Meevax.Expand
