import Verif.Lemmas.SurfaceFresh
import Verif.Lemmas.DerivedSpace
import Verif.Props.MacroPrograms

/-!
C66: programs written with the derived expression types of R7RS 4.2 do what the report says.

`cond`, `and`, `or`, `let`, named `let`, `let*` and `do` are macros of the library (library/r4rs.ss).  Here we
go from the source of a program that uses them, read as R7RS reads it (Spec/SurfaceSyntax.lean), to what
the machine does with the code the compiler gives it, and compare that with a semantics in which each of
the derived expression types has a rule of its own (Spec/Surface.lean): no macros, no temporaries.
-/

namespace Meevax.Expand.Derived

open Secd (Name Code)
open Spec
open Surface (seqs cores)

/-- What a form at the outermost level is: an expression, a definition of a variable, or a definition of a
procedure. -/
inductive Means (C : Ctx) (ids : Macro → Nat) (base : Nat) : Form → Surface.Expr → Prop
  | expr {form : Form} {e : Surface.Expr} : Src base form → Reads C ids [] form (.expr e) →
    Means C ids base form e
  | define {q x : Name} {form : Form} {e : Surface.Expr} : C.symbol q = some (.syn .define) →
    Src base form → Reads C ids [] form (.expr e) →
    Means C ids base (.ofList [.sym q, .sym x, form]) (.set x e)
  | procedure {q x : Name} {fs : List Name} {rest : Option Name} {body : Form} {e : Surface.Expr} :
    C.symbol q = some (.syn .define) → C.Binds [] (fs ++ rest.toList) → Src base body →
    Reads C ids [(fs, rest)] body (.body e) →
    Means C ids base (.cons (.sym q) (.cons (.cons (.sym x) (formals fs rest)) body))
      (.set x (.lam fs rest e))

/-- A form of a program, the bindings and macros when it is compiled, and what it is. -/
structure Item where
  C : Ctx
  W : World
  base : Nat
  st : St
  home : Nat
  ids : Macro → Nat
  form : Form
  expr : Surface.Expr

/-- The compiler is in a state it can be in; the library is there; the form is the expression; the name
of a named `let` does not occur in the initial values; `free` gives the global variables. -/
structure Item.Ok (free : Name → Nat) (i : Item) : Prop where
  ready : Ready i.C i.W i.base i.st
  library : Library i.C i.home i.ids
  means : Means i.C i.ids i.base i.form i.expr
  fine : i.expr.Avoids fun _ => False
  global : i.C.index = free

/-- The compiler gives the form this code. -/
def Item.Compiles (i : Item) (c : Code) : Prop :=
  ∃ M, ∀ n ≥ M, compile i.W n i.C.globals i.form i.st = some c

theorem src_formals {base : Nat} : ∀ (fs : List Name) (rest : Option Name), Src base (formals fs rest)
  | [], none => by simp [formals, Src]
  | [], some r => by simp [formals, Src]
  | x :: fs, rest => by simp only [formals, Src, true_and]; exact src_formals fs rest

variable {free : Name → Nat} {t r : Name}

theorem Item.Ok.compiles {i : Item} (h : i.Ok free) (hne : t ≠ r) (ha : i.expr.Avoids fun x => x = t ∨ x = r) :
    i.Compiles (Secd.comp free [] (i.expr.core t r) [.stop] false) := by
  obtain ⟨C, W, base, st, home, ids, form, e⟩ := i
  obtain ⟨hr, hL, hm, -, rfl⟩ := h
  simp only at hr hL hm ha ⊢
  cases hm with
  | expr hs hd =>
    obtain ⟨T, m', hg⟩ := reads_good (H := fun x => x = t ∨ x = r) hL hne hd (.inl rfl) (.inr rfl) ha (.nil (m := st.made))
    obtain ⟨M, h⟩ := C53_compile_partial hr hs hg.den
    exact ⟨M, fun n hn => by rw [h n hn, hg.codes _ false (by simp)]⟩
  | @define q x form e hq hs hd =>
    simp only [Surface.Expr.Avoids] at ha
    obtain ⟨T, m', hg⟩ := reads_good (H := fun x => x = t ∨ x = r) hL hne hd (.inl rfl) (.inr rfl) ha.2 (.nil (m := st.made))
    obtain ⟨M, h⟩ := C53_define_partial (q := .sym q) (x := x) hr (by simp [Src]) hs rfl hq hg.den
    refine ⟨M, fun n hn => ?_⟩
    simp only [Surface.Expr.core, Secd.comp]
    rw [h n hn, hg.codes _ false (by simp)]
    rfl
  | @procedure q x fs rest body e hq hb hs hd =>
    simp only [Surface.Expr.Avoids] at ha
    have hM : Match C (fun x => x = t ∨ x = r) st.made [(fs, rest)] [⟨fs.map .sym, rest.map .sym⟩] [(fs, rest)] :=
      .user fs rest .nil
    obtain ⟨Ts, m', hg⟩ := reads_good (H := fun x => x = t ∨ x = r) hL hne hd (.inl rfl) (.inr rfl)
      ha.2.2 hM
    obtain ⟨M, h⟩ := C53_define_procedure_partial (q := .sym q) (x := x) hr (by simp [Src]) (src_formals fs rest) hs rfl hq
      (parse_formals fs rest) (bindable_symbols (.nil (m := 0) (H := fun x => x = t ∨ x = r)) hb ha.2.1)
      hg.den
    refine ⟨M, fun n hn => ?_⟩
    simp only [Surface.Expr.core, Secd.comp]
    rw [h n hn, hg.codes]
    rfl

theorem Item.Ok.placed {i : Item} (h : i.Ok free) : Scheme.Placed false (i.expr.core t r) := by
  obtain ⟨C, W, base, st, home, ids, form, e⟩ := i
  obtain ⟨hr, hL, hm, -, -⟩ := h
  simp only at hm ⊢
  cases hm with
  | expr _ hd => exact reads_placed hd _
  | define _ _ hd => simp only [Surface.Expr.core]; exact .set _ _ (reads_placed hd _)
  | procedure _ _ _ hd =>
    simp only [Surface.Expr.core]
    exact .set _ _ (.lam _ _ _ (reads_placed hd _))

/-- The expressions of a program. -/
def exprsOf (items : List Item) : List Surface.Expr := items.map (·.expr)

theorem items_compile {items : List Item} (hne : t ≠ r) (h : ∀ i ∈ items, i.Ok free)
    (ha : Surface.Avoid (exprsOf items) fun x => x = t ∨ x = r) :
    List.Forall₂ Item.Compiles items
      ((cores t r (exprsOf items)).map fun e => Secd.comp free [] e [.stop] false) := by
  induction items with
  | nil => exact .nil
  | cons i is ih =>
    simp only [exprsOf, List.map_cons, Surface.Avoid] at ha
    exact .cons ((h i (by simp)).compiles hne ha.1) (ih (fun j hj => h j (by simp [hj])) ha.2)

/-- **C66**: what the machine does with the code of a program that uses `cond`, `and`, `or`, `let`, named
`let`, `let*` and `do` is what the report says of these expressions: the same values form by form, the same
object raised, or no end.

Partial: within the limits of C53 (`Ready`, `Src`, `Ctx.Binds` and `Ctx.Defines` in `Reads`); no `call-with-current-continuation!`; the name of a named `let` must not occur
in its initial values (`Item.Ok.fine`; see `C66_named_let_fails`); programs in error by the report are
excluded. -/
theorem C66_program_partial {items : List Item} (h : ∀ i ∈ items, i.Ok free) (g r₀ : Nat → Base)
    (hf : ¬ Surface.InError free Surface.core (Surface.initial g) (exprsOf items)) :
    ∃ codes, List.Forall₂ Item.Compiles items codes ∧
      ∀ outs x, Secd.Behaves Secd.core (Secd.initial g r₀) codes outs x ↔
        Surface.Behaves free Surface.core (Surface.initial g) (exprsOf items) outs x := by
  obtain ⟨t, r, hne, ha⟩ := Surface.exists_fresh (es := exprsOf items) (by
    rw [Surface.avoid_iff]
    intro e he
    obtain ⟨i, hi, rfl⟩ := List.mem_map.1 he
    exact (h i hi).fine)
  have hp : ∀ e ∈ cores t r (exprsOf items), Scheme.Placed false e := by
    intro e he
    rw [Surface.cores_eq] at he
    obtain ⟨e, he', rfl⟩ := List.mem_map.1 he
    obtain ⟨i, hi, rfl⟩ := List.mem_map.1 he'
    exact (h i hi).placed
  have hto : ∀ {outs x}, Surface.Behaves free Surface.core (Surface.initial g) (exprsOf items) outs x →
      Secd.Behaves Secd.core (Secd.initial g r₀)
        ((cores t r (exprsOf items)).map fun e => Secd.comp free [] e [.stop] false) outs x := fun hb =>
    Secd.behaves_of Secd.core_ok
      (Surface.Behaves.core hne Surface.core_rel (H := fun x => x = t ∨ x = r) (.inl rfl) (.inr rfl) hb
        (Surface.initial_rel g r₀) ha) (Secd.initial_inv g r₀) hp
  refine ⟨_, items_compile hne h ha, fun outs x => ⟨fun hb => ?_, hto⟩⟩
  rcases Surface.behaves_or_error (free := free) Surface.core (exprsOf items) (Surface.initial g) with
    ⟨outs', x', hb'⟩ | he
  · obtain ⟨rfl, rfl⟩ := hb.det (hto hb')
    exact hb'
  · exact absurd he hf

theorem Item.Compiles.unique {i : Item} {c c' : Code} (h : i.Compiles c) (h' : i.Compiles c') : c = c' := by
  obtain ⟨M, h⟩ := h
  obtain ⟨M', h'⟩ := h'
  exact Option.some.inj ((h (max M M') (by omega)).symm.trans (h' (max M M') (by omega)))

/-- **C66**: a tail call in the last expression of a clause of `cond`, of `and`, `or`, `let`, named `let` and
`let*`, and in the results of `do`, is a tail call, and so is each iteration of `do`: the control space of
the machine is at most a constant, which depends on the program only, times the depth of the continuation
of the program in the semantics of the report. -/
theorem C66_control_space {items : List Item} (h : ∀ i ∈ items, i.Ok free) {codes : List Code}
    (hc : List.Forall₂ Item.Compiles items codes) :
    ∃ K, ∀ (g r₀ : Nat → Base) (m : Secd.State),
      ¬ Surface.InError free Surface.core (Surface.initial g) (exprsOf items) →
      Secd.Reaches Secd.core (Secd.initial g r₀) codes m →
      ∃ st, Surface.Reaches free Surface.core (Surface.initial g) (exprsOf items) st ∧
        m.space ≤ K * (st.κ.depth + 1) := by
  obtain ⟨t, r, hne, ha⟩ := Surface.exists_fresh (es := exprsOf items) (by
    rw [Surface.avoid_iff]
    intro e he
    obtain ⟨i, hi, rfl⟩ := List.mem_map.1 he
    exact (h i hi).fine)
  have hp : ∀ e ∈ cores t r (exprsOf items), Scheme.Placed false e := by
    intro e he
    rw [Surface.cores_eq] at he
    obtain ⟨e, he', rfl⟩ := List.mem_map.1 he
    obtain ⟨i, hi, rfl⟩ := List.mem_map.1 he'
    exact (h i hi).placed
  obtain rfl := Secd.forall₂_unique (R := Item.Compiles) (fun _ _ _ h h' => Item.Compiles.unique h h') hc
    (items_compile hne h ha)
  refine ⟨(2 * Secd.nestingOf (cores t r (exprsOf items)) + 1) * 14, fun g r₀ m hf hm => ?_⟩
  have hb : ¬ Scheme.Faulty free Scheme.core (Scheme.initial g r₀) (cores t r (exprsOf items)) := by
    rcases Surface.behaves_or_error (free := free) Surface.core (exprsOf items) (Surface.initial g) with
      ⟨outs', x', hb'⟩ | he
    · exact Secd.behaves_not_faulty (Surface.Behaves.core hne Surface.core_rel (H := fun x => x = t ∨ x = r)
        (.inl rfl) (.inr rfl) hb' (Surface.initial_rel g r₀) ha)
    · exact absurd he hf
  obtain ⟨st, h₁, h₂⟩ := Secd.reaches_bound Secd.core_ok hm rfl (Secd.initial_inv g r₀) hp hb
  obtain ⟨st₁, h₃, h₄⟩ := Surface.Reaches.core hne Surface.core_rel Scheme.core_plain (H := fun x => x = t ∨ x = r)
    (.inl rfl) (.inr rfl) (Surface.initial_rel g r₀) (Scheme.Plain.initial g r₀) ha hf h₁
  obtain ⟨_, js, hok⟩ := Secd.reaches_ok (B := Secd.nestingOf (cores t r (exprsOf items))) Secd.core_inert hm
    (Secd.initial_ok g r₀) (by
      intro c hc
      obtain ⟨e, he, rfl⟩ := List.mem_map.1 hc
      have := Secd.le_nestingArgs he
      exact Secd.comp_ok _ _ e _ false true [] 0 (hp e he) (by simp)
        (by simpa [Secd.nestingOf] using this) (by simpa [Secd.nestingOf] using this) .stop)
  refine ⟨st₁, h₃, Nat.le_trans hok.space ?_⟩
  rw [Nat.mul_assoc]
  exact Nat.mul_le_mul_left _ (by omega)

end Meevax.Expand.Derived
