import Verif.Model.Toplevel
import Verif.Spec.Compare
import Verif.Props.HygieneFails

/-!
C101: macros defined at the outermost level, and the definitions before and after them.
-/

namespace Meevax.Expand

open Secd (Name Code)
open Spec

/-! ## Programs only add names -/

theorem top_bind_keeps (T : Top) (x : Name) {y : Name} {g : Nat} (h : T.second y = some g) :
    (T.bind x).2.second y = some g := by
  unfold Top.bind
  split
  · exact h
  · rename_i hx
    have : y ≠ x := by rintro rfl; rw [hx] at h; cases h
    simp [this, h]

theorem top_bind_st (T : Top) (x : Name) : (T.bind x).2.st = T.st := by
  unfold Top.bind; split <;> rfl

theorem top_bind_self (T : Top) (x : Name) : (T.bind x).2.second x = some (T.bind x).1 := by
  unfold Top.bind
  split
  · assumption
  · simp

theorem top_step_keeps (T : Top) (i : TopItem) {y : Name} {g : Nat} (h : T.second y = some g) :
    (T.step i).second y = some g := by
  cases i with
  | define x => exact top_bind_keeps T x h
  | refer x => exact top_bind_keeps T x h
  | «syntax» k p => exact top_bind_keeps T k h

theorem top_run_keeps (items : List TopItem) (T : Top) {y : Name} {g : Nat} (h : T.second y = some g) :
    (T.run items).second y = some g := by
  induction items generalizing T with
  | nil => exact h
  | cons i items ih => exact ih (T.step i) (top_step_keeps T i h)

theorem top_step_envs (T : Top) (i : TopItem) : T.st.nextEnv ≤ (T.step i).st.nextEnv ∧
    T.st.nextMacro ≤ (T.step i).st.nextMacro ∧
    (∀ e < T.st.nextEnv, (T.step i).st.envs e = T.st.envs e) ∧
    ∀ t < T.st.nextMacro, (T.step i).st.macros t = T.st.macros t := by
  cases i with
  | define x =>
    have h : (T.step (.define x)).st = T.st := top_bind_st T x
    rw [h]; simp
  | refer x =>
    have h : (T.step (.refer x)).st = T.st := top_bind_st T x
    rw [h]; simp
  | «syntax» k p =>
    simp only [Top.step, Top.defineSyntax, newEnv, top_bind_st]
    refine ⟨Nat.le_succ _, Nat.le_succ _, fun e he => ?_, fun t ht => ?_⟩
    · rw [if_neg (by omega)]
    · rw [if_neg (by omega)]

theorem top_run_envs (items : List TopItem) (T : Top) : T.st.nextEnv ≤ (T.run items).st.nextEnv ∧
    T.st.nextMacro ≤ (T.run items).st.nextMacro ∧
    (∀ e < T.st.nextEnv, (T.run items).st.envs e = T.st.envs e) ∧
    ∀ t < T.st.nextMacro, (T.run items).st.macros t = T.st.macros t := by
  induction items generalizing T with
  | nil => exact ⟨Nat.le_refl _, Nat.le_refl _, fun _ _ => rfl, fun _ _ => rfl⟩
  | cons i items ih =>
    obtain ⟨h₁, h₂, h₃, h₄⟩ := top_step_envs T i
    obtain ⟨k₁, k₂, k₃, k₄⟩ := ih (T.step i)
    refine ⟨Nat.le_trans h₁ k₁, Nat.le_trans h₂ k₂, fun e he => ?_, fun t ht => ?_⟩
    · exact (k₃ e (by omega)).trans (h₃ e he)
    · exact (k₄ t (by omega)).trans (h₄ t ht)

/-! ## What the macro inserts -/

/-- A program that defines a macro and goes on. -/
structure Since (T₀ : Top) (k : Name) (p : Nat) (items : List TopItem) (T : Top) : Prop where
  run : T = (T₀.defineSyntax k p).run items

/-- The names that have a variable when the macro `k` has been defined: those from before, and `k`. -/
def boundAt (T₀ : Top) (k : Name) (x : Name) : Prop := x = k ∨ (T₀.second x).isSome

/-- A renamed symbol that the macro inserts. -/
def Inserted (T : Top) (t : Nat) (x : Name) (c : Form) : Prop :=
  ∃ i, c = .closure i (T.st.macros t).2 [] (.sym x)

/-- No local variable or keyword is named by the symbol or by a renamed symbol of the macro. -/
def Unshadowed (T : Top) (t : Nat) (x : Name) (bv : Scopes) : Prop :=
  ∀ fs ∈ frames bv, Skips (.sym x) fs ∧
    ∀ i, Skips (.closure i (T.st.macros t).2 [] (.sym x)) fs

theorem defineSyntax_bound {T₀ : Top} {k : Name} {p : Nat} {x : Name} :
    ((T₀.defineSyntax k p).second x).isSome ↔ boundAt T₀ k x := by
  have h : (T₀.defineSyntax k p).second = (T₀.bind k).2.second := rfl
  rw [h]
  constructor
  · intro hx
    by_cases hk : x = k
    · exact .inl hk
    · refine .inr ?_
      unfold Top.bind at hx
      split at hx
      · exact hx
      · simpa [hk] using hx
  · rintro (rfl | hx)
    · rw [top_bind_self]; rfl
    · obtain ⟨g, hg⟩ := Option.isSome_iff_exists.1 hx
      rw [top_bind_keeps T₀ k hg]; rfl

theorem defineSyntax_macro (T₀ : Top) (k : Name) (p : Nat) :
    (T₀.defineSyntax k p).st.macros T₀.st.nextMacro = (p, T₀.st.nextEnv) ∧
    (T₀.defineSyntax k p).st.nextMacro = T₀.st.nextMacro + 1 ∧
    (T₀.defineSyntax k p).st.nextEnv = T₀.st.nextEnv + 1 ∧
    (T₀.defineSyntax k p).st.envs T₀.st.nextEnv = ⟨[], (T₀.defineSyntax k p).second⟩ := by
  simp [Top.defineSyntax, newEnv, top_bind_st]

theorem since_env {T₀ T : Top} {k : Name} {p : Nat} {items : List TopItem}
    (h : Since T₀ k p items T) :
    (T.st.macros T₀.st.nextMacro).2 = T₀.st.nextEnv ∧
      T.ready.envs T₀.st.nextEnv = ⟨[], (T₀.defineSyntax k p).second⟩ := by
  obtain ⟨h₁, h₂, h₃, h₄⟩ := defineSyntax_macro T₀ k p
  obtain ⟨k₁, k₂, k₃, k₄⟩ := top_run_envs items (T₀.defineSyntax k p)
  rw [← h.run] at k₁ k₂ k₃ k₄
  refine ⟨by rw [k₄ _ (by omega), h₁], ?_⟩
  have : T₀.st.nextEnv ≠ T.st.nextEnv := by omega
  simp only [Top.ready, newEnv, this, if_false]
  rw [k₃ _ (by omega), h₄]

theorem scanFormals_skips {v : Form} (hv : v.isIdentifier = true) {i : Nat} : ∀ {fs : Form} {j : Nat},
    Skips v fs → scanFormals v i fs j = none := by
  intro fs
  induction fs with
  | cons a d _ ih =>
    intro j h
    have hne : a ≠ v := by rintro rfl; exact h none (.loc d)
    have hk : ∀ t, a ≠ .macro v t := by rintro t rfl; exact h (some t) (.keyword t d)
    have hd : Skips v d := fun r hr => h r (.later hne hk hr)
    have ih' := ih (j := j + 1) hd
    cases a with
    | «macro» k t =>
      have : k ≠ v := fun hk' => hk t (by rw [hk'])
      simp [scanFormals, this, ih']
    | _ => simp only [scanFormals, hne, if_false, ih']
  | _ =>
    intro j h
    rw [scanFormals.eq_def]
    simp only
    split
    · rename_i hc
      have : _ = v := (by simpa using hc : _ ∧ _).2
      subst this
      exact absurd .rest (h none)
    · rfl

theorem scan_skips {v : Form} (hv : v.isIdentifier = true) {bv : List Form} {i : Nat}
    (h : ∀ fs ∈ bv, Skips v fs) : scan v bv i = none := by
  induction bv generalizing i with
  | nil => rfl
  | cons fs bv ih =>
    simp only [scan, scanFormals_skips hv (h fs (.head _))]
    exact ih fun fs' h' => h fs' (.tail _ h')

theorem skips_nil {v : Form} (hv : v.isIdentifier = true) : Skips v .nil := by
  intro r hr
  cases hr
  cases hv

/-- What an inserted symbol is identified with. -/
theorem identify_inserted {H : Nat → Env} {s : Name → Option Nat} {e : Nat} {i : Stamp} {x : Name}
    {s' : Name → Option Nat} (he : H e = ⟨[], s'⟩) {bv : List Form}
    (hx : ∀ fs ∈ bv, Skips (.sym x) fs) (hc : ∀ fs ∈ bv, Skips (.closure i e [] (.sym x)) fs) :
    identify H s (.closure i e [] (.sym x)) bv = (s' x).map .absolute := by
  rw [identify.eq_def, scan_skips rfl hc]
  simp only [Form.isIdentifier, if_true, identify, he, frames, List.map_nil, pad, List.append_nil,
    scan_skips (v := .sym x) rfl hx]
  rw [scan_skips (v := .sym x) rfl]
  · cases (s' x).map Identity.absolute <;> rfl
  · intro fs hfs
    rw [List.eq_of_mem_replicate hfs]
    exact skips_nil rfl

theorem code_sym {T : Top} {W : World} {n : Nat} {x : Name} {bv : Scopes}
    (hx : ∀ fs ∈ frames bv, Skips (.sym x) fs) :
    T.code W (n + 1) (.sym x) bv = some [.loadAbsolute ((T.second x).getD (W.fresh x))] := by
  have hc : convert (.sym x) T.ready = (.sym x, T.ready) := by
    simp [convert, convertSym, Top.ready]
  have hi : identify T.ready.envs T.second (.sym x) (frames bv) = (T.second x).map .absolute := by
    rw [identify.eq_def, scan_skips rfl hx]
  simp only [Top.code, expand, hc, Option.bind_eq_bind, Option.bind_some, generate, reference, hi]
  cases T.second x <;> rfl

/-! ## C101 -/

/-- **C101**: a name keeps its variable: later definitions, references and macros do not give it
another one. -/
theorem C101_names (T : Top) (items : List TopItem) {x : Name} {g : Nat} (h : T.second x = some g) :
    (T.run items).second x = some g := top_run_keeps items T h

/-- **C101**: `define-syntax` makes its name a keyword for the procedure; the environment of the macro
has the names that are bound at this moment, its own name included. -/
theorem C101_keyword (T₀ : Top) (k : Name) (p : Nat) :
    ∃ g t e, (T₀.defineSyntax k p).second k = some g ∧
      (T₀.defineSyntax k p).value g = some (.transformer t) ∧
      (T₀.defineSyntax k p).st.macros t = (p, e) ∧
      ((T₀.defineSyntax k p).st.envs e).first = [] ∧
      ∀ x, (((T₀.defineSyntax k p).st.envs e).second x).isSome ↔ boundAt T₀ k x := by
  obtain ⟨h₁, -, -, h₄⟩ := defineSyntax_macro T₀ k p
  refine ⟨(T₀.bind k).1, T₀.st.nextMacro, T₀.st.nextEnv, top_bind_self T₀ k, ?_, h₁, by rw [h₄], ?_⟩
  · simp [Top.defineSyntax, newEnv, top_bind_st]
  · intro x
    rw [h₄]
    exact defineSyntax_bound (p := p)

/-- **C101**: a symbol that the macro inserts and that had a variable when the macro was defined refers
to that variable, wherever the macro is used and whatever has been defined since; it is the variable
that the symbol has at the outermost level. -/
theorem C101_inserted {T₀ T : Top} {k : Name} {p : Nat} {items : List TopItem}
    (h : Since T₀ k p items T) {x : Name} {c : Form} (hc : Inserted T T₀.st.nextMacro x c)
    (hx : boundAt T₀ k x) {bv : Scopes} (hb : Unshadowed T T₀.st.nextMacro x bv) (W : World) (n : Nat) :
    ∃ g, (T₀.defineSyntax k p).second x = some g ∧ T.second x = some g ∧
      T.code W (n + 1) c bv = some [.loadAbsolute g] := by
  obtain ⟨g, hg⟩ := Option.isSome_iff_exists.1 (defineSyntax_bound (p := p).2 hx)
  obtain ⟨he, henv⟩ := since_env h
  obtain ⟨i, rfl⟩ := hc
  unfold Unshadowed at hb
  rw [he] at hb ⊢
  refine ⟨g, hg, by rw [h.run]; exact top_run_keeps items _ hg, ?_⟩
  have hi : identify T.ready.envs T.second (.closure i T₀.st.nextEnv [] (.sym x)) (frames bv) =
      some (.absolute g) := by
    rw [identify_inserted henv (fun fs hfs => (hb fs hfs).1) (fun fs hfs => (hb fs hfs).2 i), hg]
    rfl
  simp [Top.code, expand, hi, convert, generate, reference, loadInstr]

/-- **C101**: at the outermost level, a symbol that the macro inserts refers to the variable of that
name, whether it was defined before or after the macro. -/
theorem C101_outermost {T₀ T : Top} {k : Name} {p : Nat} {items : List TopItem}
    (h : Since T₀ k p items T) {x : Name} {c : Form} (hc : Inserted T T₀.st.nextMacro x c) (W : World)
    (n : Nat) : T.code W (n + 3) c [] = T.code W (n + 3) (.sym x) [] := by
  by_cases hx : boundAt T₀ k x
  · obtain ⟨g, -, hg, hcode⟩ := C101_inserted h hc hx (bv := []) (fun fs hfs => by cases hfs) W (n + 2)
    rw [hcode, code_sym (fun fs hfs => by cases hfs), hg]
    rfl
  · obtain ⟨he, henv⟩ := since_env h
    obtain ⟨i, rfl⟩ := hc
    rw [he]
    have hnone : (T₀.defineSyntax k p).second x = none := by
      rw [← Option.not_isSome_iff_eq_none]; exact fun h' => hx (defineSyntax_bound.1 h')
    have hi : identify T.ready.envs T.second (.closure i T₀.st.nextEnv [] (.sym x)) (frames []) =
        none := by
      rw [identify_inserted henv (fun fs hfs => by cases hfs) (fun fs hfs => by cases hfs), hnone]
      rfl
    have hcv : convert (.sym x) T.ready = (.sym x, T.ready) := by
      simp [convert, convertSym, Top.ready]
    simp only [Top.code, expand, hi, expandClosure, henv, sameScopes, if_true, hcv]

/-- **C101 fails** within procedures: a symbol that the macro inserts and that is defined only after the
macro cannot be compiled there, although the symbol itself can, and although the same use of the macro
is compiled at the outermost level.  (With assertions enabled the interpreter is aborted; without them
the symbol refers to a new variable that nothing defines.) -/
theorem C101_forward_fails {T₀ T : Top} {k : Name} {p : Nat} {items : List TopItem}
    (h : Since T₀ k p items T) {x : Name} {c : Form} (hc : Inserted T T₀.st.nextMacro x c)
    (hx : ¬ boundAt T₀ k x) {g : Nat} (hg : T.second x = some g) {bv : Scopes} (hne : bv ≠ [])
    (hb : Unshadowed T T₀.st.nextMacro x bv) (W : World) :
    (∀ n, T.code W n c bv = none) ∧ (∀ n, T.code W (n + 1) (.sym x) bv = some [.loadAbsolute g]) ∧
      ∀ n, T.code W (n + 3) c [] = some [.loadAbsolute g] := by
  refine ⟨?_, fun n => ?_, fun n => ?_⟩
  · obtain ⟨he, henv⟩ := since_env h
    obtain ⟨i, rfl⟩ := hc
    unfold Unshadowed at hb
    rw [he] at hb ⊢
    have hnone : (T₀.defineSyntax k p).second x = none := by
      rw [← Option.not_isSome_iff_eq_none]; exact fun h' => hx (defineSyntax_bound.1 h')
    have hi : ∀ i H s, H T₀.st.nextEnv = ⟨[], (T₀.defineSyntax k p).second⟩ →
        identify H s (.closure i T₀.st.nextEnv [] (.sym x)) (frames bv) = none := by
      intro i H s hH
      rw [identify_inserted hH (fun fs hfs => (hb fs hfs).1) (fun fs hfs => (hb fs hfs).2 i), hnone]
      rfl
    have hs : sameScopes [] bv = false := by
      cases bv with
      | nil => exact absurd rfl hne
      | cons a bv => rfl
    have hcv : ∀ st : St, st.alpha = [⟨T.st.nextEnv, [], []⟩] →
        ∃ j st', convert (.sym x) { st with alpha := ⟨T₀.st.nextEnv, [], []⟩ :: st.alpha } =
          (.closure j T₀.st.nextEnv [] (.sym x), st') ∧ st'.envs = st.envs := by
      intro st hst
      have hd : (convert (.sym x) { st with alpha := ⟨T₀.st.nextEnv, [], []⟩ :: st.alpha }).1 =
          .closure (.alpha st.next) T₀.st.nextEnv [] (.sym x) := by
        simp [convert, convertSym, hst]
      exact ⟨.alpha st.next, _, Prod.ext hd rfl, rfl⟩
    intro n
    match n with
    | 0 => rfl
    | 1 => simp [Top.code, expand, hi i _ _ henv, expandClosure]
    | 2 => simp [Top.code, expand, hi i _ _ henv, expandClosure, henv, hs]
    | n + 3 =>
      obtain ⟨j, st', hst, henvs⟩ := hcv T.ready rfl
      simp only [Top.code, expand, hi i _ _ henv, expandClosure, henv, hs, hst, Bool.false_eq_true,
        if_false, Option.bind_eq_bind, Option.bind_some, generate, reference]
      rw [hi j _ _ (by rw [henvs]; exact henv)]
      rfl
  · rw [code_sym fun fs hfs => (hb fs hfs).1, hg]; rfl
  · rw [C101_outermost h hc, code_sym (fun fs hfs => by cases hfs), hg]; rfl

/-! ## A program -/

namespace Fails

open Example (s l)

/-- The environment of Props/HygieneFails.lean: `v` (23) has no variable. -/
def top : Top := ⟨globals, 200, value, st⟩

/-- `(define-syntax m ...)`, where `(m)` is `v`, then `(define v 1)`. -/
def after : Top := (top.defineSyntax 30 1).run [.define 23]

/-- `(define v 1)`, then `(define-syntax m ...)`. -/
def before : Top := (top.run [.define 23]).defineSyntax 30 1

/-- The code of a form. -/
def Top.compile (T : Top) (form : Form) : Option Code :=
  Expand.compile { W with value := T.value } 80 T.second form T.st

/-- The theorems apply to this program: `v` is not bound when the macro is defined, `g` is. -/
example : Since top 30 1 [.define 23] after ∧ ¬ boundAt top 30 23 ∧ boundAt top 30 14 ∧
    (after.second 23).isSome ∧ Inserted after top.st.nextMacro 23 (.closure (.rename 0) 2 [] (.sym 23)) :=
  ⟨⟨rfl⟩, by simp [boundAt, top, globals], by simp [boundAt, top, globals], by decide, .rename 0, by decide⟩

/-- The whole program: `(lambda (a) (m))` cannot be compiled if `v` is defined after `m`, although
`(m)` and `(lambda (a) v)` can; if `v` is defined before, it can, and means `(lambda (a) v)`. -/
theorem C101_program_fails :
    Top.compile after (lam [s 20] [l [s 30]]) = none ∧
    (Top.compile after (l [s 30])).isSome ∧
    Top.compile after (l [s 30]) = Top.compile after (s 23) ∧
    (Top.compile after (lam [s 20] [s 23])).isSome ∧
    Top.compile before (lam [s 20] [l [s 30]]) = Top.compile before (lam [s 20] [s 23]) := by
  decide +kernel

end Fails

end Meevax.Expand
