import Verif.Lemmas.Import

/-
A library's declarations are evaluated at most once.
-/

namespace Meevax.Library
open Meevax.Text

variable {V S : Type}

/-- The declarations of a library that a frame is going to evaluate. -/
def pendingOf (i : Nat) : Frame → List Datum
  | .declare lib true ds => if lib = i then ds else []
  | _ => []

/-- The declarations of a library on the stack. -/
def pending (s : Config V S) (i : Nat) : List Datum := s.stack.flatMap (pendingOf i)

/-- The declarations of a library that were not started. -/
def untouched (s : Config V S) (i : Nat) : Option (List Datum) := (s.libs[i]?).map Library.declarations

/-- What can be seen of a library. -/
structure View where
  untouched : Option (List Datum)
  evaluated : List Datum
  pending : List Datum

def view (s : Config V S) (i : Nat) : View := ⟨untouched s i, evaluated s i, pending s i⟩

/-- What a step does to it. -/
inductive Move (failed : Prop) : View → View → Prop
  | same (v) : Move failed v v
  | define (ds e p) : Move failed ⟨none, e, p⟩ ⟨some ds, e, p⟩
  | start (d e p) : Move failed ⟨some d, e, p⟩ ⟨some [], e, d ++ p⟩
  | declare (o e x p) : Move failed ⟨o, e, x :: p⟩ ⟨o, e ++ [x], p⟩
  | fail (o e p) : failed → Move failed ⟨o, e, p⟩ ⟨o, e, []⟩

theorem evaluated_cons {s t : Config V S} {lib : Nat} {d : Datum} (h : t.log = (lib, d) :: s.log) (i : Nat) :
    evaluated t i = if lib = i then evaluated s i ++ [d] else evaluated s i := by
  unfold evaluated
  rw [h]
  by_cases hi : lib = i
  · rw [List.filter_cons_of_pos (by simpa using hi)]
    simp [hi]
  · rw [List.filter_cons_of_neg (by simpa using hi), if_neg hi]

theorem evaluated_same {s t : Config V S} (h : t.log = s.log) (i : Nat) : evaluated t i = evaluated s i := by
  unfold evaluated; rw [h]

theorem view_eq {s t : Config V S} {i : Nat} (h1 : t.libs = s.libs) (h2 : t.log = s.log)
    (h3 : pending t i = pending s i) : view t i = view s i := by
  unfold view untouched
  rw [h1, evaluated_same h2, h3]

theorem Move.of_eq {failed : Prop} {s t : Config V S} {i : Nat} (h1 : t.libs = s.libs) (h2 : t.log = s.log)
    (h3 : pending t i = pending s i) : Move failed (view s i) (view t i) := by
  rw [view_eq h1 h2 h3]; exact .same _

theorem pending_cons {s t : Config V S} {i : Nat} {f : Frame} {k : List Frame} (h : s.stack = f :: k)
    (ht : t.stack = k) (hf : pendingOf i f = []) : pending t i = pending s i := by
  unfold pending; rw [h, ht]; simp [hf]

theorem pending_push {s t : Config V S} {i : Nat} {f : Frame} (ht : t.stack = f :: s.stack)
    (hf : pendingOf i f = []) : pending t i = pending s i := by
  unfold pending; rw [ht]; simp [hf]

theorem pending_same {s t : Config V S} {i : Nat} (ht : t.stack = s.stack) : pending t i = pending s i := by
  unfold pending; rw [ht]

/-- No library was touched but perhaps a new one was defined. -/
inductive Mild : View → View → Prop
  | same (v) : Mild v v
  | define (ds e p) : Mild ⟨none, e, p⟩ ⟨some ds, e, p⟩

theorem Mild.move {failed : Prop} {v w : View} (h : Mild v w) : Move failed v w := by
  cases h
  · exact .same _
  · exact .define _ _ _

theorem Mild.eq_of_some {d e p : List Datum} {w : View} (h : Mild ⟨some d, e, p⟩ w) : w = ⟨some d, e, p⟩ := by
  cases h
  rfl

theorem Mild.of_eq {s t : Config V S} {i : Nat} (h1 : t.libs = s.libs) (h2 : t.log = s.log)
    (h3 : pending t i = pending s i) : Mild (view s i) (view t i) := by
  rw [view_eq h1 h2 h3]; exact .same _

theorem mild_define {key : List Byte} {ds : List Datum} {m : Mode} {s : Config V S} (i : Nat) :
    Mild (view s i) (view { defineLibrary key ds s with mode := m } i) := by
  have hlibs : (defineLibrary key ds s).libs = s.libs ++ [(⟨s.envs.length, ds, []⟩ : Library)] := by
    unfold defineLibrary; simp only; split <;> rfl
  have hst : (defineLibrary key ds s).stack = s.stack := by
    unfold defineLibrary; simp only; split <;> rfl
  have hlog : (defineLibrary key ds s).log = s.log := by
    unfold defineLibrary; simp only; split <;> rfl
  by_cases hi : i = s.libs.length
  · have e1 : view s i = ⟨none, evaluated s i, pending s i⟩ := by
      unfold view untouched
      rw [List.getElem?_eq_none (by omega)]; rfl
    have e2 : view { defineLibrary key ds s with mode := m } i = ⟨some ds, evaluated s i, pending s i⟩ := by
      unfold view untouched
      rw [show evaluated { defineLibrary key ds s with mode := m } i = evaluated s i from evaluated_same hlog i,
        show pending { defineLibrary key ds s with mode := m } i = pending s i from pending_same hst]
      show View.mk (((defineLibrary key ds s).libs[i]?).map _) _ _ = _
      rw [hlibs, hi, List.getElem?_append_right (Nat.le_refl _)]
      simp
    rw [e1, e2]
    exact .define _ _ _
  · have e : view { defineLibrary key ds s with mode := m } i = view s i := by
      unfold view untouched
      rw [show evaluated { defineLibrary key ds s with mode := m } i = evaluated s i from evaluated_same hlog i,
        show pending { defineLibrary key ds s with mode := m } i = pending s i from pending_same hst]
      show View.mk (((defineLibrary key ds s).libs[i]?).map _) _ _ = _
      rw [hlibs]
      by_cases hl : i < s.libs.length
      · rw [List.getElem?_append_left hl]
      · rw [List.getElem?_append_right (by omega), List.getElem?_eq_none (l := s.libs) (by omega),
          List.getElem?_eq_none (by simp; omega)]
    rw [e]; exact .same _

theorem mild_run {pr : Program V S} {env : Nat} {d : Datum} {s : Config V S} (i : Nat) :
    Mild (view s i) (view (run pr env d s) i) := by
  obtain ⟨h1, h2, h3, _⟩ := run_frame (pr := pr) (env := env) (d := d) (s := s)
  exact .of_eq h2 h3 (pending_same h1)

theorem mild_evaluate {pr : Program V S} {env : Nat} {d : Datum} {s : Config V S} (i : Nat) :
    Mild (view s i) (view (evaluate pr env d s) i) := by
  unfold evaluate
  split
  · split
    · split
      · split
        · exact mild_define i
        · exact .of_eq rfl rfl rfl
      · exact .of_eq rfl rfl rfl
    · split
      · exact .of_eq rfl rfl (pending_push rfl rfl)
      · split
        · split
          · exact .of_eq rfl rfl (pending_push rfl rfl)
          · exact .of_eq rfl rfl rfl
        · exact mild_run i
  · exact mild_run i

theorem untouched_set {libs : List Library} {j : Nat} {l l' : Library} (hl : libs[j]? = some l)
    (h : l'.declarations = l.declarations) (i : Nat) :
    ((libs.set j l')[i]?).map Library.declarations = (libs[i]?).map Library.declarations := by
  by_cases hij : j = i
  · subst hij
    rw [List.getElem?_set_self (getElem?_lt hl), hl]
    simp [h]
  · rw [List.getElem?_set_ne hij]

theorem mild_declare {pr : Program V S} {lib : Nat} {d : Datum} {s : Config V S} (i : Nat) :
    Mild (view s i) (view (declare pr lib d s) i) := by
  unfold declare
  split
  · exact .of_eq rfl rfl rfl
  · rename_i l hl
    split
    · split
      · rename_i name rest _
        have e : view ({ s with
            mode := .next, libs := s.libs.set lib { l with exports := items rest ++ l.exports } } : Config V S) i =
            view s i := by
          unfold view untouched
          rw [show _ = _ from untouched_set (l' := { l with exports := items rest ++ l.exports }) hl rfl i]
          rfl
        rw [e]; exact .same _
      · split
        · exact .of_eq rfl rfl (pending_push rfl rfl)
        · split
          · split
            · exact .of_eq rfl rfl (pending_push rfl rfl)
            · exact .of_eq rfl rfl rfl
          · split
            · split
              · exact .of_eq rfl rfl (pending_push rfl rfl)
              · exact .of_eq rfl rfl rfl
              · exact .of_eq rfl rfl rfl
            · exact mild_evaluate i
    · exact mild_evaluate i

theorem move_startLibrary {failed : Prop} {lib : Nat} {s : Config V S} (i : Nat) :
    Move failed (view s i) (view (startLibrary lib s) i) := by
  unfold startLibrary
  split
  · rename_i l hl
    by_cases hi : lib = i
    · subst hi
      have e1 : view s lib = ⟨some l.declarations, evaluated s lib, pending s lib⟩ := by
        unfold view untouched; rw [hl]; rfl
      have e2 : view ({ s with
          mode := .next
          libs := s.libs.set lib { l with declarations := [] }
          stack := .declare lib true l.declarations :: .exports lib :: s.stack } : Config V S) lib =
          ⟨some [], evaluated s lib, l.declarations ++ pending s lib⟩ := by
        unfold view untouched
        simp only
        rw [List.getElem?_set_self (getElem?_lt hl)]
        simp [pending, pendingOf, evaluated]
      rw [e1, e2]
      exact .start _ _ _
    · have e : view ({ s with
          mode := .next
          libs := s.libs.set lib { l with declarations := [] }
          stack := .declare lib true l.declarations :: .exports lib :: s.stack } : Config V S) i = view s i := by
        unfold view untouched
        simp only
        rw [List.getElem?_set_ne hi]
        simp [pending, pendingOf, evaluated, hi]
      rw [e]; exact .same _
  · exact .of_eq rfl rfl rfl

theorem move_importSet {failed : Prop} {pr : Program V S} {form : Datum} {s : Config V S} (i : Nat) :
    Move failed (view s i) (view (importSet pr form s) i) := by
  unfold importSet
  split
  · split
    · split
      · exact .of_eq rfl rfl (pending_push rfl rfl)
      · exact .of_eq rfl rfl rfl
    · split
      · split
        · exact .of_eq rfl rfl (pending_push rfl rfl)
        · exact .of_eq rfl rfl rfl
      · split
        · split
          · exact .of_eq rfl rfl (pending_push rfl rfl)
          · exact .of_eq rfl rfl rfl
        · split
          · split
            · exact .of_eq rfl rfl (pending_push rfl rfl)
            · exact .of_eq rfl rfl rfl
          · split
            · exact .of_eq rfl rfl rfl
            · split
              · exact move_startLibrary i
              · split
                · exact .of_eq rfl rfl rfl
                · refine .of_eq rfl rfl ?_
                  simp [pending, pendingOf]
  · exact .of_eq rfl rfl rfl
  · exact .of_eq rfl rfl rfl

theorem move_returnTo {failed : Prop} {pr : Program V S} {cs : List Nat} {s : Config V S} (i : Nat) :
    Move failed (view s i) (view (returnTo pr cs s) i) := by
  unfold returnTo
  split
  · rename_i hs
    exact .of_eq rfl rfl (pending_cons hs rfl rfl)
  · rename_i hs
    exact .of_eq rfl rfl (pending_cons hs rfl rfl)
  · rename_i hs
    split
    · rename_i h2
      obtain ⟨extra, he⟩ := prefixAll_extra h2
      simp only at he
      subst he
      exact .of_eq rfl rfl (pending_cons hs rfl rfl)
    · exact .of_eq rfl rfl rfl
  · rename_i hs
    split
    · rename_i h2
      obtain ⟨extra, he⟩ := renameAll_extra h2
      simp only at he
      subst he
      exact .of_eq rfl rfl (pending_cons hs rfl rfl)
    · exact .of_eq rfl rfl rfl
  · rename_i env k hs
    obtain ⟨h1, h2, h3, h4, _, h6, _⟩ := importAll_frame (env := env) (xs := cs) (s := s)
    exact .of_eq h2 h6 (pending_cons hs rfl rfl)
  · exact .of_eq rfl rfl rfl

theorem move_next {failed : Prop} {pr : Program V S} {s t : Config V S} (hv : Valid s)
    (hn : next pr s = some t) (i : Nat) : Move failed (view s i) (view t i) := by
  unfold next at hn
  split at hn
  · rename_i hs
    split at hn
    · cases hn
    · cases hn
      refine .of_eq rfl rfl ?_
      simp [pending, pendingOf, hs]
  · rename_i hs
    cases hn
    exact .of_eq rfl rfl (pending_cons hs rfl rfl)
  · rename_i env d ds k hs
    cases hn
    have e : view s i = view { s with stack := .forms env ds :: k } i :=
      view_eq rfl rfl (by simp [pending, pendingOf, hs])
    rw [e]
    exact (mild_evaluate i).move
  · rename_i lib direct k hs
    cases hn
    refine .of_eq rfl rfl (pending_cons hs rfl ?_)
    unfold pendingOf
    cases direct <;> simp
  · rename_i lib direct d ds k hs
    cases hn
    cases direct with
    | false =>
      have e : view s i = view { s with stack := .declare lib false ds :: k, log := s.log } i :=
        view_eq rfl rfl (by simp [pending, pendingOf, hs])
      rw [e]
      exact (mild_declare i).move
    | true =>
      simp only [if_true]
      by_cases hi : lib = i
      · subst hi
        have e1 : view s lib = ⟨untouched s lib, evaluated s lib, d :: (ds ++ k.flatMap (pendingOf lib))⟩ := by
          unfold view pending
          rw [hs]; simp [pendingOf]
        have e2 : view { s with stack := .declare lib true ds :: k, log := (lib, d) :: s.log } lib =
            ⟨untouched s lib, evaluated s lib ++ [d], ds ++ k.flatMap (pendingOf lib)⟩ := by
          unfold view
          rw [evaluated_cons (s := s) (lib := lib) (d := d) rfl]
          simp [pendingOf, untouched, pending]
        rw [e1]
        have m := mild_declare (pr := pr) (lib := lib) (d := d)
          (s := { s with stack := .declare lib true ds :: k, log := (lib, d) :: s.log }) lib
        rw [e2] at m
        cases hl : s.libs[lib]? with
        | none =>
          have e3 : declare pr lib d ({ s with
              stack := .declare lib true ds :: k, log := (lib, d) :: s.log } : Config V S) =
              { s with mode := .undefined, stack := .declare lib true ds :: k, log := (lib, d) :: s.log } := by
            unfold declare
            simp only [hl]
          rw [e3]
          have e4 : view ({ s with
              mode := .undefined, stack := .declare lib true ds :: k, log := (lib, d) :: s.log } : Config V S)
              lib = ⟨untouched s lib, evaluated s lib ++ [d], ds ++ k.flatMap (pendingOf lib)⟩ := e2
          rw [e4]
          exact .declare _ _ _ _
        | some l =>
          have hu : untouched s lib = some l.declarations := by unfold untouched; rw [hl]; rfl
          rw [hu] at m
          rw [m.eq_of_some, hu]
          exact .declare _ _ _ _
      · have e : view s i = view { s with stack := .declare lib true ds :: k, log := (lib, d) :: s.log } i := by
          have := evaluated_cons (s := s)
            (t := { s with stack := .declare lib true ds :: k, log := (lib, d) :: s.log }) (lib := lib) (d := d) rfl i
          rw [if_neg hi] at this
          unfold view
          rw [this]
          simp [pending, pendingOf, hs, untouched, hi]
        rw [e]
        exact (mild_declare i).move
  · rename_i hs
    cases hn
    exact .of_eq rfl rfl (pending_cons hs rfl rfl)
  · rename_i hs
    cases hn
    refine .of_eq rfl rfl ?_
    simp [pending, pendingOf, hs]
  · rename_i hs
    split at hn
    · cases hn
      exact .of_eq rfl rfl rfl
    · split at hn
      · rename_i cs s' h2
        cases hn
        obtain ⟨a1, a2, a3, a4⟩ := exportAll_frame hv h2
        exact .of_eq a3 a4 (pending_cons hs rfl rfl)
      · cases hn
        exact .of_eq rfl rfl rfl
  · rename_i form k hs
    split at hn
    · cases hn
      exact .of_eq rfl rfl rfl
    · split at hn
      · cases hn
        have e : view s i = view { s with stack := k } i :=
          view_eq rfl rfl (by simp [pending, pendingOf, hs])
        rw [e]
        exact move_startLibrary i
      · cases hn
        exact .of_eq rfl rfl rfl
  · cases hn
    exact .of_eq rfl rfl rfl

theorem move_step {pr : Program V S} {s t : Config V S} (hv : Valid s) (hs : step pr s = some t) (i : Nat) :
    Move (s.mode = .failed) (view s i) (view t i) := by
  unfold step at hs
  split at hs
  · cases hs; exact move_importSet i
  · cases hs; exact move_returnTo i
  · exact move_next hv hs i
  · rename_i hm
    cases hs
    exact .fail _ _ _ hm
  · cases hs

/-- A library that was not imported yet. -/
def Fresh (v : View) : Prop := v.untouched ≠ some [] → v.evaluated = [] ∧ v.pending = []

theorem Move.fresh {failed : Prop} {v w : View} (h : Move failed v w) (hf : Fresh v) : Fresh w := by
  cases h with
  | same => exact hf
  | define ds e p => exact fun _ => hf (by simp)
  | start d e p => exact fun h => absurd rfl h
  | declare o e x p =>
    intro ho
    exact absurd (hf ho).2 (by simp)
  | fail o e p _ => exact fun ho => ⟨(hf ho).1, rfl⟩

/-- Where the declarations `ds` of a library are. -/
def Account (ds lost : List Datum) (v : View) : Prop :=
  ∃ d, v.untouched = some d ∧ v.evaluated ++ v.pending ++ d ++ lost = ds ∧
    (d = [] ∨ (v.evaluated = [] ∧ v.pending = []))

theorem Move.account {failed : Prop} {v w : View} (h : Move failed v w) {ds lost : List Datum}
    (hf : Account ds lost v) : (¬ failed → Account ds lost w) ∧ ∃ lost', Account ds lost' w := by
  obtain ⟨d, h1, h2, h3⟩ := hf
  have good : Account ds lost w → (¬ failed → Account ds lost w) ∧ ∃ lost', Account ds lost' w :=
    fun h => ⟨fun _ => h, lost, h⟩
  cases h with
  | same => exact good ⟨d, h1, h2, h3⟩
  | define ds e p => cases h1
  | start d' e p =>
    cases h1
    refine good ⟨[], rfl, ?_, Or.inl rfl⟩
    simp only at h2 h3 ⊢
    rcases h3 with rfl | ⟨rfl, rfl⟩
    · simpa using h2
    · simpa using h2
  | declare o e x p =>
    simp only at h1 h2 h3
    have : d = [] := by
      rcases h3 with h | ⟨_, h⟩
      · exact h
      · cases h
    subst this
    exact good ⟨[], h1, by simpa using h2, Or.inl rfl⟩
  | fail o e p hfail =>
    refine ⟨fun h => absurd hfail h, ?_⟩
    simp only at h1 h2 h3
    rcases h3 with rfl | ⟨rfl, rfl⟩
    · exact ⟨p ++ lost, [], h1, by simpa using h2, Or.inl rfl⟩
    · exact ⟨lost, d, h1, by simpa using h2, Or.inr ⟨rfl, rfl⟩⟩

theorem fresh_runs {pr : Program V S} {q : Config V S → Prop} {s t : Config V S} (hv : Valid s) (i : Nat)
    (h : RunThrough pr q s t) (hf : Fresh (view s i)) : Fresh (view t i) := by
  induction h with
  | refl => exact hf
  | step hr _ he ih => exact (move_step (grows_runs hv hr).valid he i).fresh ih

theorem account_runs {pr : Program V S} {q : Config V S → Prop} {s t : Config V S} (hv : Valid s) (i : Nat)
    (h : RunThrough pr q s t) {ds lost : List Datum} (hf : Account ds lost (view s i)) :
    ∃ lost', Account ds lost' (view t i) := by
  induction h with
  | refl => exact ⟨lost, hf⟩
  | step hr _ he ih =>
    obtain ⟨lost', h'⟩ := ih
    exact ((move_step (grows_runs hv hr).valid he i).account h').2

theorem account_ok {pr : Program V S} {s t : Config V S} (hv : Valid s) (i : Nat)
    (h : RunThrough pr NotFailed s t) {ds lost : List Datum} (hf : Account ds lost (view s i)) :
    Account ds lost (view t i) := by
  induction h with
  | refl => exact hf
  | step hr hq he ih => exact ((move_step (grows_runs hv hr).valid he i).account ih).1 hq

theorem fresh_start (features : List Name) (program : List Datum) (user : S) (i : Nat) :
    Fresh (view (start features program user : Config V S) i) := fun _ => ⟨rfl, rfl⟩

end Meevax.Library
