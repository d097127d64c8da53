import Verif.Props.SyntaxRules

/-!
For C82: the conditions of C69 on rules are checked by evaluation, and derivations of matches and instances
for the patterns and templates that occur in the libraries.
-/

namespace Meevax.Rules

open Spec

/-- Identifiers that are the same only if they are equal. -/
def eqDef (ellipsis under : Nat) (lits : List Nat) : Def where
  compare x y := x == y
  ellipsis := ellipsis
  under := under
  lits := lits

section
variable {e u : Nat} {lits : List Nat}

theorem eq_isLit {x : Nat} : IsLit (eqDef e u lits) x ↔ x ∈ lits := by
  simp [IsLit, eqDef]

theorem eq_isUnder {x : Nat} : IsUnder (eqDef e u lits) x ↔ x = u ∧ x ∉ lits := by
  rw [IsUnder, eq_isLit]; simp [eqDef]

theorem eq_isEllipsis {x : Nat} : IsEllipsis (eqDef e u lits) x ↔ x = e ∧ x ∉ lits := by
  rw [IsEllipsis, eq_isLit, eqDef, beq_iff_eq, @eq_comm _ e x]

theorem eq_isVar {x : Nat} : IsVar (eqDef e u lits) x ↔ x ∉ lits ∧ x ≠ u ∧ x ≠ e := by
  rw [IsVar, eq_isLit, eq_isUnder, eq_isEllipsis]
  constructor
  · rintro ⟨h1, h2, h3⟩
    exact ⟨h1, fun h => h2 ⟨h, h1⟩, fun h => h3 ⟨h, h1⟩⟩
  · rintro ⟨h1, h2, h3⟩
    exact ⟨h1, fun h => h2 h.1, fun h => h3 h.1⟩

theorem eqDef_ok (h : e ≠ u) (he : e ∉ lits) : DefOk (eqDef e u lits) where
  distinct x hx := by simp [eqDef] at hx ⊢; omega
  literals x hx := by
    rw [eq_isLit]
    simp [eqDef] at hx
    subst hx
    exact he
  symmetric x y := by simp only [eqDef, Bool.beq_comm]

/-! ### Checks -/

/-- Whether the identifier is the ellipsis. -/
def ellId (e : Nat) (lits : List Nat) (x : Nat) : Bool := decide (x = e ∧ x ∉ lits)

/-- Whether the identifier is a variable. -/
def varId (e u : Nat) (lits : List Nat) (x : Nat) : Bool := decide (x ∉ lits ∧ x ≠ u ∧ x ≠ e)

/-- Whether the form begins with an ellipsis. -/
def startsEll (e : Nat) (lits : List Nat) : Form → Bool
  | .cons (.id x) _ => ellId e lits x
  | _ => false

theorem noEllipsis_of {f : Form} (h : startsEll e lits f = false) : NoEllipsis (IsEllipsis (eqDef e u lits)) f := by
  cases f with
  | cons a d =>
    cases a with
    | id x =>
      simp only [startsEll, ellId, decide_eq_false_iff_not] at h
      simpa only [NoEllipsis, eq_isEllipsis] using h
    | _ => trivial
  | _ => trivial

/-- Whether an element of the list is an ellipsis. -/
def tailOk (e : Nat) (lits : List Nat) : Form → Bool
  | .cons (.id x) d => !ellId e lits x && tailOk e lits d
  | .cons _ d => tailOk e lits d
  | _ => true

theorem tail_of {f : Form} (h : tailOk e lits f = true) : Tail (eqDef e u lits) f := by
  induction f with
  | cons a d _ ih =>
    cases a with
    | id x =>
      simp only [tailOk, Bool.and_eq_true, Bool.not_eq_true', ellId, decide_eq_false_iff_not] at h
      refine ⟨?_, ih h.2⟩
      intro y hy
      cases hy
      rw [eq_isEllipsis]
      exact h.1
    | _ => exact ⟨(fun _ h => by cases h), ih h⟩
  | _ => trivial

/-- Whether the form is no literal. -/
def notLit (lits : List Nat) : Form → Bool
  | .id y => decide (y ∉ lits)
  | _ => true

/-- Whether the pattern is well formed. -/
def patternOk (e u : Nat) (lits : List Nat) : Form → Bool
  | .id x => !ellId e lits x
  | .cons a (.cons (.id x) d) =>
    if ellId e lits x then
      patternOk e u lits a && notLit lits a && tailOk e lits d && patternOk e u lits d
    else patternOk e u lits a && patternOk e u lits (.cons (.id x) d)
  | .cons a d => patternOk e u lits a && patternOk e u lits d
  | .vec p => patternOk e u lits p
  | _ => true

theorem patternOk_of : ∀ {p : Form}, patternOk e u lits p = true → PatternOk (eqDef e u lits) p
  | .id x, h => .id (by
      rw [eq_isEllipsis]
      simpa only [patternOk, Bool.not_eq_true', ellId, decide_eq_false_iff_not] using h)
  | .nil, _ => .nil
  | .bool _, _ => .datum trivial
  | .num _, _ => .datum trivial
  | .atom _, _ => .datum trivial
  | .undefined, _ => .datum trivial
  | .vec p, h => .vec (patternOk_of h)
  | .cons a (.cons (.id x) d), h => by
    rw [patternOk] at h
    split at h
    · rename_i hx
      simp only [Bool.and_eq_true] at h
      refine .more ?_ (patternOk_of h.1.1.1) ?_ (fun _ _ _ _ _ => rfl) (tail_of h.1.2) (patternOk_of h.2)
      · rw [eq_isEllipsis]
        simpa only [ellId, decide_eq_true_eq] using hx
      · intro y hy
        have h := h.1.1.2
        rw [hy] at h
        rw [eq_isLit]
        simpa [notLit] using h
    · rename_i hx
      simp only [Bool.and_eq_true] at h
      exact .pair (noEllipsis_of (by simpa only [startsEll, Bool.not_eq_true] using hx)) (patternOk_of h.1) (patternOk_of h.2)
  | .cons a .nil, h => by
    simp only [patternOk, Bool.and_eq_true] at h
    exact .pair trivial (patternOk_of h.1) .nil
  | .cons a (.id x), h => by
    simp only [patternOk, Bool.and_eq_true] at h
    exact .pair trivial (patternOk_of h.1) (patternOk_of (p := .id x) (by simpa only [patternOk] using h.2))
  | .cons a (.bool _), h => by
    simp only [patternOk, Bool.and_eq_true] at h
    exact .pair trivial (patternOk_of h.1) (.datum trivial)
  | .cons a (.num _), h => by
    simp only [patternOk, Bool.and_eq_true] at h
    exact .pair trivial (patternOk_of h.1) (.datum trivial)
  | .cons a (.atom _), h => by
    simp only [patternOk, Bool.and_eq_true] at h
    exact .pair trivial (patternOk_of h.1) (.datum trivial)
  | .cons a .undefined, h => by
    simp only [patternOk, Bool.and_eq_true] at h
    exact .pair trivial (patternOk_of h.1) (.datum trivial)
  | .cons a (.vec q), h => by
    simp only [patternOk, Bool.and_eq_true] at h
    exact .pair trivial (patternOk_of h.1) (patternOk_of (p := .vec q) (by simpa only [patternOk] using h.2))
  | .cons a (.cons .nil d), h => by
    simp only [patternOk, Bool.and_eq_true] at h
    exact .pair trivial (patternOk_of h.1) (patternOk_of (p := .cons .nil d) (by simpa only [patternOk, Bool.and_eq_true] using h.2))
  | .cons a (.cons (.bool b) d), h => by
    rw [patternOk, Bool.and_eq_true] at h
    · exact .pair trivial (patternOk_of h.1) (patternOk_of h.2)
    · intro x d' h'; cases h'
  | .cons a (.cons (.num b) d), h => by
    rw [patternOk, Bool.and_eq_true] at h
    · exact .pair trivial (patternOk_of h.1) (patternOk_of h.2)
    · intro x d' h'; cases h'
  | .cons a (.cons (.atom b) d), h => by
    rw [patternOk, Bool.and_eq_true] at h
    · exact .pair trivial (patternOk_of h.1) (patternOk_of h.2)
    · intro x d' h'; cases h'
  | .cons a (.cons .undefined d), h => by
    rw [patternOk, Bool.and_eq_true] at h
    · exact .pair trivial (patternOk_of h.1) (patternOk_of h.2)
    · intro x d' h'; cases h'
  | .cons a (.cons (.cons b c) d), h => by
    rw [patternOk, Bool.and_eq_true] at h
    · exact .pair trivial (patternOk_of h.1) (patternOk_of h.2)
    · intro x d' h'; cases h'
  | .cons a (.cons (.vec b) d), h => by
    rw [patternOk, Bool.and_eq_true] at h
    · exact .pair trivial (patternOk_of h.1) (patternOk_of h.2)
    · intro x d' h'; cases h'

/-- The variables of a pattern. -/
def varList (e u : Nat) (lits : List Nat) : Form → List Nat
  | .id x => if varId e u lits x then [x] else []
  | .cons a d => varList e u lits a ++ varList e u lits d
  | .vec xs => varList e u lits xs
  | _ => []

theorem vars_eq (p : Form) : vars (eqDef e u lits) p = varList e u lits p := by
  induction p with
  | id x =>
    simp only [vars, varList, varId, eq_isVar, decide_eq_true_eq]
  | cons a d iha ihd => rw [vars, varList, iha, ihd]
  | vec xs ih => rw [vars, varList, ih]
  | _ => rfl

/-- The variables of a pattern with their depths. -/
def depths (e u : Nat) (lits : List Nat) : Form → List (Nat × Nat)
  | .id x => if varId e u lits x then [(x, 0)] else []
  | .cons a (.cons (.id y) d) =>
    if ellId e lits y then (depths e u lits a).map (fun v => (v.1, v.2 + 1)) ++ depths e u lits d
    else depths e u lits a ++ depths e u lits (.cons (.id y) d)
  | .cons a d => if startsEll e lits d then [] else depths e u lits a ++ depths e u lits d
  | .vec xs => depths e u lits xs
  | _ => []

theorem varAt_of {p : Form} : ∀ {x k : Nat}, (x, k) ∈ depths e u lits p → VarAt (eqDef e u lits) p x k := by
  fun_induction depths e u lits p with
  | case1 x h =>
    intro y k hy
    simp only [List.mem_singleton, Prod.mk.injEq] at hy
    obtain ⟨rfl, rfl⟩ := hy
    exact .id (eq_isVar.2 (by simpa only [varId, decide_eq_true_eq] using h))
  | case2 => intro y k hy; cases hy
  | case3 a y d h iha ihd =>
    intro x k hy
    have he : IsEllipsis (eqDef e u lits) y := eq_isEllipsis.2 (by simpa only [ellId, decide_eq_true_eq] using h)
    rcases List.mem_append.1 hy with hy | hy
    · obtain ⟨⟨x', k'⟩, hm, heq⟩ := List.mem_map.1 hy
      cases heq
      exact .more he (iha hm)
    · exact .tail he (ihd hy)
  | case4 a y d h iha ihd =>
    intro x k hy
    have hn : NoEllipsis (IsEllipsis (eqDef e u lits)) (.cons (.id y) d) :=
      noEllipsis_of (by simpa only [startsEll, Bool.not_eq_true] using h)
    rcases List.mem_append.1 hy with hy | hy
    · exact .car hn (iha hy)
    · exact .cdr hn (ihd hy)
  | case5 => intro y k hy; cases hy
  | case6 a d _ h iha ihd =>
    intro x k hy
    have hn := noEllipsis_of (u := u) (by simpa only [Bool.not_eq_true] using h)
    rcases List.mem_append.1 hy with hy | hy
    · exact .car hn (iha hy)
    · exact .cdr hn (ihd hy)
  | case7 xs ih => intro x k hy; exact .vec (ih hy)
  | case8 => intro y k hy; cases hy

/-- Whether the template is well formed; only templates with one ellipsis in a row, without vectors. -/
def templateOk (e u : Nat) (lits : List Nat) (p : Form) : Nat → Form → Bool
  | dim, .id x => (depths e u lits p).any (fun v => decide (v.1 = x ∧ v.2 ≤ dim)) || decide (x ∈ ids p → x ∈ lits)
  | dim, .cons a (.cons (.id y) d) =>
    if ellId e lits y then
      !startsEll e lits (.cons a (.cons (.id y) d)) && !startsEll e lits d && (depths e u lits p).any (fun v => decide (v.1 ∈ ids a ∧ dim + 1 ≤ v.2)) &&
        templateOk e u lits p (dim + 1) a && templateOk e u lits p dim d
    else
      !startsEll e lits (.cons a (.cons (.id y) d)) && templateOk e u lits p dim a &&
        templateOk e u lits p dim (.cons (.id y) d)
  | dim, .cons a d =>
    !startsEll e lits (.cons a d) && !startsEll e lits d && templateOk e u lits p dim a && templateOk e u lits p dim d
  | _, .vec _ => false
  | _, _ => true

theorem templateOk_of {p : Form} {dim : Nat} {t : Form} : templateOk e u lits p dim t = true →
    TemplateOk (eqDef e u lits) p dim t := by
  fun_induction templateOk e u lits p dim t with
  | case1 dim x =>
    intro h
    rw [Bool.or_eq_true] at h
    rcases h with h | h
    · obtain ⟨⟨x', k⟩, hm, hx⟩ := List.any_eq_true.1 h
      simp only [decide_eq_true_eq] at hx
      obtain ⟨rfl, hk⟩ := hx
      exact .var (varAt_of hm) hk
    · exact .insert (fun hi => eq_isLit.2 (by
        simp only [decide_eq_true_eq] at h
        exact h hi))
  | case2 dim a y d h iha ihd =>
    intro h'
    simp only [Bool.and_eq_true, Bool.not_eq_true'] at h'
    obtain ⟨⟨⟨⟨h1, h2⟩, h3⟩, h4⟩, h5⟩ := h'
    obtain ⟨⟨x, k⟩, hm, hx⟩ := List.any_eq_true.1 h3
    simp only [decide_eq_true_eq] at hx
    have he : IsEllipsis (eqDef e u lits) y := eq_isEllipsis.2 (by simpa only [ellId, decide_eq_true_eq] using h)
    exact .more (k := 0) (noEllipsis_of h1) (.some he (.none (noEllipsis_of h2))) hx.1 (varAt_of hm) hx.2 (.inl rfl) (iha h4)
      (ihd h5)
  | case3 dim a y d h iha ihd =>
    intro h'
    simp only [Bool.and_eq_true, Bool.not_eq_true'] at h'
    exact .pair (noEllipsis_of h'.1.1) (noEllipsis_of (by simpa only [startsEll, Bool.not_eq_true] using h)) (iha h'.1.2)
      (ihd h'.2)
  | case4 dim a d _ iha ihd =>
    intro h'
    simp only [Bool.and_eq_true, Bool.not_eq_true'] at h'
    exact .pair (noEllipsis_of h'.1.1.1) (noEllipsis_of h'.1.1.2) (iha h'.1.2) (ihd h'.2)
  | case5 => intro h; cases h
  | case6 t dim h1 h2 h3 h4 =>
    intro _
    cases t with
    | nil => exact .nil
    | id x => exact (h1 x rfl).elim
    | cons a d => exact (h3 a d rfl).elim
    | vec xs => exact (h4 xs rfl).elim
    | _ => exact .datum trivial

/-- Whether the rule is well formed. -/
def ruleOk (e u : Nat) (lits : List Nat) : Form × Form → Bool
  | (.cons _ p, t) => patternOk e u lits p && decide (varList e u lits p).Nodup && templateOk e u lits p 0 t
  | _ => false

theorem ruleOk_of {r : Form × Form} (h : ruleOk e u lits r = true) : RuleOk (eqDef e u lits) r.1 r.2 := by
  obtain ⟨p, t⟩ := r
  cases p with
  | cons k p =>
    simp only [ruleOk, Bool.and_eq_true, decide_eq_true_eq] at h
    exact .mk (patternOk_of h.1.1) (by rw [vars_eq]; exact h.1.2) (templateOk_of h.2)
  | _ => cases h

theorem rulesOk_of {rules : List (Form × Form)} (h : rules.all (ruleOk e u lits) = true) :
    ∀ r ∈ rules, RuleOk (eqDef e u lits) r.1 r.2 := fun r hr => ruleOk_of (List.all_eq_true.1 h r hr)

/-! ### Matches -/

variable {U : Use}

theorem match_var {x : Nat} {f : Form} (h : varId e u lits x = true) :
    Match (eqDef e u lits) U (.id x) f [(x, .one f)] :=
  .var (eq_isVar.2 (by simpa only [varId, decide_eq_true_eq] using h))

theorem match_pair {p q f g : Form} {σ τ : Binds} (h : startsEll e lits q = false)
    (h1 : Match (eqDef e u lits) U p f σ) (h2 : Match (eqDef e u lits) U q g τ) :
    Match (eqDef e u lits) U (.cons p q) (.cons f g) (σ ++ τ) := .pair (noEllipsis_of h) h1 h2

theorem collect_var {x : Nat} (hx : varId e u lits x = true) (fs : List Form) :
    Collect (eqDef e u lits) (.id x) (fs.map fun f => [(x, .one f)]) [(x, .many (fs.map .one))] := by
  have hv : IsVar (eqDef e u lits) x := eq_isVar.2 (by simpa only [varId, decide_eq_true_eq] using hx)
  intro y t
  by_cases h : x = y
  · subst h
    have : ∀ ts, List.Forall₂ (fun σ t => Binds.get σ x = some t) (fs.map fun f => [(x, Tree.one f)]) ts ↔
        ts = fs.map .one := by
      induction fs with
      | nil => intro ts; simp
      | cons f fs ih =>
        intro ts
        cases ts with
        | nil => simp
        | cons t ts =>
          rw [List.map_cons, List.forall₂_cons, ih]
          simp [Binds.get, eq_comm]
    simp only [this]
    constructor
    · intro h
      simp [Binds.get] at h
      exact ⟨⟨0, .id hv⟩, _, h.symm, rfl⟩
    · rintro ⟨_, ts, rfl, rfl⟩
      simp [Binds.get]
  · constructor
    · intro h'; simp [Binds.get, h] at h'
    · rintro ⟨⟨k, hk⟩, _⟩
      cases hk
      exact absurd rfl h

/-- A variable followed by an ellipsis, and then the rest. -/
theorem match_more {x y : Nat} (hx : varId e u lits x = true) (hy : ellId e lits y = true) {q g : Form} {τ : Binds}
    (fs : List Form) (hg : pairs g = pairs q) (h : Match (eqDef e u lits) U q g τ) :
    Match (eqDef e u lits) U (.cons (.id x) (.cons (.id y) q)) (fs.foldr .cons g) ((x, .many (fs.map .one)) :: τ) :=
  Match.more (σ := [(x, .many (fs.map .one))]) (eq_isEllipsis.2 (by simpa only [ellId, decide_eq_true_eq] using hy))
    (matchAll_var (eq_isVar.2 (by simpa only [varId, decide_eq_true_eq] using hx)) fs) (collect_var hx fs) hg h

theorem foldr_list (fs : List Form) : fs.foldr .cons .nil = Form.ofList fs := by
  induction fs with
  | nil => rfl
  | cons f fs ih => simp [Form.ofList, ih]

/-- A variable followed by an ellipsis at the end of a list. -/
theorem match_all {x y : Nat} (hx : varId e u lits x = true) (hy : ellId e lits y = true) (fs : List Form) :
    Match (eqDef e u lits) U (.cons (.id x) (.cons (.id y) .nil)) (.ofList fs) [(x, .many (fs.map .one))] := by
  have := match_more (U := U) hx hy fs rfl Match.nil
  rwa [foldr_list] at this

/-- What such a pattern matches is a list. -/
theorem match_all_inv {x y : Nat} (hy : ellId e lits y = true) {f : Form} {σ : Binds}
    (h : Match (eqDef e u lits) U (.cons (.id x) (.cons (.id y) .nil)) f σ) : ∃ fs, f = .ofList fs := by
  have he : IsEllipsis (eqDef e u lits) y := eq_isEllipsis.2 (by simpa only [ellId, decide_eq_true_eq] using hy)
  cases h with
  | datum h => cases h
  | pair h => exact absurd he h
  | @more _ _ _ fs g _ _ _ _ _ _ _ h =>
    cases h with
    | nil => exact ⟨fs, foldr_list fs⟩
    | datum h => cases h

/-! ### Instances -/

theorem inst_pair {σ : Binds} {a d f g : Form} (h : startsEll e lits (.cons a d) = false) (h' : startsEll e lits d = false)
    (h1 : Inst U (IsEllipsis (eqDef e u lits)) σ a f) (h2 : Inst U (IsEllipsis (eqDef e u lits)) σ d g) :
    Inst U (IsEllipsis (eqDef e u lits)) σ (.cons a d) (.cons f g) := .pair (noEllipsis_of h) (noEllipsis_of h') h1 h2

theorem inst_more {σ : Binds} {x y : Nat} {r g : Form} (hx : ellId e lits x = false) (hy : ellId e lits y = true)
    (hr : startsEll e lits r = false) {fs : List Form} (h : Binds.get σ x = some (.many (fs.map .one)))
    (hi : Inst U (IsEllipsis (eqDef e u lits)) σ r g) :
    Inst U (IsEllipsis (eqDef e u lits)) σ (.cons (.id x) (.cons (.id y) r)) (fs.foldr .cons g) := by
  have he : IsEllipsis (eqDef e u lits) y := eq_isEllipsis.2 (by simpa only [ellId, decide_eq_true_eq] using hy)
  refine Inst.more (k := 0) (noEllipsis_of (by simpa only [startsEll] using hx)) (.some he (.none (noEllipsis_of hr))) ?_ hi
  have hall : ∀ (l : List Nat), (∀ i ∈ l, i < fs.length) →
      ExpandsAll U (IsEllipsis (eqDef e u lits)) 0 (l.map (slice (ids (.id x)) σ)) (.id x)
        (l.map fun i => [fs.getD i .nil]) := by
    intro l
    induction l with
    | nil => intro _; exact .nil
    | cons i l ih =>
      intro hl
      refine .cons (.here (.var ?_)) (ih fun j hj => hl j (by simp [hj]))
      have hi := hl i (by simp)
      rw [get_slice (by simp [ids]), h]
      simp [Tree.at, hi]
  have := Expands.step (n := fs.length) (t := .id x) (k := 0) ?_ (hall (List.range fs.length) (by simp))
  · have e : ((List.range fs.length).map fun i => [fs.getD i .nil]).flatten = fs := by
      have : ∀ (l : List Nat) (g : Nat → Form), (l.map fun i => [g i]).flatten = l.map g := by
        intro l g
        induction l with
        | nil => rfl
        | cons a l ih => simp [ih]
      rw [this]
      apply List.ext_getElem
      · simp
      · intro i h1 h2
        simp [h2]
    rw [e] at this
    exact this
  · refine ⟨⟨x, by simp [ids], _, h⟩, ?_⟩
    intro z hz ts hts
    simp [ids] at hz
    subst hz
    rw [h] at hts
    cases hts
    simp

/-- A variable followed by an ellipsis at the end of a list. -/
theorem inst_all {σ : Binds} {x y : Nat} (hx : ellId e lits x = false) (hy : ellId e lits y = true)
    {fs : List Form} (h : Binds.get σ x = some (.many (fs.map .one))) :
    Inst U (IsEllipsis (eqDef e u lits)) σ (.cons (.id x) (.cons (.id y) .nil)) (.ofList fs) := by
  have := inst_more (U := U) (u := u) hx hy rfl h .nil
  rwa [foldr_list] at this

/-- The expansion of a use is the one that follows from the rules. -/
theorem expansion_unique (hD : e ≠ u) (hl : e ∉ lits) {rules : List (Form × Form)}
    (hr : rules.all (ruleOk e u lits) = true) {keyword args out out' : Form} {fuel : Nat}
    (h : Rewrites (eqDef e u lits) U rules (.cons keyword args) (.expansion out))
    (ht : transform (eqDef e u lits) U rules (.cons keyword args) fuel = some (.expansion out')) : out' = out := by
  obtain ⟨f₀, h₀⟩ := C69_syntax_rules_partial (eqDef_ok hD hl) (rulesOk_of hr) h
  have h1 := h₀ (max f₀ fuel) (by omega)
  rw [transform_mono ht (by omega)] at h1
  cases h1
  rfl

end

end Meevax.Rules
