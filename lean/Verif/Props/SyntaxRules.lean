import Verif.Lemmas.RulesTotal

/-!
C69: macros made by `syntax-rules`.
-/

namespace Meevax.Rules

open Spec

/-- **C69.** A macro defined with well-formed rules does what `syntax-rules` says: a use of it becomes the
instance of the template of the first rule whose pattern matches, and if no pattern matches it is an error.
The transformer ends in each of the cases. -/
theorem C69_syntax_rules_partial {D : Def} {U : Use} (hD : DefOk D) {rules : List (Form × Form)}
    (hr : ∀ r ∈ rules, RuleOk D r.1 r.2) {keyword args : Form} {o : Outcome}
    (h : Rewrites D U rules (.cons keyword args) o) :
    ∃ f₀, ∀ f, f₀ ≤ f → transform D U rules (.cons keyword args) f = some o := by
  obtain ⟨es, f₀, hes, hrun⟩ := rules_run hD h 0 hr ⟨_, _, rfl⟩
  exact ⟨f₀, fun f hf => by rw [transform, hes]; exact hrun f hf⟩

/-- **C69.** The transformer of a macro defined with well-formed rules ends on every use, with an expansion or
with the error that there is none; the latter if and only if no pattern matches. -/
theorem C69_transformer_ends {D : Def} {U : Use} (hD : DefOk D) {rules : List (Form × Form)}
    (hr : ∀ r ∈ rules, RuleOk D r.1 r.2) (keyword args : Form) :
    ∃ o f₀, (∀ f, f₀ ≤ f → transform D U rules (.cons keyword args) f = some o) ∧
      (o = .noExpansion ↔ ∀ r ∈ rules, ∀ σ, ¬Applies D U r.1 (.cons keyword args) σ) := by
  obtain ⟨es, f₀, o, hes, hrun, ho⟩ := rules_end hD U keyword args rules 0 hr
  exact ⟨o, f₀, fun f hf => by rw [transform, hes]; exact hrun f hf, ho⟩

/-- **C69.** The expansion of a use is determined: there is at most one instance of the templates. -/
theorem C69_unique_expansion {D : Def} {U : Use} (hD : DefOk D) {rules : List (Form × Form)}
    (hr : ∀ r ∈ rules, RuleOk D r.1 r.2) {keyword args : Form} {o o' : Outcome}
    (h : Rewrites D U rules (.cons keyword args) o) (h' : Rewrites D U rules (.cons keyword args) o') : o = o' := by
  obtain ⟨f₀, h₀⟩ := C69_syntax_rules_partial hD hr h
  obtain ⟨f₁, h₁⟩ := C69_syntax_rules_partial hD hr h'
  have h2 := h₀ (max f₀ f₁) (by omega)
  rw [h₁ (max f₀ f₁) (by omega)] at h2
  exact (Option.some.inj h2).symm

theorem rewrites_ids {D : Def} {U : Use} {rules : List (Form × Form)} {form out : Form}
    (h : Rewrites D U rules form (.expansion out)) : ∀ y ∈ ids out,
    y ∈ ids form ∨ ∃ r ∈ rules, ∃ x ∈ ids r.2, y = U.rename x := by
  generalize ho : Outcome.expansion out = o at h
  induction h with
  | none => cases ho
  | here ha hin =>
    cases ho
    intro y hy
    rcases inst_ids hin y hy with ⟨x, t, hx, ht⟩ | ⟨x, hx, e⟩
    · obtain ⟨_, _, _, _, rfl, rfl, hm⟩ := ha
      exact .inl (by rw [ids]; exact List.mem_append_right _ (match_ids hm x t y hx ht))
    · exact .inr ⟨_, List.mem_cons_self, x, hx, e⟩
  | next _ _ ih =>
    intro y hy
    rcases ih ho y hy with h | ⟨r, hr, h⟩
    · exact .inl h
    · exact .inr ⟨r, List.mem_cons_of_mem _ hr, h⟩

theorem runRules_mono {U : Use} {f g : Nat} (hfg : f ≤ g) {ρ : Env} {o : Outcome} : ∀ {es : List Exp},
    runRules U f ρ es = some o → runRules U g ρ es = some o := by
  intro es
  induction es with
  | nil => exact id
  | cons e es ih =>
    intro h
    rw [runRules] at h ⊢
    cases he : eval U f ρ e with
    | none => rw [he] at h; cases h
    | some x =>
      rw [he] at h
      rw [eval_mono he hfg]
      simp only [Option.bind_eq_bind, Option.bind_some] at h ⊢
      split
      · rename_i hx; rw [if_pos hx] at h; exact ih h
      · rename_i hx; rw [if_neg hx] at h; exact h

/-- More fuel does not change the result. -/
theorem transform_mono {D : Def} {U : Use} {rules : List (Form × Form)} {form : Form} {f g : Nat} {o : Outcome}
    (h : transform D U rules form f = some o) (hfg : f ≤ g) : transform D U rules form g = some o := by
  rw [transform] at h ⊢
  cases hc : D.compile rules 0 with
  | none => rw [hc] at h; cases h
  | some es => rw [hc] at h; exact runRules_mono hfg h

/-- **C69.** The expansion has no identifier of the macro's definition as it stands there: each identifier of
the expansion is one of the use, or the renaming of one of a template. -/
theorem C69_hygiene_partial {D : Def} {U : Use} (hD : DefOk D) {rules : List (Form × Form)}
    (hr : ∀ r ∈ rules, RuleOk D r.1 r.2) {keyword args out : Form} {o : Outcome} {f : Nat}
    (h : Rewrites D U rules (.cons keyword args) o)
    (hf : transform D U rules (.cons keyword args) f = some (.expansion out)) :
    ∀ y ∈ ids out, y ∈ ids (.cons keyword args) ∨ ∃ r ∈ rules, ∃ x ∈ ids r.2, y = U.rename x := by
  obtain ⟨f₀, h₀⟩ := C69_syntax_rules_partial hD hr h
  have h1 := h₀ (max f₀ f) (by omega)
  rw [transform_mono hf (by omega)] at h1
  cases h1
  exact rewrites_ids h

/-- **C69.** A rule in whose template a variable has fewer ellipses than in the pattern is an error when the
macro is defined, whatever the other rules are. -/
theorem C69_too_few_ellipses {D : Def} (hD : DefOk D) {rules : List (Form × Form)} {k p t : Form}
    (hm : (.cons k p, t) ∈ rules) (hp : PatternOk D p) (hl : (vars D p).Nodup) (h : TooFew D p 0 t) :
    D.compile rules 0 = none :=
  compile_none rules 0 _ hm (rule_none hD hp hl h)

/-- A pattern whose continuation fails gives no text. -/
theorem lp_none_of_cont {D : Def} : ∀ (f : Nat) (p : Form) (x : Exp) (dim : Nat) (vs : Vars) (k : Cont) (c : Nat),
    (∀ vs c, k vs c = none) → D.lp f p x dim vs k c = none := by
  intro f
  induction f with
  | zero => intros; rfl
  | succ f ih =>
    intro p x dim vs k c hk
    cases p with
    | id y =>
      simp only [Def.lp, hk, Option.map_none, ite_self]
    | cons a d =>
      simp only [Def.lp]
      split
      · cases d with
        | cons e tail =>
          by_cases ht : tail = .nil
          · simp only [ht, ne_eq, not_true_eq_false, if_false]
            cases a with
            | id y => simp only [hk, Option.map_none]
            | _ =>
              simp only [hk, Option.map_none]
              split
              · rfl
              · split <;> rfl
          · simp only [ne_eq, ht, not_false_eq_true, if_true]
            split
            · rfl
            · simp only [ih _ _ _ _ _ _ hk, Option.map_none]
        | _ => rfl
      · rw [ih]
        · rfl
        · intro vs c
          exact ih _ _ _ _ _ _ hk
    | vec xs => simp only [Def.lp, ih _ _ _ _ _ _ hk, Option.map_none]
    | _ => simp only [Def.lp, hk, Option.map_none]

theorem anyEllipsis_of {D : Def} (hD : DefOk D) {y : Nat} {d : Form} (h : Element (.id y) d)
    (hy : IsEllipsis D y) : D.anyEllipsis d = true := by
  induction h with
  | head => simp [Def.anyEllipsis, hD.symmetric y, hy.1]
  | @tail a d _ ih => cases a <;> simp [Def.anyEllipsis, ih]

/-- A pattern with two ellipses in one list gives no text. -/
theorem lp_none_of_two {D : Def} (hD : DefOk D) : ∀ (f : Nat) (p : Form) (x : Exp) (dim : Nat) (vs : Vars)
    (k : Cont) (c : Nat), TwoEllipses D p → D.lp f p x dim vs k c = none := by
  intro f
  induction f with
  | zero => intros; rfl
  | succ f ih =>
    intro p x dim vs k c hp
    cases p with
    | cons a d =>
      simp only [Def.lp]
      by_cases he : D.isEllipsis (.cons a d) = true
      · rw [if_pos he]
        cases d with
        | cons e tail =>
          cases e with
          | id e =>
            by_cases ht : tail = .nil
            · have ha : TwoEllipses D a := by
                subst ht
                cases hp with
                | here _ h _ => cases h
                | car h => exact h
                | cdr h => cases h with
                  | car h => cases h
                  | cdr h => cases h
              simp only [ht, ne_eq, not_true_eq_false, if_false]
              cases a with
              | id y => cases ha
              | _ =>
                simp only [ih _ _ _ _ _ _ ha, Option.map_none, ite_self]
            · simp only [ne_eq, ht, not_false_eq_true, if_true]
              by_cases hn : D.anyEllipsis tail = true
              · rw [if_pos hn]
                rfl
              · rw [if_neg hn, ih]
                · rfl
                · cases hp with
                  | here _ h1 h2 => exact absurd (anyEllipsis_of hD h1 h2) hn
                  | car h => exact .cdr (.car (.car h))
                  | cdr h =>
                    cases h with
                    | here h3 h1 h2 => exact absurd (anyEllipsis_of hD .head h3) hn
                    | car h => cases h
                    | cdr h => exact .car h
          | _ => simp [Def.isEllipsis] at he
        | _ => rfl
      · rw [if_neg he]
        cases hp with
        | here h1 => exact absurd h1.1 (by simpa [Def.isEllipsis] using he)
        | car h =>
          rw [ih _ _ _ _ _ _ h]
          rfl
        | cdr h =>
          rw [lp_none_of_cont]
          · rfl
          · intro vs c
            exact ih _ _ _ _ _ _ h
    | vec xs =>
      cases hp with
      | vec h => simp only [Def.lp, ih _ _ _ _ _ _ h, Option.map_none]
    | _ => cases hp

/-- **C69.** A pattern with two ellipses in one list is an error when the macro is defined, whatever the other
rules are. -/
theorem C69_two_ellipses_rejected {D : Def} (hD : DefOk D) {rules : List (Form × Form)} {k p t : Form}
    (hm : (.cons k p, t) ∈ rules) (h : TwoEllipses D p) : D.compile rules 0 = none :=
  compile_none rules 0 _ hm (fun _ => lp_none_of_two hD _ _ _ _ _ _ _ h)

/-! ### An example

`(_ (x v ...) ... y)` → `(y (v ... x) ...)`, used as `(m (p 1 2) (q) r)`. -/

/-- Identifiers are compared by their last three digits; renaming adds 1000. -/
def exDef : Def where
  compare a b := a % 1000 == b % 1000
  ellipsis := 100
  under := 101
  lits := []

/-- `(_ x ... y ...)` has two ellipses in one list. -/
example : TwoEllipses exDef (.ofList [.id 2, .id 100, .id 3, .id 100]) :=
  .here ⟨by decide, by simp [IsLit, exDef]⟩ (.tail .head) ⟨by decide, by simp [IsLit, exDef]⟩

/-- The use of the example. -/
def exUse : Use where
  compare a b := a % 1000 == b % 1000
  rename a := a + 1000

/-- `(x v ...)` -/
def exItem : Form := .cons (.id 2) (.cons (.id 3) (.cons (.id 100) .nil))

/-- `(_ (x v ...) ... y)` -/
def exPattern : Form := .cons (.id 101) (.cons exItem (.cons (.id 100) (.cons (.id 4) .nil)))

/-- `(v ... x)` -/
def exInner : Form := .cons (.id 3) (.cons (.id 100) (.cons (.id 2) .nil))

/-- `(f y (v ... x) ...)` -/
def exTemplate : Form :=
  .cons (.id 5) (.cons (.id 4) (.cons exInner (.cons (.id 100) .nil)))

/-- `(m (p 1 2) (q) r)` -/
def exForm : Form :=
  .cons (.id 1) (.ofList [.ofList [.id 10, .num 1, .num 2], .ofList [.id 11], .id 12])

/-- `(f r (1 2 p) (q))` with `f` renamed -/
def exOut : Form := .ofList [.id 1005, .id 12, .ofList [.num 1, .num 2, .id 10], .ofList [.id 11]]

example : DefOk exDef where
  distinct x h := by simp [exDef] at *; omega
  literals x h := by simp [IsLit, exDef]
  symmetric x y := by simp [exDef, eq_comm]

example : transform exDef exUse [(exPattern, exTemplate)] exForm 60 = some (.expansion exOut) := by decide +kernel

theorem ex_var {x : Nat} (h : x % 1000 ≠ 100) (h' : x % 1000 ≠ 101) : IsVar exDef x := by
  refine ⟨by simp [IsLit, exDef], ?_, ?_⟩
  · rintro ⟨h, _⟩; simp [exDef] at h; omega
  · rintro ⟨h, _⟩; simp [exDef] at h; omega

theorem ex_ell : IsEllipsis exDef 100 := ⟨by decide, by simp [IsLit, exDef]⟩

theorem ex_no {x : Nat} (h : x % 1000 ≠ 100) : ¬IsEllipsis exDef x := by
  rintro ⟨h, _⟩; simp [exDef] at h; omega

theorem ex_item_ok : PatternOk exDef exItem :=
  .pair (ex_no (by decide)) (.id (ex_no (by decide)))
    (.more ex_ell (.id (ex_no (by decide))) (fun x _ => by simp [IsLit, exDef])
      (fun _ _ _ _ _ => rfl) trivial .nil)

theorem ex_v : VarAt exDef exItem 3 1 := .cdr (ex_no (by decide)) (.more ex_ell (.id (ex_var (by decide) (by decide))))

theorem ex_x : VarAt exDef exItem 2 0 := .car (ex_no (by decide)) (.id (ex_var (by decide) (by decide)))

theorem ex_rule : RuleOk exDef exPattern exTemplate := by
  have hx : VarAt exDef (.cons exItem (.cons (.id 100) (.cons (.id 4) .nil))) 2 1 := .more ex_ell ex_x
  have hv : VarAt exDef (.cons exItem (.cons (.id 100) (.cons (.id 4) .nil))) 3 2 := .more ex_ell ex_v
  have hy : VarAt exDef (.cons exItem (.cons (.id 100) (.cons (.id 4) .nil))) 4 0 :=
    .tail ex_ell (.car trivial (.id (ex_var (by decide) (by decide))))
  refine .mk (.more ex_ell ex_item_ok (fun x h => by cases h) (fun _ _ _ _ _ => rfl) ⟨fun x h => ?_, trivial⟩
    (.pair trivial (.id (ex_no (by decide))) .nil)) ?_ ?_
  · cases h; exact ex_no (by decide)
  · have h1 : ¬IsVar exDef 100 := fun h => h.2.2 ex_ell
    have h2 := ex_var (x := 2) (by decide) (by decide)
    have h3 := ex_var (x := 3) (by decide) (by decide)
    have h4 := ex_var (x := 4) (by decide) (by decide)
    simp [vars, exItem, h1, h2, h3, h4]
  · refine .pair (ex_no (by decide)) (ex_no (by decide)) (.insert (fun h => absurd h (by decide))) ?_
    refine .pair (ex_no (by decide)) trivial (.var hy (by decide)) ?_
    refine .more (k := 0) trivial (.some ex_ell (.none trivial)) (x := 3) (by decide) hv (by decide) (.inl rfl) ?_ .nil
    refine .more (k := 0) (ex_no (by decide)) (.some ex_ell (.none (ex_no (by decide)))) (x := 3) (by decide) hv (by decide)
      (.inl rfl) (.var hv (by decide)) ?_
    exact .pair (ex_no (by decide)) trivial (.var hx (by decide)) .nil

theorem ex_varAt_item {x k : Nat} (h : VarAt exDef exItem x k) : x = 2 ∨ x = 3 := by
  have h1 := h.mem_ids
  have h2 := h.isVar.2.2
  simp [exItem, ids] at h1
  rcases h1 with rfl | rfl | rfl
  · exact .inl rfl
  · exact .inr rfl
  · exact absurd ex_ell h2

theorem ex_collect_v {fs : List Form} :
    Collect exDef (.id 3) (fs.map fun f => [(3, .one f)]) [(3, .many (fs.map .one))] := by
  intro x t
  by_cases h : 3 = x
  · subst h
    have : ∀ ts, List.Forall₂ (fun σ t => Binds.get σ 3 = some t) (fs.map fun f => [(3, Tree.one f)]) ts ↔
        ts = fs.map .one := by
      induction fs with
      | nil => intro ts; simp
      | cons f fs ih =>
        intro ts
        cases ts with
        | nil => simp
        | cons t ts =>
          rw [List.map_cons, List.forall₂_cons, ih]
          simp [Binds.get, eq_comm]
    simp only [this]
    constructor
    · intro h
      simp [Binds.get] at h
      exact ⟨⟨0, .id (ex_var (by decide) (by decide))⟩, _, h.symm, rfl⟩
    · rintro ⟨_, ts, rfl, rfl⟩
      simp [Binds.get]
  · constructor
    · intro h'; simp [Binds.get, h] at h'
    · rintro ⟨⟨k, hk⟩, _⟩
      cases hk
      exact absurd rfl h

theorem ex_item {y : Nat} {fs : List Form} :
    Match exDef exUse exItem (.cons (.id y) (.ofList fs)) [(2, .one (.id y)), (3, .many (fs.map .one))] := by
  have hm := Match.more (D := exDef) (U := exUse) (p := .id 3) (q := .nil) (g := .nil) (fs := fs) ex_ell
    (matchAll_var (ex_var (by decide) (by decide)) fs) ex_collect_v rfl .nil
  rw [foldr_nil] at hm
  exact .pair (σ := [(2, .one (.id y))]) (ex_no (by decide)) (.var (ex_var (by decide) (by decide))) hm

/-- The bindings of the example. -/
def exBinds : Binds :=
  [(2, .many [.one (.id 10), .one (.id 11)]), (3, .many [.many [.one (.num 1), .one (.num 2)], .many []]),
   (4, .one (.id 12))]

theorem ex_applies : Applies exDef exUse exPattern exForm exBinds := by
  refine ⟨_, _, _, _, rfl, rfl, ?_⟩
  refine Match.more (fs := [.ofList [.id 10, .num 1, .num 2], .ofList [.id 11]]) (g := .cons (.id 12) .nil)
    (σ := [(2, .many [.one (.id 10), .one (.id 11)]), (3, .many [.many [.one (.num 1), .one (.num 2)], .many []])])
    (τ := [(4, .one (.id 12))]) ex_ell
    (.cons (ex_item (fs := [.num 1, .num 2])) (.cons (ex_item (fs := [])) .nil)) ?_ rfl
    (.pair (σ := [(4, .one (.id 12))]) (τ := []) trivial (.var (ex_var (by decide) (by decide))) .nil)
  intro x t
  by_cases h2 : x = 2
  · subst h2
    constructor
    · intro h
      simp [Binds.get] at h
      exact ⟨⟨_, ex_x⟩, _, h.symm, .cons rfl (.cons rfl .nil)⟩
    · rintro ⟨_, ts, rfl, hts⟩
      cases hts with
      | cons h1 hts =>
        cases hts with
        | cons h2 hts =>
          cases hts
          simp [Binds.get] at h1 h2 ⊢
          simp [h1, h2]
  · by_cases h3 : x = 3
    · subst h3
      constructor
      · intro h
        simp [Binds.get] at h
        exact ⟨⟨_, ex_v⟩, _, h.symm, .cons rfl (.cons rfl .nil)⟩
      · rintro ⟨_, ts, rfl, hts⟩
        cases hts with
        | cons h1 hts =>
          cases hts with
          | cons h2 hts =>
            cases hts
            simp [Binds.get] at h1 h2 ⊢
            simp [h1, h2]
    · constructor
      · intro h; simp [Binds.get, Ne.symm h2, Ne.symm h3] at h
      · rintro ⟨⟨k, hk⟩, _⟩
        rcases ex_varAt_item hk with h | h
        · exact absurd h h2
        · exact absurd h h3

theorem ex_repeat {σ : Binds} {fs : List Form} (h : Binds.get σ 3 = some (.many (fs.map .one))) :
    Expands exUse (IsEllipsis exDef) 1 σ (.id 3) fs := by
  have hall : ∀ (l : List Nat), (∀ i ∈ l, i < fs.length) →
      ExpandsAll exUse (IsEllipsis exDef) 0 (l.map (slice (ids (.id 3)) σ)) (.id 3)
        (l.map fun i => [fs.getD i .nil]) := by
    intro l
    induction l with
    | nil => intro _; exact .nil
    | cons i l ih =>
      intro hl
      refine .cons (.here (.var ?_)) (ih fun j hj => hl j (by simp [hj]))
      have hi := hl i (by simp)
      rw [get_slice (by simp [ids]), h]
      simp [Tree.at, hi]
  have := Expands.step (n := fs.length) (t := .id 3) (k := 0) ?_ (hall (List.range fs.length) (by simp))
  · have e : ((List.range fs.length).map fun i => [fs.getD i .nil]).flatten = fs := by
      have : ∀ (l : List Nat) (g : Nat → Form), (l.map fun i => [g i]).flatten = l.map g := by
        intro l g
        induction l with
        | nil => rfl
        | cons a l ih => simp [ih]
      rw [this]
      apply List.ext_getElem
      · simp
      · intro i h1 h2
        simp [h2]
    rw [e] at this
    exact this
  · refine ⟨⟨3, by simp [ids], _, h⟩, ?_⟩
    intro x hx ts hts
    simp [ids] at hx
    subst hx
    rw [h] at hts
    cases hts
    simp

theorem ex_inst : Inst exUse (IsEllipsis exDef) exBinds exTemplate exOut := by
  refine .pair (ex_no (by decide)) (ex_no (by decide)) (.insert rfl) ?_
  refine .pair (ex_no (by decide)) trivial (.var rfl) ?_
  refine Inst.more (k := 0) (fs := [.ofList [.num 1, .num 2, .id 10], .ofList [.id 11]]) (g := .nil) trivial
    (.some ex_ell (.none trivial)) ?_ .nil
  refine Expands.step (n := 2) (fss := [[_], [_]]) ⟨⟨3, by decide, _, rfl⟩, ?_⟩
    (.cons (.here ?_) (.cons (.here ?_) .nil))
  · intro x hx ts hts
    simp [ids, exInner] at hx
    rcases hx with rfl | rfl | rfl
    · cases hts; rfl
    · cases hts
    · cases hts; rfl
  · exact Inst.more (k := 0) (fs := [.num 1, .num 2]) (g := .cons (.id 10) .nil) (ex_no (by decide))
      (.some ex_ell (.none (ex_no (by decide)))) (ex_repeat rfl) (.pair (ex_no (by decide)) trivial (.var rfl) .nil)
  · exact Inst.more (k := 0) (fs := []) (g := .cons (.id 11) .nil) (ex_no (by decide))
      (.some ex_ell (.none (ex_no (by decide)))) (ex_repeat rfl) (.pair (ex_no (by decide)) trivial (.var rfl) .nil)

/-- The hypotheses of the theorems are met. -/
theorem ex_rewrites : Rewrites exDef exUse [(exPattern, exTemplate)] exForm (.expansion exOut) :=
  .here ex_applies ex_inst

end Meevax.Rules
