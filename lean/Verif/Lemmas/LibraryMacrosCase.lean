import Verif.Props.LibraryMacros

/-!
For C82: the steps of `case-lambda`.
-/

namespace Meevax.LibraryMacros

open Meevax.Rules Meevax.Rules.Spec Spec

/-- The identifiers of a form renamed. -/
def mapForm (r : Nat → Nat) : Form → Form
  | .id x => .id (r x)
  | .cons a d => .cons (mapForm r a) (mapForm r d)
  | .vec xs => .vec (mapForm r xs)
  | f => f

/-- Rules renamed. -/
def mapRules (r : Nat → Nat) (rs : List (Form × Form)) : List (Form × Form) := rs.map fun p => (mapForm r p.1, mapForm r p.2)

/-- `(formals body ...)`. -/
def clauseForm (c : Form × List Form) : Form := .cons c.1 (.ofList c.2)

/-! ### The outer macro -/

theorem caseLambda_ok : caseLambdaRules.all (ruleOk 0 1 []) = true := by decide +kernel

section
variable {e u : Nat} {lits : List Nat} {U : Use}

theorem matchAll_map {p : Form} {α : Type} {f : α → Form} {σ : α → Binds} (h : ∀ a, Match (eqDef e u lits) U p (f a) (σ a)) :
    ∀ as : List α, MatchAll (eqDef e u lits) U p (as.map f) (as.map σ)
  | [] => .nil
  | a :: as => .cons (h a) (matchAll_map h as)

/-- A template of any form, repeated. -/
theorem inst_each {σ : Binds} {t r g : Form} {y : Nat} (ht : startsEll e lits (.cons t (.cons (.id y) r)) = false)
    (hy : ellId e lits y = true) (hr : startsEll e lits r = false) {fs : List Form}
    (hn : Repeats (ids t) σ fs.length)
    (h : ∀ i (hi : i < fs.length), Inst U (IsEllipsis (eqDef e u lits)) (slice (ids t) σ i) t fs[i])
    (hi : Inst U (IsEllipsis (eqDef e u lits)) σ r g) :
    Inst U (IsEllipsis (eqDef e u lits)) σ (.cons t (.cons (.id y) r)) (fs.foldr .cons g) := by
  have he : IsEllipsis (eqDef e u lits) y := eq_isEllipsis.2 (by simpa only [ellId, decide_eq_true_eq] using hy)
  refine Inst.more (k := 0) (noEllipsis_of ht) (.some he (.none (noEllipsis_of hr))) ?_ hi
  have hall : ∀ (l : List Nat), (∀ i ∈ l, i < fs.length) →
      ExpandsAll U (IsEllipsis (eqDef e u lits)) 0 (l.map (slice (ids t) σ)) t (l.map fun i => [fs.getD i .nil]) := by
    intro l
    induction l with
    | nil => intro _; exact .nil
    | cons i l ih =>
      intro hl
      refine .cons (.here ?_) (ih fun j hj => hl j (by simp [hj]))
      have hi := hl i (by simp)
      have := h i hi
      simpa [hi] using this
  have := Expands.step (t := t) (k := 0) hn (hall (List.range fs.length) (by simp))
  have e : ((List.range fs.length).map fun i => [fs.getD i .nil]).flatten = fs := by
    have : ∀ (l : List Nat) (g : Nat → Form), (l.map fun i => [g i]).flatten = l.map g := by
      intro l g
      induction l with
      | nil => rfl
      | cons a l ih => simp [ih]
    rw [this]
    apply List.ext_getElem
    · simp
    · intro i h1 h2
      simp [h2]
  rw [e] at this
  exact this

end

/-- The bindings of a clause. -/
def clauseBinds (c : Form × List Form) : Binds := [(20, .one c.1), (21, .many (c.2.map .one))]

/-- The bindings of all clauses. -/
def clausesBinds (cs : List (Form × List Form)) : Binds :=
  [(20, .many (cs.map fun c => .one c.1)), (21, .many (cs.map fun c => .many (c.2.map .one)))]

theorem collect_clauses (cs : List (Form × List Form)) :
    Collect (eqDef 0 1 []) (.cons (s 20) (.cons (s 21) (.cons dots .nil))) (cs.map clauseBinds) (clausesBinds cs) := by
  have hall : ∀ (x : Nat) (g : Form × List Form → Tree), (∀ c, Binds.get (clauseBinds c) x = some (g c)) →
      ∀ ts, List.Forall₂ (fun σ t => Binds.get σ x = some t) (cs.map clauseBinds) ts ↔ ts = cs.map g := by
    intro x g hg
    induction cs with
    | nil => intro ts; simp
    | cons c cs ih =>
      intro ts
      cases ts with
      | nil => simp
      | cons t ts =>
        rw [List.map_cons, List.forall₂_cons, ih, hg]
        simp [eq_comm]
  intro x t
  by_cases h20 : x = 20
  · subst h20
    simp only [hall 20 (fun c => .one c.1) (fun _ => rfl)]
    constructor
    · intro h
      refine ⟨⟨0, varAt_of (by decide +kernel)⟩, _, ?_, rfl⟩
      exact (Option.some.inj h).symm
    · rintro ⟨_, ts, rfl, rfl⟩
      rfl
  · by_cases h21 : x = 21
    · subst h21
      simp only [hall 21 (fun c => .many (c.2.map .one)) (fun _ => rfl)]
      constructor
      · intro h
        refine ⟨⟨1, varAt_of (by decide +kernel)⟩, _, ?_, rfl⟩
        exact (Option.some.inj h).symm
      · rintro ⟨_, ts, rfl, rfl⟩
        rfl
    · constructor
      · intro h
        simp [clausesBinds, Binds.get, Ne.symm h20, Ne.symm h21] at h
      · rintro ⟨⟨k, hk⟩, _⟩
        exfalso
        have : x ∈ vars (eqDef 0 1 []) (.cons (s 20) (.cons (s 21) (.cons dots .nil))) := hk.mem_vars
        rw [vars_eq] at this
        simp [varList, varId] at this
        omega

theorem step_case (U : Use) (k : Form) (cs : List (Form × List Form)) :
    Steps 0 U caseLambdaRules (.cons k (.ofList (cs.map clauseForm)))
      (.ofList [.id (U.rename 2), .id (U.rename 42), .ofList [.id (U.rename 3),
        .ofList [.ofList [.id (U.rename 43), .ofList [.id (U.rename 11), .id (U.rename 42)]]],
        .ofList [.id (U.rename 16), .ofList [.ofList [.id (U.rename 44), .cons (.id (U.rename 17)) (.cons (.id (U.rename 41))
          (.cons .nil (rulesForm (mapRules U.rename clauseRules))))]],
          .cons (.id (U.rename 44)) (.ofList (cs.map clauseForm))]]]) := by
  have hm : Match (eqDef 0 1 []) U (.cons (.cons (s 20) (.cons (s 21) (.cons dots .nil))) (.cons dots .nil))
      (.ofList (cs.map clauseForm)) (clausesBinds cs ++ []) := by
    rw [← foldr_list]
    refine Match.more (eq_isEllipsis.2 ⟨rfl, by simp⟩) (matchAll_map (f := clauseForm) (σ := clauseBinds) ?_ cs)
      (collect_clauses cs) rfl .nil
    intro c
    exact match_pair (σ := [(20, .one c.1)]) rfl (match_var rfl) (match_all rfl rfl c.2)
  have hcl : Inst U (IsEllipsis (eqDef 0 1 [])) (clausesBinds cs ++ [])
      (.cons (.cons (s 20) (.cons (s 21) (.cons dots .nil))) (.cons dots .nil)) (.ofList (cs.map clauseForm)) := by
    rw [← foldr_list]
    refine inst_each rfl rfl rfl ?_ ?_ .nil
    · refine ⟨⟨20, by decide, _, rfl⟩, ?_⟩
      intro x hx ts hts
      have hx' : x = 20 ∨ x = 21 ∨ x = 0 := by simpa [ids] using hx
      rcases hx' with rfl | rfl | rfl
      · cases hts
        simp
      · cases hts
        simp
      · cases hts
    · intro i hi
      have hi' : i < cs.length := by simpa using hi
      simp only [List.getElem_map]
      have h20 : Binds.get (slice (ids (.cons (s 20) (.cons (s 21) (.cons dots .nil)))) (clausesBinds cs ++ []) i) 20 =
          some (.one (cs[i]).1) := by
        rw [get_slice (by decide)]
        simp [clausesBinds, Binds.get, Tree.at, hi']
      have h21 : Binds.get (slice (ids (.cons (s 20) (.cons (s 21) (.cons dots .nil)))) (clausesBinds cs ++ []) i) 21 =
          some (.many ((cs[i]).2.map .one)) := by
        rw [get_slice (by decide)]
        simp [clausesBinds, Binds.get, Tree.at, hi']
      exact inst_pair rfl rfl (.var h20) (inst_all rfl rfl h21)
  refine rewrites_here hm ?_
  repeat' (first
    | exact hcl
    | exact Inst.nil
    | exact Inst.datum trivial
    | exact Inst.insert rfl
    | refine inst_pair rfl rfl ?_ ?_)

/-! ### The local macro -/

theorem dotted_ne (y : Nat) : ∀ ps fs : List Form, Form.dotted ps (.id y) ≠ .ofList fs
  | [], [], h => by cases h
  | [], _ :: _, h => by cases h
  | _ :: _, [], h => by cases h
  | _ :: ps, _ :: fs, h => by
    injection h with _ h2
    exact dotted_ne y ps fs h2

section
variable {U : Use} {r : Nat → Nat} (hr : ∀ x y, r x = r y ↔ x = y) (h1 : ∀ x, r x ≠ 1)

include hr h1

theorem clauses_ok : (mapRules r clauseRules).all (ruleOk (r 41) 1 []) = true := by
  simp [mapRules, clauseRules, mapForm, ruleOk, patternOk, tailOk, notLit, ellId, varId, varList, depths, templateOk, startsEll,
    ids, Form.ofList, hr, h1]

theorem step_none (k : Form) : Steps (r 41) U (mapRules r clauseRules) (.cons k .nil)
    (.ofList [.id (U.rename (r 15)), strNoMatch]) := by
  refine rewrites_here (σ := []) .nil ?_
  refine inst_pair ?_ ?_ (.insert rfl) (inst_pair ?_ ?_ (.datum trivial) .nil) <;>
    simp [startsEll, ellId, Form.ofList, mapForm, hr]

theorem step_fixed (k : Form) (ps : List Form) (body rest : Form) :
    Steps (r 41) U (mapRules r clauseRules) (.cons k (.cons (.cons (.ofList ps) body) rest))
      (.ofList [.id (U.rename (r 9)), .ofList [.id (U.rename (r 12)), .id (U.rename (r 43)),
        .ofList [.id (U.rename (r 11)), .ofList [.id (U.rename (r 10)), .ofList ps]]],
        .ofList [.id (U.rename (r 14)), .cons (.id (U.rename (r 2))) (.cons (.ofList ps) body), .id (U.rename (r 42))],
        .cons (.id (U.rename (r 44))) rest]) := by
  have he : ∀ x, ellId (r 41) [] (r x) = decide (x = 41) := by intro x; simp [ellId, hr]
  have hv : ∀ x, varId (r 41) 1 [] (r x) = decide (x ≠ 41) := by intro x; simp [varId, hr, h1]
  refine rewrites_next ?_ ?_
  · intro σ h
    cases match_nil_inv h
  · have hm : Match (eqDef (r 41) 1 []) U (.cons (.cons (.cons (.id (r 45)) (.cons (.id (r 41)) .nil)) (.id (r 46))) (.id (r 47)))
        (.cons (.cons (.ofList ps) body) rest)
        (([(r 45, .many (ps.map .one))] ++ [(r 46, .one body)]) ++ [(r 47, .one rest)]) :=
      match_pair rfl (match_pair rfl (match_all (by simp [hv]) (by simp [he]) ps) (match_var (by simp [hv])))
        (match_var (by simp [hv]))
    refine rewrites_here hm ?_
    have h45 : ∀ {z}, z = Form.ofList ps → Inst U (IsEllipsis (eqDef (r 41) 1 []))
        (([(r 45, .many (ps.map .one))] ++ [(r 46, .one body)]) ++ [(r 47, .one rest)])
        (.cons (.id (r 45)) (.cons (.id (r 41)) .nil)) z := by
      rintro z rfl
      exact inst_all (by simp [he]) (by simp [he]) (by simp [Binds.get])
    repeat' (first
      | exact h45 rfl
      | exact Inst.nil
      | (refine Inst.var ?_; simp [Binds.get, hr]; done)
      | (refine Inst.insert ?_; simp [Binds.get, hr]; done)
      | refine inst_pair (by simp [startsEll, he, mapForm, Form.ofList]) (by simp [startsEll, he, mapForm, Form.ofList]) ?_ ?_)

theorem step_rest (k : Form) (ps : List Form) (y : Nat) (body rest : Form) :
    Steps (r 41) U (mapRules r clauseRules) (.cons k (.cons (.cons (Form.dotted ps (.id y)) body) rest))
      (.ofList [.id (U.rename (r 9)), .ofList [.id (U.rename (r 13)), .id (U.rename (r 43)),
        .ofList [.id (U.rename (r 11)), .ofList [.id (U.rename (r 10)), .ofList ps]]],
        .ofList [.id (U.rename (r 14)), .cons (.id (U.rename (r 2))) (.cons (Form.dotted ps (.id y)) body), .id (U.rename (r 42))],
        .cons (.id (U.rename (r 44))) rest]) := by
  have he : ∀ x, ellId (r 41) [] (r x) = decide (x = 41) := by intro x; simp [ellId, hr]
  have hv : ∀ x, varId (r 41) 1 [] (r x) = decide (x ≠ 41) := by intro x; simp [varId, hr, h1]
  refine rewrites_next ?_ (rewrites_next ?_ ?_)
  · intro σ h
    cases match_nil_inv h
  · intro σ h
    obtain ⟨_, _, e, ⟨_, h⟩, _⟩ := match_cons_inv rfl h
    cases e
    obtain ⟨_, _, e, ⟨_, h⟩, _⟩ := match_cons_inv rfl h
    cases e
    obtain ⟨fs, hf⟩ := match_all_inv (by simp [he]) h
    exact dotted_ne _ _ _ hf
  · have hm : Match (eqDef (r 41) 1 []) U
        (.cons (.cons (.cons (.id (r 45)) (.cons (.id (r 41)) (.id (r 48)))) (.id (r 46))) (.id (r 47)))
        (.cons (.cons (Form.dotted ps (.id y)) body) rest)
        ((((r 45, .many (ps.map .one)) :: [(r 48, .one (.id y))]) ++ [(r 46, .one body)]) ++ [(r 47, .one rest)]) := by
      rw [← dotted_form]
      exact match_pair rfl (match_pair rfl (match_more (by simp [hv]) (by simp [he]) ps rfl (match_var (by simp [hv])))
        (match_var (by simp [hv]))) (match_var (by simp [hv]))
    refine rewrites_here hm ?_
    have h45 : Inst U (IsEllipsis (eqDef (r 41) 1 []))
        ((((r 45, .many (ps.map .one)) :: [(r 48, .one (.id y))]) ++ [(r 46, .one body)]) ++ [(r 47, .one rest)])
        (.cons (.id (r 45)) (.cons (.id (r 41)) .nil)) (.ofList ps) :=
      inst_all (by simp [he]) (by simp [he]) (by simp [Binds.get])
    have h48 : Inst U (IsEllipsis (eqDef (r 41) 1 []))
        ((((r 45, .many (ps.map .one)) :: [(r 48, .one (.id y))]) ++ [(r 46, .one body)]) ++ [(r 47, .one rest)])
        (.cons (.id (r 45)) (.cons (.id (r 41)) (.id (r 48)))) (Form.dotted ps (.id y)) := by
      rw [← dotted_form]
      exact inst_more (by simp [he]) (by simp [he]) rfl (by simp [Binds.get]) (.var (by simp [Binds.get, hr]))
    repeat' (first
      | exact h45
      | exact h48
      | exact Inst.nil
      | (refine Inst.var ?_; simp [Binds.get, hr]; done)
      | (refine Inst.insert ?_; simp [Binds.get, hr]; done)
      | refine inst_pair (by simp [startsEll, he, mapForm, Form.ofList]) (by simp [startsEll, he, mapForm, Form.ofList]) ?_ ?_)

end

end Meevax.LibraryMacros
