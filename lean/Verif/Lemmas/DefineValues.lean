import Verif.Spec.DefineValues
import Verif.Lemmas.LibraryMacros

/-!
For C87: the expansions of `define-values`.
-/

namespace Meevax.DefineValues

open Meevax.Rules Meevax.Rules.Spec
open Meevax.LibraryMacros (rewrites_here rewrites_next match_cons_inv match_nil_inv Steps)

variable {U : Use}

/-- A template with one repeated variable, followed by an ellipsis. -/
theorem inst_repeat {e u : Nat} {lits : List Nat} {σ : Binds} {x y : Nat} {a r g : Form}
    (ha : startsEll e lits (.cons a (.cons (.id y) r)) = false) (hy : ellId e lits y = true)
    (hr : startsEll e lits r = false) {fs : List Form} (hx : x ∈ ids a) (h : Binds.get σ x = some (.many (fs.map .one)))
    (hz : ∀ z ∈ ids a, z ≠ x → ∀ ts, Binds.get σ z ≠ some (.many ts)) (out : Form → Form)
    (ho : ∀ i, i < fs.length → Inst U (IsEllipsis (eqDef e u lits)) (slice (ids a) σ i) a (out (fs.getD i .nil)))
    (hi : Inst U (IsEllipsis (eqDef e u lits)) σ r g) :
    Inst U (IsEllipsis (eqDef e u lits)) σ (.cons a (.cons (.id y) r)) ((fs.map out).foldr .cons g) := by
  have he : IsEllipsis (eqDef e u lits) y := eq_isEllipsis.2 (by simpa only [ellId, decide_eq_true_eq] using hy)
  refine Inst.more (k := 0) (noEllipsis_of ha) (.some he (.none (noEllipsis_of hr))) ?_ hi
  have hall : ∀ (l : List Nat), (∀ i ∈ l, i < fs.length) →
      ExpandsAll U (IsEllipsis (eqDef e u lits)) 0 (l.map (slice (ids a) σ)) a
        (l.map fun i => [out (fs.getD i .nil)]) := by
    intro l
    induction l with
    | nil => intro _; exact .nil
    | cons i l ih =>
      intro hl
      exact .cons (.here (ho i (hl i (by simp)))) (ih fun j hj => hl j (by simp [hj]))
  have := Expands.step (n := fs.length) (t := a) (k := 0) ?_ (hall (List.range fs.length) (by simp))
  · have e : ((List.range fs.length).map fun i => [out (fs.getD i .nil)]).flatten = fs.map out := by
      have : ∀ (l : List Nat) (g : Nat → Form), (l.map fun i => [g i]).flatten = l.map g := by
        intro l g
        induction l with
        | nil => rfl
        | cons a l ih => simp [ih]
      rw [this]
      apply List.ext_getElem
      · simp
      · intro i h1 h2
        simp at h2
        simp [h2]
    rw [e] at this
    exact this
  · refine ⟨⟨x, hx, _, h⟩, ?_⟩
    intro z hz' ts hts
    by_cases hzx : z = x
    · subst hzx
      rw [h] at hts
      cases hts
      simp
    · exact absurd hts (hz z hz' hzx ts)

theorem rules_ok : rules.all (ruleOk 0 1 []) = true := by decide

/-! ### What the rules leave -/

/-- `(call-with-values (lambda () expression) list)`. -/
def outValues (U : Use) (e : Form) : Form :=
  .ofList [.id (U.rename 4), .ofList [.id (U.rename 5), .nil, e], .id (U.rename 6)]

def outFirst (U : Use) (x e : Form) : Form := .ofList [.id (U.rename 2), x, outValues U e]

def outNext (U : Use) (x y : Form) : Form :=
  .ofList [.id (U.rename 2), y, .ofList [.id (U.rename 7), .ofList [.ofList [.id (U.rename 17), .ofList [.id (U.rename 8), x]]],
    .ofList [.id (U.rename 9), x, .ofList [.id (U.rename 10), x]], .id (U.rename 17)]]

def outLast (U : Use) (k : Nat) (x y : Form) : Form :=
  .ofList [.id (U.rename 2), y, .ofList [.id (U.rename 7), .ofList [.ofList [.id (U.rename 17), .ofList [.id (U.rename k), x]]],
    .ofList [.id (U.rename 11), x, .ofList [.id (U.rename 12), x]], .id (U.rename 17)]]

/-- Derive an instance. -/
macro "inst" : tactic => `(tactic| repeat' (first
  | exact Inst.nil
  | exact Inst.datum trivial
  | exact Inst.var rfl
  | exact Inst.insert rfl
  | refine inst_pair rfl rfl ?_ ?_))

macro "mtch" : tactic => `(tactic| repeat' (first
  | exact Match.nil
  | exact match_var rfl
  | apply match_pair rfl))

theorem step_none (k e : Form) : Steps 0 U rules (.ofList [k, .nil, e])
    (.ofList [.id (U.rename 2), .id (U.rename 15), .ofList [.id (U.rename 4), .ofList [.id (U.rename 5), .nil, e],
      .ofList [.id (U.rename 5), .id (U.rename 16), .bool false]]]) := by
  apply rewrites_here
  · mtch
  · inst

theorem not_nil {p f rest : Form} (hf : f ≠ .nil) (hs : startsEll 0 [] p = false) :
    ∀ σ, ¬Match (eqDef 0 1 []) U (.cons .nil p) (.cons f rest) σ := by
  intro σ h
  obtain ⟨_, _, h1, ⟨_, h⟩, _⟩ := match_cons_inv hs h
  cases h1
  exact hf (match_nil_inv h)

theorem step_single (k x e : Form) : Steps 0 U rules (.ofList [k, .ofList [x], e])
    (.ofList [.id (U.rename 2), x, e]) := by
  refine rewrites_next (not_nil (by rintro ⟨⟩) rfl) ?_
  apply rewrites_here
  · mtch
  · inst

/-- The end of a list. -/
def lastCdr : Form → Form
  | .cons _ d => lastCdr d
  | f => f

theorem lastCdr_foldr (fs : List Form) (g : Form) : lastCdr (fs.foldr .cons g) = lastCdr g := by
  induction fs with
  | nil => rfl
  | cons f fs ih => simpa [lastCdr] using ih

/-- A list of more than one element is not `(identifier)`. -/
theorem not_single {x f e : Form} (hf : f ≠ .nil) :
    ∀ σ, ¬Match (eqDef 0 1 []) U (.cons (.cons (s 24) .nil) (.cons (s 23) .nil)) (.cons (.cons x f) (.cons e .nil)) σ := by
  intro σ h
  obtain ⟨_, _, h1, ⟨_, h⟩, _⟩ := match_cons_inv rfl h
  cases h1
  obtain ⟨_, _, h1, _, ⟨_, h⟩⟩ := match_cons_inv rfl h
  cases h1
  exact hf (match_nil_inv h)

theorem foldr_ne_nil {fs : List Form} {g : Form} (hg : g ≠ .nil) : fs.foldr Form.cons g ≠ .nil := by
  cases fs with
  | nil => exact hg
  | cons f fs => rintro ⟨⟩

/-- The bindings of the rules for several variables. -/
def binds (x z e : Form) (ys : List Form) : Binds :=
  [(20, .one x), (21, .many (ys.map .one)), (22, .one z), (23, .one e)]

theorem inst_nexts (x z e r g : Form) (ys : List Form) (hr : startsEll 0 [] r = false)
    (hi : Inst U (IsEllipsis (eqDef 0 1 [])) (binds x z e ys) r g) :
    Inst U (IsEllipsis (eqDef 0 1 [])) (binds x z e ys) (.cons defineNext (.cons dots r))
      ((ys.map (outNext U x)).foldr .cons g) := by
  refine inst_repeat (x := 21) rfl rfl hr (by decide) rfl ?_ (outNext U x) ?_ hi
  · intro w hw hne ts
    simp only [ids, defineNext, Form.ofList, List.cons_append, List.nil_append, List.append_nil, List.mem_cons,
      List.not_mem_nil, or_false] at hw
    rcases hw with rfl | rfl | rfl | rfl | rfl | rfl | rfl | rfl | rfl | rfl | rfl | rfl
    all_goals first
      | exact absurd rfl hne
      | (intro h; simp [Binds.get, binds] at h)
  · intro i hi
    have h20 : Binds.get (slice (ids defineNext) (binds x z e ys) i) 20 = some (.one x) := by
      rw [get_slice (by decide)]; rfl
    have h21 : Binds.get (slice (ids defineNext) (binds x z e ys) i) 21 = some (.one (ys.getD i .nil)) := by
      rw [get_slice (by decide)]
      simp [binds, Binds.get, Tree.at, hi]
    have hn : ∀ k ∈ [2, 7, 8, 9, 10, 17], Binds.get (slice (ids defineNext) (binds x z e ys) i) k = none := by
      intro k hk
      simp only [List.mem_cons, List.not_mem_nil, or_false] at hk
      rcases hk with rfl | rfl | rfl | rfl | rfl | rfl <;> (rw [get_slice (by decide)]; rfl)
    refine inst_pair rfl rfl (.insert (hn 2 (by decide))) ?_
    refine inst_pair rfl rfl (.var h21) ?_
    refine inst_pair rfl rfl ?_ .nil
    refine inst_pair rfl rfl (.insert (hn 7 (by decide))) ?_
    refine inst_pair rfl rfl ?_ ?_
    · refine inst_pair rfl rfl ?_ .nil
      refine inst_pair rfl rfl (.insert (hn 17 (by decide))) ?_
      refine inst_pair rfl rfl ?_ .nil
      exact inst_pair rfl rfl (.insert (hn 8 (by decide))) (inst_pair rfl rfl (.var h20) .nil)
    · refine inst_pair rfl rfl ?_ (inst_pair rfl rfl (.insert (hn 17 (by decide))) .nil)
      refine inst_pair rfl rfl (.insert (hn 9 (by decide))) (inst_pair rfl rfl (.var h20) ?_)
      refine inst_pair rfl rfl ?_ .nil
      exact inst_pair rfl rfl (.insert (hn 10 (by decide))) (inst_pair rfl rfl (.var h20) .nil)

/-- `(define-values (id-0 id-1 ... id-n) expression)`. -/
theorem step_proper (k x z e : Form) (ys : List Form) :
    Steps 0 U rules (.ofList [k, .cons x (ys.foldr .cons (.cons z .nil)), e])
      (.cons (.id (U.rename 3)) (.cons (outFirst U x e) ((ys.map (outNext U x)).foldr .cons (.cons (outLast U 8 x z) .nil)))) := by
  have hm : Match (eqDef 0 1 []) U (.ofList [.cons (s 20) (.cons (s 21) (.cons dots (.cons (s 22) .nil))), s 23])
      (.ofList [.cons x (ys.foldr .cons (.cons z .nil)), e]) (binds x z e ys) :=
    match_pair rfl (match_pair rfl (match_var rfl) (match_more (q := .cons (s 22) .nil) (g := .cons z .nil) rfl rfl ys rfl (match_pair rfl (match_var rfl) .nil)))
      (match_pair rfl (match_var rfl) .nil)
  refine rewrites_next (not_nil (by rintro ⟨⟩) rfl) ?_
  refine rewrites_next (not_single (foldr_ne_nil (by rintro ⟨⟩))) ?_
  refine rewrites_here hm ?_
  refine inst_pair rfl rfl (.insert rfl) ?_
  refine inst_pair rfl rfl (by inst) ?_
  exact inst_nexts x z e _ _ ys rfl (by inst)

/-- A list whose end is a variable is not `(id-0 id-1 ... id-n)`. -/
theorem not_proper {x z : Nat} {e : Form} {ys : List Form} :
    ∀ σ, ¬Match (eqDef 0 1 []) U (.ofList [.cons (s 20) (.cons (s 21) (.cons dots (.cons (s 22) .nil))), s 23])
      (.ofList [.cons (.id x) (ys.foldr .cons (.id z)), e]) σ := by
  intro σ h
  obtain ⟨_, _, h1, ⟨_, h⟩, _⟩ := match_cons_inv rfl h
  cases h1
  obtain ⟨_, _, h1, _, ⟨_, h⟩⟩ := match_cons_inv rfl h
  cases h1
  have hl := lastCdr_foldr ys (.id z)
  generalize ys.foldr Form.cons (.id z) = F at h hl
  cases h with
  | datum h => cases h
  | pair h => exact h (eq_isEllipsis.2 (by simp))
  | more _ _ _ _ h =>
    obtain ⟨_, _, h1, _, ⟨_, h'⟩⟩ := match_cons_inv rfl h
    subst h1
    rw [lastCdr_foldr, match_nil_inv h'] at hl
    cases hl

/-- `(define-values (id-0 id-1 ... . id-n) expression)`. -/
theorem step_dotted (k e : Form) (x z : Nat) (ys : List Form) :
    Steps 0 U rules (.ofList [k, .cons (.id x) (ys.foldr .cons (.id z)), e])
      (.cons (.id (U.rename 3)) (.cons (outFirst U (.id x) e)
        ((ys.map (outNext U (.id x))).foldr .cons (.cons (outLast U 13 (.id x) (.id z)) .nil)))) := by
  have hm : Match (eqDef 0 1 []) U (.ofList [.cons (s 20) (.cons (s 21) (.cons dots (s 22))), s 23])
      (.ofList [.cons (.id x) (ys.foldr .cons (.id z)), e]) (binds (.id x) (.id z) e ys) :=
    match_pair rfl (match_pair rfl (match_var rfl) (match_more (q := s 22) (g := .id z) rfl rfl ys rfl (match_var rfl)))
      (match_pair rfl (match_var rfl) .nil)
  refine rewrites_next (not_nil (by rintro ⟨⟩) rfl) ?_
  refine rewrites_next (not_single (foldr_ne_nil (by rintro ⟨⟩))) ?_
  refine rewrites_next not_proper ?_
  refine rewrites_here hm ?_
  refine inst_pair rfl rfl (.insert rfl) ?_
  refine inst_pair rfl rfl (by inst) ?_
  exact inst_nexts (.id x) (.id z) e _ _ ys rfl (by inst)

/-- `(define-values identifier expression)`. -/
theorem step_list (k e : Form) (x : Nat) :
    Steps 0 U rules (.ofList [k, .id x, e]) (.ofList [.id (U.rename 2), .id x, outValues U e]) := by
  refine rewrites_next (not_nil (by rintro ⟨⟩) rfl) ?_
  iterate 3
    refine rewrites_next ?_ ?_
    · intro σ h
      obtain ⟨_, _, h1, ⟨_, h⟩, _⟩ := match_cons_inv rfl h
      cases h1
      obtain ⟨_, _, h1, _⟩ := match_cons_inv rfl h
      cases h1
  apply rewrites_here
  · mtch
  · inst

end Meevax.DefineValues
