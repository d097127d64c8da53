import Verif.Lemmas.DefineValues

/-!
C87: `define-values`.
-/

namespace Meevax.DefineValues

open Meevax.Rules Meevax.Secd Spec
open Meevax.LibraryMacros (Steps idsOf)

variable {H : Host} {Γ : Ctx} {tag : Nat} {U : Use} {form : Form}

/-! ### Evaluation of what the rules leave -/

theorem runs_step {k args out : Form} (hs : Steps 0 U rules (.cons k args) out) {σ : State} {r : Option State} :
    Runs H Γ tag U (.cons k args) σ r ↔ exec H Γ tag out σ = r := by
  constructor
  · rintro ⟨fuel, f, ht, rfl⟩
    rw [expansion_unique (by decide) (by simp) rules_ok hs ht]
  · intro h
    obtain ⟨f₀, h₀⟩ := C69_syntax_rules_partial (eqDef_ok (by decide) (by simp)) (rulesOk_of rules_ok) hs
    exact ⟨f₀, _, h₀ f₀ (Nat.le_refl _), h⟩

theorem eval_user {e : Form} (he : User Γ e) (σ : State) : eval H Γ tag e Locals.none σ = H e σ := by
  cases e with
  | cons a d =>
    cases a with
    | id k =>
      have hk : Γ.kw k = none := Γ.user k (he k (by simp [idsOf]))
      rw [eval.eq_def]
      simp only [hk]
    | _ => rw [eval.eq_def]
  | id x => rw [eval.eq_def]; rfl
  | _ => rw [eval.eq_def]

theorem eval_local {x : Nat} {v : Value} {ρ : Locals} (h : ρ x = some v) (σ : State) :
    eval H Γ tag (.id x) ρ σ = some (v, σ) := by
  rw [eval.eq_def]
  simp only [h]

theorem eval_global (hH : Lawful H) {x : Nat} {ρ : Locals} (h : ρ x = none) (σ : State) :
    eval H Γ tag (.id x) ρ σ = some (σ.vars x, σ) := by
  rw [eval.eq_def]
  simp only [h, hH.reference]

theorem eval_values (hU : Fresh Γ U form) {e : Form} (he : User Γ e) (σ : State) :
    eval H Γ tag (outValues U e) Locals.none σ = (H e σ).bind fun r => operands tag r.1 r.2 := by
  rw [eval.eq_def]
  simp [outValues, Form.ofList, hU.symbol, eval_user he, keyword]
  congr
  funext r
  cases operands tag r.1 r.2 <;> rfl

theorem define_first (hU : Fresh Γ U form) {x : Nat} {e : Form} (he : User Γ e) (σ : State) :
    define H Γ tag (outFirst U (.id x) e) σ =
      ((H e σ).bind fun r => operands tag r.1 r.2).map fun r => r.2.set x r.1 := by
  simp only [outFirst, Form.ofList, define, hU.symbol]
  rw [eval_values hU he]
  cases ((H e σ).bind fun r => operands tag r.1 r.2) <;> simp [keyword]

theorem ne_made (hU : Fresh Γ U form) {x : Nat} (hx : ¬Γ.made x) (k : Nat) : x ≠ U.rename k := fun h =>
  hx (h ▸ hU.made k)

theorem eval_proc {k : Nat} {ρ : Locals} {x l : Nat} {σ : State} (hH : Lawful H) (hρ : ρ x = none) (hv : σ.vars x = .pair l)
    (f : Kw) (hf : Γ.kw k = some f) :
    eval H Γ tag (.cons (.id k) (.cons (.id x) .nil)) ρ σ =
      match f with
      | .cadr => do some (← σ.cells.car (σ.cells.cell l).2, σ)
      | .cddr => do some (← σ.cells.cdr (σ.cells.cell l).2, σ)
      | .car => some ((σ.cells.cell l).1, σ)
      | .cdr => some ((σ.cells.cell l).2, σ)
      | _ => none := by
  rw [eval.eq_def]
  simp only [hf]
  cases f <;> simp [eval_global hH hρ, hv, Cells.car, Cells.cdr]

theorem evalBody_one (e : Form) (ρ : Locals) (σ : State) :
    evalBody H Γ tag (.cons e .nil) ρ σ = eval H Γ tag e ρ σ := by rw [evalBody.eq_def]

theorem define_next (hU : Fresh Γ U form) (hH : Lawful H) {x y l : Nat} (hx : ¬Γ.made x) {σ : State}
    (hv : σ.vars x = .pair l) :
    define H Γ tag (outNext U (.id x) (.id y)) σ = (do
      let v ← σ.cells.car (σ.cells.cell l).2
      let t ← σ.cells.cdr (σ.cells.cell l).2
      some (State.set ⟨σ.cells.setCdr l t, σ.vars⟩ y v)) := by
  have hn : ∀ v, (Locals.none.bind (U.rename 17) v) x = none := fun v => by
    simp [Locals.bind, Locals.none, ne_made hU hx]
  have hl : ∀ v, (Locals.none.bind (U.rename 17) v) (U.rename 17) = some v := fun v => by simp [Locals.bind]
  simp only [outNext, Form.ofList, define, hU.symbol]
  rw [eval.eq_def]
  simp only [hU.symbol]
  simp only [keyword]
  simp
  rw [eval_proc hH rfl hv .cadr (by rw [hU.symbol]; rfl)]
  cases h1 : σ.cells.car (σ.cells.cell l).2 with
  | none => simp
  | some v =>
    simp only [Option.bind_eq_bind, Option.bind_some]
    rw [evalBody.eq_def]
    simp only []
    simp only [evalBody_one]
    rw [eval.eq_def]
    simp only [hU.symbol]
    simp only [keyword]
    simp
    rw [eval_proc hH (hn v) hv .cddr (by rw [hU.symbol]; rfl)]
    cases h2 : σ.cells.cdr (σ.cells.cell l).2 with
    | none => simp
    | some t => simp [eval_global hH (hn v), hv, eval_local (hl v)]

theorem define_last (hU : Fresh Γ U form) (hH : Lawful H) {x y l : Nat} (hx : ¬Γ.made x) {σ : State}
    (hv : σ.vars x = .pair l) :
    define H Γ tag (outLast U 8 (.id x) (.id y)) σ = (do
      let v ← σ.cells.car (σ.cells.cell l).2
      some ((σ.set x (σ.cells.cell l).1).set y v)) := by
  have hn : ∀ v, (Locals.none.bind (U.rename 17) v) x = none := fun v => by
    simp [Locals.bind, Locals.none, ne_made hU hx]
  have hl : ∀ v, (Locals.none.bind (U.rename 17) v) (U.rename 17) = some v := fun v => by simp [Locals.bind]
  simp only [outLast, Form.ofList, define, hU.symbol]
  rw [eval.eq_def]
  simp only [hU.symbol]
  simp only [keyword]
  simp
  rw [eval_proc hH rfl hv .cadr (by rw [hU.symbol]; rfl)]
  cases h1 : σ.cells.car (σ.cells.cell l).2 with
  | none => simp
  | some v =>
    simp only [Option.bind_eq_bind, Option.bind_some]
    rw [evalBody.eq_def]
    simp only []
    simp only [evalBody_one]
    rw [eval.eq_def]
    simp only [hU.symbol]
    simp only [keyword]
    simp
    rw [eval_proc hH (hn v) hv .car (by rw [hU.symbol]; rfl)]
    simp [eval_local (hl v)]

theorem define_rest (hU : Fresh Γ U form) (hH : Lawful H) {x y l : Nat} (hx : ¬Γ.made x) {σ : State}
    (hv : σ.vars x = .pair l) :
    define H Γ tag (outLast U 13 (.id x) (.id y)) σ =
      some ((σ.set x (σ.cells.cell l).1).set y (σ.cells.cell l).2) := by
  have hn : ∀ v, (Locals.none.bind (U.rename 17) v) x = none := fun v => by
    simp [Locals.bind, Locals.none, ne_made hU hx]
  have hl : ∀ v, (Locals.none.bind (U.rename 17) v) (U.rename 17) = some v := fun v => by simp [Locals.bind]
  simp only [outLast, Form.ofList, define, hU.symbol]
  rw [eval.eq_def]
  simp only [hU.symbol]
  simp only [keyword]
  simp
  rw [eval_proc hH rfl hv .cdr (by rw [hU.symbol]; rfl)]
  simp only [Option.bind_some]
  rw [evalBody.eq_def]
  simp only []
  simp only [evalBody_one]
  rw [eval.eq_def]
  simp only [hU.symbol]
  simp only [keyword]
  simp
  rw [eval_proc hH (hn _) hv .car (by rw [hU.symbol]; rfl)]
  simp [eval_local (hl _)]

/-! ### Lists -/

theorem isList_setCdr {h : Cells} {l : Nat} {w : Value} : ∀ {v : Value} {vs : List Value} {ls : List Nat},
    IsList h v vs ls → l ∉ ls → IsList (h.setCdr l w) v vs ls
  | _, _, _, .nil, _ => .nil
  | _, _, _, .cons (l := m) (xs := xs) (ls := ls) ht, hl => by
    have hm : m ≠ l := fun h => hl (by simp [h])
    have hc : (h.setCdr l w).cell m = h.cell m := by simp [Cells.setCdr, hm]
    have := IsList.cons (h := h.setCdr l w) (l := m) (xs := xs) (ls := ls) (by
      rw [hc]; exact isList_setCdr ht fun h => hl (by simp [h]))
    rwa [hc] at this

theorem isList_unique {h : Cells} {v : Value} {xs : List Value} {ls : List Nat} (h1 : IsList h v xs ls) :
    ∀ {ys : List Value} {ms : List Nat}, IsList h v ys ms → xs = ys ∧ ls = ms := by
  induction h1 with
  | nil => intro ys ms h2; cases h2; exact ⟨rfl, rfl⟩
  | cons _ ih =>
    intro ys ms h2
    cases h2 with
    | cons h2 =>
      obtain ⟨rfl, rfl⟩ := ih h2
      exact ⟨rfl, rfl⟩

/-- The rest of a list at one of its pairs. -/
theorem isList_at {h : Cells} {v : Value} {xs : List Value} {ls : List Nat} (h1 : IsList h v xs ls) {l : Nat} (hl : l ∈ ls) :
    ∃ ys ms, IsList h (.pair l) ys ms ∧ ms.length ≤ ls.length := by
  induction h1 with
  | nil => cases hl
  | @cons m xs ls ht ih =>
    rcases List.mem_cons.1 hl with rfl | hl
    · exact ⟨_, _, .cons ht, Nat.le_refl _⟩
    · obtain ⟨ys, ms, h1, h2⟩ := ih hl
      exact ⟨ys, ms, h1, Nat.le_succ_of_le h2⟩

/-- A list does not come back to its first pair. -/
theorem isList_first {h : Cells} {l : Nat} {xs : List Value} {ls : List Nat} (h1 : IsList h (h.cell l).2 xs ls) : l ∉ ls := by
  intro hl
  obtain ⟨ys, ms, h2, h3⟩ := isList_at h1 hl
  have := (isList_unique h2 (.cons h1)).2
  subst this
  simp at h3
  omega

theorem isList_length {h : Cells} {v : Value} {xs : List Value} {ls : List Nat} (h1 : IsList h v xs ls) :
    xs.length = ls.length := by
  induction h1 with
  | nil => rfl
  | cons _ ih => simp [ih]

/-! ### One variable after the other -/

/-- `(define id-1 …) ...`. -/
def nexts (U : Use) (x : Nat) (ys : List Nat) (g : Form) : Form :=
  ((ys.map Form.id).map (outNext U (.id x))).foldr .cons g

theorem define_nexts (hU : Fresh Γ U form) (hH : Lawful H) {x l : Nat} (hx : ¬Γ.made x) :
    ∀ (ys : List Nat) (ws : List Value) (ls : List Nat) (σ : State), σ.vars x = .pair l →
      IsList σ.cells (σ.cells.cell l).2 ws ls → l ∉ ls → x ∉ ys → ys.Nodup → ys.length ≤ ws.length →
      ∃ σ', (∀ g, defineAll H Γ tag (nexts U x ys g) σ = defineAll H Γ tag g σ') ∧
        σ'.vars x = .pair l ∧ ys.map σ'.vars = ws.take ys.length ∧ (∀ y, y ∉ ys → σ'.vars y = σ.vars y) ∧
        σ'.cells.next = σ.cells.next ∧ (∀ m, m ≠ l → σ'.cells.cell m = σ.cells.cell m) ∧
        (σ'.cells.cell l).1 = (σ.cells.cell l).1 ∧ (ys = [] → σ'.cells = σ.cells) ∧
        IsList σ'.cells (σ'.cells.cell l).2 (ws.drop ys.length) (ls.drop ys.length)
  | [], ws, ls, σ, hv, hw, hl, _, _, _ =>
    ⟨σ, fun _ => rfl, hv, by simp, fun _ _ => rfl, rfl, fun _ _ => rfl, rfl, fun _ => rfl, by simpa using hw⟩
  | y :: ys, ws, ls, σ, hv, hw, hl, hxy, hnd, hlen => by
    have hne : x ≠ y := fun h => hxy (by simp [h])
    have hyn := List.nodup_cons.1 hnd
    generalize ht : (σ.cells.cell l).2 = t at hw
    cases hw with
    | nil => simp at hlen
    | @cons m ws ls hw =>
      have hml : m ≠ l := fun h => hl (by simp [h])
      have hl' : l ∉ ls := fun h => hl (by simp [h])
      have hcell : ((σ.cells.setCdr l (σ.cells.cell m).2).cell l) = ((σ.cells.cell l).1, (σ.cells.cell m).2) := by
        simp [Cells.setCdr]
      obtain ⟨σ', h1, h2, h3, h4, h5, h6, h7, h8, h9⟩ := define_nexts hU hH hx ys ws ls
        (State.set ⟨σ.cells.setCdr l (σ.cells.cell m).2, σ.vars⟩ y (σ.cells.cell m).1)
        (by simp [State.set, update, hne, hv])
        (by
          simp only [State.set, hcell]
          exact isList_setCdr hw hl') hl' (fun h => hxy (by simp [h])) hyn.2 (by simpa using hlen)
      refine ⟨σ', ?_, h2, ?_, ?_, ?_, ?_, ?_, ?_, ?_⟩
      · intro g
        rw [← h1 g]
        show defineAll H Γ tag (.cons (outNext U (.id x) (.id y)) (nexts U x ys g)) σ = _
        rw [defineAll, define_next hU hH hx hv, ht]
        simp [Cells.car, Cells.cdr]
      · simp only [List.map_cons, List.length_cons, List.take_succ_cons, h3]
        rw [h4 y hyn.1]
        simp [State.set, update]
      · intro z hz
        rw [h4 z fun h => hz (by simp [h])]
        have : z ≠ y := fun h => hz (by simp [h])
        simp [State.set, update, this]
      · rw [h5]; rfl
      · intro n hn
        rw [h6 n hn]
        simp [State.set, Cells.setCdr, hn]
      · rw [h7]
        simp [State.set, hcell]
      · intro h; cases h
      · simpa using h9

/-- There are too few values. -/
theorem define_nexts_few (hU : Fresh Γ U form) (hH : Lawful H) {x l : Nat} (hx : ¬Γ.made x) :
    ∀ (ys : List Nat) (ws : List Value) (ls : List Nat) (σ : State), σ.vars x = .pair l →
      IsList σ.cells (σ.cells.cell l).2 ws ls → l ∉ ls → x ∉ ys → ws.length < ys.length → ∀ g,
      defineAll H Γ tag (nexts U x ys g) σ = none
  | [], ws, ls, σ, hv, hw, hl, _, hlen, g => by simp at hlen
  | y :: ys, ws, ls, σ, hv, hw, hl, hxy, hlen, g => by
    have hne : x ≠ y := fun h => hxy (by simp [h])
    generalize ht : (σ.cells.cell l).2 = t at hw
    show defineAll H Γ tag (.cons (outNext U (.id x) (.id y)) (nexts U x ys g)) σ = _
    rw [defineAll, define_next hU hH hx hv, ht]
    cases hw with
    | nil => simp [Cells.car]
    | @cons m ws ls hw =>
      have hml : m ≠ l := fun h => hl (by simp [h])
      have hl' : l ∉ ls := fun h => hl (by simp [h])
      have hcell : ((σ.cells.setCdr l (σ.cells.cell m).2).cell l) = ((σ.cells.cell l).1, (σ.cells.cell m).2) := by
        simp [Cells.setCdr]
      have := define_nexts_few hU hH hx ys ws ls
        (State.set ⟨σ.cells.setCdr l (σ.cells.cell m).2, σ.vars⟩ y (σ.cells.cell m).1)
        (by simp [State.set, update, hne, hv])
        (by
          simp only [State.set, hcell]
          exact isList_setCdr hw hl') hl' (fun h => hxy (by simp [h])) (by simpa using hlen) g
      simpa [Cells.car, Cells.cdr] using this

theorem eval_proc_nil {k : Nat} {ρ : Locals} {x : Nat} {σ : State} (hH : Lawful H) (hρ : ρ x = none) (hv : σ.vars x = .nil)
    (f : Kw) (hf : Γ.kw k = some f) (hk : f = .cadr ∨ f = .cdr) :
    eval H Γ tag (.cons (.id k) (.cons (.id x) .nil)) ρ σ = none := by
  rw [eval.eq_def]
  simp only [hf]
  rcases hk with rfl | rfl <;> simp [eval_global hH hρ, hv, Cells.car, Cells.cdr]

theorem define_nil (hU : Fresh Γ U form) (hH : Lawful H) {x : Nat} {σ : State} (hv : σ.vars x = .nil) (y : Form) :
    define H Γ tag (outNext U (.id x) y) σ = none ∧ define H Γ tag (outLast U 8 (.id x) y) σ = none ∧
      define H Γ tag (outLast U 13 (.id x) y) σ = none := by
  cases y with
  | id y =>
    refine ⟨?_, ?_, ?_⟩
    · simp only [outNext, Form.ofList, define, hU.symbol]
      rw [eval.eq_def]
      simp only [hU.symbol]
      simp [keyword, eval_proc_nil hH (ρ := Locals.none) rfl hv .cadr (by rw [hU.symbol 8]; rfl) (.inl rfl)]
    · simp only [outLast, Form.ofList, define, hU.symbol]
      rw [eval.eq_def]
      simp only [hU.symbol]
      simp [keyword, eval_proc_nil hH (ρ := Locals.none) rfl hv .cadr (by rw [hU.symbol 8]; rfl) (.inl rfl)]
    · simp only [outLast, Form.ofList, define, hU.symbol]
      rw [eval.eq_def]
      simp only [hU.symbol]
      simp [keyword, eval_proc_nil hH (ρ := Locals.none) rfl hv .cdr (by rw [hU.symbol 13]; rfl) (.inr rfl)]
  | _ => exact ⟨rfl, rfl, rfl⟩

/-! ### The values -/

theorem operands_eq {σ : State} {v : Value} {vs : List Value} {ls : List Nat} (h : Returned tag σ.cells v vs ls) :
    ∃ t σ' ls', operands tag v σ = some (t, σ') ∧ σ'.vars = σ.vars ∧ IsList σ'.cells t vs ls' ∧
      Kept [] σ.cells σ'.cells ∧ (ls' = ls ∧ σ' = σ ∨ ls = [] ∧ ls' = [σ.cells.next] ∧ vs = [v]) := by
  cases h with
  | one hv =>
    have hi : isValues tag σ.cells v = false := by
      cases v with
      | pair l =>
        simp only [isValues]
        split
        · rename_i t ht
          have := hv l rfl
          rw [ht] at this
          simp only [beq_eq_false_iff_ne]
          intro h
          exact this (by rw [h])
        · rfl
      | _ => rfl
    refine ⟨.pair σ.cells.next, ⟨σ.cells.cons v .nil, σ.vars⟩, [σ.cells.next], by rw [operands, hi]; rfl, rfl, ?_, ?_,
      .inr ⟨rfl, rfl, rfl⟩⟩
    · have hc : (σ.cells.cons v .nil).cell σ.cells.next = (v, .nil) := by simp [Cells.cons]
      have := IsList.cons (h := σ.cells.cons v .nil) (l := σ.cells.next) (xs := []) (ls := []) (by rw [hc]; exact .nil)
      rwa [hc] at this
    · refine ⟨Nat.le_succ _, fun l hl => ?_⟩
      have : (σ.cells.cons v .nil).cell l = σ.cells.cell l := by simp [Cells.cons, Nat.ne_of_lt hl]
      simp [this]
  | @several l vs ls hl ht =>
    have hi : isValues tag σ.cells (.pair l) = true := by simp [isValues, hl]
    refine ⟨_, _, ls, by rw [operands, hi]; rfl, rfl, ht, ⟨Nat.le_refl _, fun _ _ => ⟨rfl, fun _ => rfl⟩⟩, .inl ⟨rfl, rfl⟩⟩

theorem Kept.mono {ls ms : List Nat} {h h' : Cells} (hs : ∀ l ∈ ls, l ∈ ms) (hk : Kept ls h h') : Kept ms h h' :=
  ⟨hk.1, fun l hl => ⟨(hk.2 l hl).1, fun hm => (hk.2 l hl).2 fun h => hm (hs l h)⟩⟩

theorem Kept.trans {ls : List Nat} {h₁ h₂ h₃ : Cells} (h : Kept ls h₁ h₂) (h' : Kept ls h₂ h₃) : Kept ls h₁ h₃ :=
  ⟨Nat.le_trans h.1 h'.1, fun l hl => by
    have a := h.2 l hl
    have b := h'.2 l (Nat.lt_of_lt_of_le hl h.1)
    exact ⟨b.1.trans a.1, fun hm => (b.2 hm).trans (a.2 hm)⟩⟩

/-- `(x y ... z)`, as the user writes it. -/
abbrev properForm (k : Form) (x : Nat) (ys : List Nat) (z : Nat) (e : Form) : Form :=
  .ofList [k, .cons (.id x) ((ys.map Form.id).foldr .cons (.cons (.id z) .nil)), e]

/-- `(x y ... . z)`. -/
abbrev dottedForm (k : Form) (x : Nat) (ys : List Nat) (z : Nat) (e : Form) : Form :=
  .ofList [k, .cons (.id x) ((ys.map Form.id).foldr .cons (.id z)), e]

/-- `(define-values (x y ... z) e)`: the variables are bound to the values, in order; at most the cdr of the first
pair of the list of the values changes, and if there are only two variables, not even that. -/
theorem C87_define_values_partial (hH : Lawful H) {k : Form} {x z : Nat} {ys : List Nat} {e : Form}
    (hU : Fresh Γ U (properForm k x ys z e)) (hu : ∀ y ∈ x :: (ys ++ [z]), ¬Γ.made y) (hnd : (x :: (ys ++ [z])).Nodup)
    (he : User Γ e) {σ σ₁ : State} {v : Value} {vs : List Value} {ls : List Nat} (hv : H e σ = some (v, σ₁))
    (hr : Returned tag σ₁.cells v vs ls) (hlen : ys.length + 2 ≤ vs.length) :
    ∃ σ', (∀ r, Runs H Γ tag U (properForm k x ys z e) σ r ↔ r = some σ') ∧
      Bound Γ.made (x :: (ys ++ [z])) (vs.take (ys.length + 2)) σ₁.vars σ'.vars ∧
      Kept (if ys = [] then [] else ls.take 1) σ₁.cells σ'.cells := by
  obtain ⟨t, σ₂, ls', h1, h2, h3, h4, h5⟩ := operands_eq hr
  rcases h5 with ⟨rfl, rfl⟩ | ⟨_, _, rfl⟩
  swap
  · simp at hlen
  cases h3 with
  | nil => simp at hlen
  | @cons l ws ls h3 =>
    have hl := isList_first h3
    have hxu : ¬Γ.made x := hu x (by simp)
    have hxy : x ∉ ys := fun h => (List.nodup_cons.1 hnd).1 (by simp [h])
    have hxz : x ≠ z := fun h => (List.nodup_cons.1 hnd).1 (by simp [h])
    have hyz := List.nodup_append.1 (List.nodup_cons.1 hnd).2
    obtain ⟨σ', g1, g2, g3, g4, g5, g6, g7, g8, g9⟩ := define_nexts hU hH hxu (H := H) (tag := tag) (l := l) ys ws ls
      (σ₂.set x (.pair l)) (by simp [State.set, update]) h3 hl hxy hyz.1 (by simp at hlen; omega)
    have hlast : ∃ m, (σ'.cells.cell l).2 = .pair m ∧ ws[ys.length]? = some (σ'.cells.cell m).1 := by
      have hlt : ys.length < ws.length := by simp at hlen; omega
      rw [List.drop_eq_getElem_cons hlt] at g9
      generalize hc : (σ'.cells.cell l).2 = c at g9
      generalize hw : ws[ys.length] = w at g9
      generalize List.drop (ys.length + 1) ws = ws' at g9
      generalize List.drop ys.length ls = ls' at g9
      cases g9
      exact ⟨_, rfl, by rw [List.getElem?_eq_getElem hlt, hw]⟩
    obtain ⟨m, hm1, hm2⟩ := hlast
    refine ⟨(σ'.set x (σ'.cells.cell l).1).set z (σ'.cells.cell m).1, ?_, ⟨?_, ?_⟩, ?_⟩
    · intro r
      refine (runs_step (step_proper k (.id x) (.id z) e (ys.map .id))).trans ?_
      have : exec H Γ tag (.cons (.id (U.rename 3)) (.cons (outFirst U (.id x) e)
          (nexts U x ys (.cons (outLast U 8 (.id x) (.id z)) .nil)))) σ =
          some ((σ'.set x (σ'.cells.cell l).1).set z (σ'.cells.cell m).1) := by
        rw [exec, if_pos (show Γ.kw (U.rename 3) = some .begin_ from hU.symbol 3)]
        rw [defineAll, define_first hU he, hv]
        simp only [Option.bind_some, h1, Option.map_some, Option.bind_eq_bind]
        rw [g1]
        simp [defineAll, define_last hU hH hxu g2, hm1, Cells.car]
      rw [show exec H Γ tag (.cons (.id (U.rename 3)) (.cons (outFirst U (.id x) e)
        ((List.map (outNext U (.id x)) (ys.map .id)).foldr .cons (.cons (outLast U 8 (.id x) (.id z)) .nil)))) σ = _ from this]
      exact eq_comm
    · have hys : ys.map ((σ'.set x (σ'.cells.cell l).1).set z (σ'.cells.cell m).1).vars = ys.map σ'.vars := by
        apply List.map_congr_left
        intro y hy
        have h1 : y ≠ x := fun h => hxy (h ▸ hy)
        have h2 : y ≠ z := hyz.2.2 y hy z (by simp)
        simp [State.set, update, h1, h2]
      simp only [List.map_cons, List.map_append, List.map_nil, hys, g3]
      have e1 : ((σ'.set x (σ'.cells.cell l).1).set z (σ'.cells.cell m).1).vars x = (σ₂.cells.cell l).1 := by
        simp [State.set, update, hxz, g7]
      have e2 : ((σ'.set x (σ'.cells.cell l).1).set z (σ'.cells.cell m).1).vars z = (σ'.cells.cell m).1 := by
        simp [State.set, update]
      rw [e1, e2, List.take_succ_cons, List.take_succ, hm2]
      rfl
    · intro y _ hy
      have h1 : y ≠ x := fun h => hy (by simp [h])
      have h2 : y ≠ z := fun h => hy (by simp [h])
      simp only [State.set, update, h1, h2, if_false]
      rw [g4 y fun h => hy (by simp [h])]
      simp [State.set, update, h1]
    · by_cases hys : ys = []
      · rw [if_pos hys]
        have := g8 hys
        refine ⟨by simp [State.set, this], fun n _ => by simp [State.set, this]⟩
      · rw [if_neg hys]
        refine ⟨by simp [State.set, g5], fun n _ => ?_⟩
        by_cases hn : n = l
        · subst hn
          refine ⟨by simpa [State.set] using g7, fun h => ?_⟩
          simp at h
        · have := g6 n hn
          simp only [State.set] at this ⊢
          simp [this]

/-- `(define-values (x y ... . z) e)`: the first variables are bound to the first values, and `z` to a list of the
others. -/
theorem C87_define_values_rest_partial (hH : Lawful H) {k : Form} {x z : Nat} {ys : List Nat} {e : Form}
    (hU : Fresh Γ U (dottedForm k x ys z e)) (hu : ∀ y ∈ x :: (ys ++ [z]), ¬Γ.made y) (hnd : (x :: (ys ++ [z])).Nodup)
    (he : User Γ e) {σ σ₁ : State} {v : Value} {vs : List Value} {ls : List Nat} (hv : H e σ = some (v, σ₁))
    (hr : Returned tag σ₁.cells v vs ls) (hlen : ys.length + 1 ≤ vs.length) :
    ∃ σ', (∀ r, Runs H Γ tag U (dottedForm k x ys z e) σ r ↔ r = some σ') ∧
      (x :: ys).map σ'.vars = vs.take (ys.length + 1) ∧
      (∃ ms, IsList σ'.cells (σ'.vars z) (vs.drop (ys.length + 1)) ms) ∧
      (∀ y, ¬Γ.made y → y ∉ x :: (ys ++ [z]) → σ'.vars y = σ₁.vars y) ∧
      Kept (if ys = [] then [] else ls.take 1) σ₁.cells σ'.cells := by
  obtain ⟨t, σ₂, ls', h1, h2, h3, h4, h5⟩ := operands_eq hr
  cases h3 with
  | nil => simp at hlen
  | @cons l ws ls' h3 =>
    have hl := isList_first h3
    have hxu : ¬Γ.made x := hu x (by simp)
    have hxy : x ∉ ys := fun h => (List.nodup_cons.1 hnd).1 (by simp [h])
    have hxz : x ≠ z := fun h => (List.nodup_cons.1 hnd).1 (by simp [h])
    have hyz := List.nodup_append.1 (List.nodup_cons.1 hnd).2
    obtain ⟨σ', g1, g2, g3, g4, g5, g6, g7, g8, g9⟩ := define_nexts hU hH hxu (H := H) (tag := tag) (l := l) ys ws ls'
      (σ₂.set x (.pair l)) (by simp [State.set, update]) h3 hl hxy hyz.1 (by simp at hlen; omega)
    refine ⟨(σ'.set x (σ'.cells.cell l).1).set z (σ'.cells.cell l).2, ?_, ?_, ?_, ?_, ?_⟩
    · intro r
      refine (runs_step (step_dotted k e x z (ys.map .id))).trans ?_
      have : exec H Γ tag (.cons (.id (U.rename 3)) (.cons (outFirst U (.id x) e)
          (nexts U x ys (.cons (outLast U 13 (.id x) (.id z)) .nil)))) σ =
          some ((σ'.set x (σ'.cells.cell l).1).set z (σ'.cells.cell l).2) := by
        rw [exec, if_pos (show Γ.kw (U.rename 3) = some .begin_ from hU.symbol 3)]
        rw [defineAll, define_first hU he, hv]
        simp only [Option.bind_some, h1, Option.map_some, Option.bind_eq_bind]
        rw [g1]
        simp [defineAll, define_rest hU hH hxu g2]
      rw [show exec H Γ tag (.cons (.id (U.rename 3)) (.cons (outFirst U (.id x) e)
        ((List.map (outNext U (.id x)) (ys.map .id)).foldr .cons (.cons (outLast U 13 (.id x) (.id z)) .nil)))) σ = _ from this]
      exact eq_comm
    · have hys : ys.map ((σ'.set x (σ'.cells.cell l).1).set z (σ'.cells.cell l).2).vars = ys.map σ'.vars := by
        apply List.map_congr_left
        intro y hy
        have h1 : y ≠ x := fun h => hxy (h ▸ hy)
        have h2 : y ≠ z := hyz.2.2 y hy z (by simp)
        simp [State.set, update, h1, h2]
      have e1 : ((σ'.set x (σ'.cells.cell l).1).set z (σ'.cells.cell l).2).vars x = (σ₂.cells.cell l).1 := by
        simp [State.set, update, hxz, g7]
      simp only [List.map_cons, hys, g3, e1, List.take_succ_cons]
    · refine ⟨ls'.drop ys.length, ?_⟩
      have e2 : ((σ'.set x (σ'.cells.cell l).1).set z (σ'.cells.cell l).2).vars z = (σ'.cells.cell l).2 := by
        simp [State.set, update]
      rw [e2, List.drop_succ_cons]
      exact g9
    · intro y _ hy
      have h1 : y ≠ x := fun h => hy (by simp [h])
      have h2' : y ≠ z := fun h => hy (by simp [h])
      simp only [State.set, update, h1, h2', if_false]
      rw [g4 y fun h => hy (by simp [h])]
      simp [State.set, update, h1, h2]
    · by_cases hys : ys = []
      · rw [if_pos hys]
        have e3 := g8 hys
        refine Kept.trans h4 ⟨by simp [State.set, e3], fun n _ => by simp [State.set, e3]⟩
      · rw [if_neg hys]
        rcases h5 with ⟨rfl, rfl⟩ | ⟨_, h5, h6⟩
        · refine ⟨by simp [State.set, g5], fun n _ => ?_⟩
          by_cases hn : n = l
          · subst hn
            refine ⟨by simpa [State.set] using g7, fun h => ?_⟩
            simp at h
          · have := g6 n hn
            simp only [State.set] at this ⊢
            simp [this]
        · rw [h6] at hlen
          cases ys with
          | nil => exact absurd rfl hys
          | cons y ys => simp at hlen

/-- `(define-values x e)`: the variable is bound to a list of the values. -/
theorem C87_define_values_list {k : Form} {x : Nat} {e : Form}
    (hU : Fresh Γ U (.ofList [k, .id x, e])) (he : User Γ e) {σ σ₁ : State} {v : Value} {vs : List Value} {ls : List Nat}
    (hv : H e σ = some (v, σ₁)) (hr : Returned tag σ₁.cells v vs ls) :
    ∃ σ', (∀ r, Runs H Γ tag U (.ofList [k, .id x, e]) σ r ↔ r = some σ') ∧
      (∃ ms, IsList σ'.cells (σ'.vars x) vs ms) ∧ (∀ y, y ≠ x → σ'.vars y = σ₁.vars y) ∧ Kept [] σ₁.cells σ'.cells := by
  obtain ⟨t, σ₂, ls', h1, h2, h3, h4, h5⟩ := operands_eq hr
  refine ⟨σ₂.set x t, fun r => ?_, ⟨ls', by simpa [State.set, update] using h3⟩, fun y hy => ?_, h4⟩
  · refine (runs_step (step_list k e x)).trans ?_
    have : exec H Γ tag (outFirst U (.id x) e) σ = some (σ₂.set x t) := by
      have hb : Γ.kw (U.rename 2) ≠ some .begin_ := by rw [hU.symbol]; decide
      have hd := define_first hU (x := x) he (H := H) (tag := tag) σ
      rw [hv] at hd
      simp only [Option.bind_some, h1, Option.map_some] at hd
      simp only [outFirst, Form.ofList, exec, if_neg hb] at hd ⊢
      exact hd
    rw [show exec H Γ tag (.ofList [.id (U.rename 2), .id x, outValues U e]) σ = _ from this]
    exact eq_comm
  · simp [State.set, update, hy, h2]

/-- `(define-values () e)`: the expression is evaluated; no variable of the user changes. -/
theorem C87_define_values_none (hH : Lawful H) {k : Form} {e : Form} (hU : Fresh Γ U (.ofList [k, .nil, e]))
    (he : User Γ e) {σ σ₁ : State} {v : Value} {vs : List Value} {ls : List Nat}
    (hv : H e σ = some (v, σ₁)) (hr : Returned tag σ₁.cells v vs ls) :
    ∃ σ', (∀ r, Runs H Γ tag U (.ofList [k, .nil, e]) σ r ↔ r = some σ') ∧
      (∀ y, ¬Γ.made y → σ'.vars y = σ₁.vars y) ∧ Kept [] σ₁.cells σ'.cells := by
  obtain ⟨t, σ₂, ls', h1, h2, h3, h4, h5⟩ := operands_eq hr
  refine ⟨σ₂.set (U.rename 15) (.datum (.bool false)), fun r => ?_, fun y hy => ?_, h4⟩
  · refine (runs_step (step_none k e)).trans ?_
    have hb : Γ.kw (U.rename 2) ≠ some .begin_ := by rw [hU.symbol]; decide
    have : eval H Γ tag (.ofList [.id (U.rename 4), .ofList [.id (U.rename 5), .nil, e],
        .ofList [.id (U.rename 5), .id (U.rename 16), .bool false]]) Locals.none σ = some (.datum (.bool false), σ₂) := by
      rw [eval.eq_def]
      simp only [Form.ofList, hU.symbol]
      simp only [keyword]
      simp [eval_user he, hv, h1]
      refine ⟨hU.symbol 5, ?_⟩
      rw [eval.eq_def]
      simp [hH.boolean]
    simp only [Form.ofList, exec, if_neg hb, define, hU.symbol] at this ⊢
    rw [this]
    simp [keyword, eq_comm]
  · simp [State.set, update, ne_made hU hy, h2]

/-- `(define-values (x) e)`: the variable is bound to what the expression returned, even if that stands for several
values. -/
theorem C87_define_values_single {k : Form} {x : Nat} {e : Form} (hU : Fresh Γ U (.ofList [k, .ofList [.id x], e]))
    (he : User Γ e) {σ : State} (r : Option State) :
    Runs H Γ tag U (.ofList [k, .ofList [.id x], e]) σ r ↔ r = (H e σ).map fun r => r.2.set x r.1 := by
  refine (runs_step (step_single k (.id x) e)).trans ?_
  have hb : Γ.kw (U.rename 2) ≠ some .begin_ := by rw [hU.symbol]; decide
  simp only [Form.ofList, exec, if_neg hb, define, hU.symbol, eval_user he]
  cases H e σ <;> simp [keyword, eq_comm]

/-- Too few values: there is no result (undefined behaviour). -/
theorem C87_too_few (hH : Lawful H) {k : Form} {x z : Nat} {ys : List Nat} {e : Form}
    (hU : Fresh Γ U (properForm k x ys z e)) (hu : ∀ y ∈ x :: (ys ++ [z]), ¬Γ.made y) (hnd : (x :: (ys ++ [z])).Nodup)
    (he : User Γ e) {σ σ₁ : State} {v : Value} {vs : List Value} {ls : List Nat} (hv : H e σ = some (v, σ₁))
    (hr : Returned tag σ₁.cells v vs ls) (hlen : vs.length < ys.length + 2) (r : Option State) :
    Runs H Γ tag U (properForm k x ys z e) σ r ↔ r = none := by
  obtain ⟨t, σ₂, ls', h1, h2, h3, h4, h5⟩ := operands_eq hr
  have hxu : ¬Γ.made x := hu x (by simp)
  have hxy : x ∉ ys := fun h => (List.nodup_cons.1 hnd).1 (by simp [h])
  have hyz := List.nodup_append.1 (List.nodup_cons.1 hnd).2
  have key : defineAll H Γ tag (nexts U x ys (.cons (outLast U 8 (.id x) (.id z)) .nil)) (σ₂.set x t) = none := by
    cases h3 with
    | nil =>
      have hn := define_nil hU hH (H := H) (tag := tag) (σ := σ₂.set x .nil) (x := x) (by simp [State.set, update])
      cases ys with
      | nil =>
        show defineAll H Γ tag (.cons (outLast U 8 (.id x) (.id z)) .nil) _ = _
        rw [defineAll, (hn (.id z)).2.1]
        rfl
      | cons y ys =>
        show defineAll H Γ tag (.cons (outNext U (.id x) (.id y)) (nexts U x ys _)) _ = _
        rw [defineAll, (hn (.id y)).1]
        rfl
    | @cons l ws ls' h3 =>
      have hl := isList_first h3
      by_cases hc : ws.length < ys.length
      · exact define_nexts_few hU hH hxu (H := H) (tag := tag) (l := l) ys ws ls'
          (σ₂.set x (.pair l)) (by simp [State.set, update]) h3 hl hxy hc _
      · obtain ⟨σ', g1, g2, g3, g4, g5, g6, g7, g8, g9⟩ := define_nexts hU hH hxu (H := H) (tag := tag) (l := l) ys ws ls'
          (σ₂.set x (.pair l)) (by simp [State.set, update]) h3 hl hxy hyz.1 (by omega)
        have hz : ws.drop ys.length = [] := by
          apply List.drop_eq_nil_of_le
          simp at hlen
          omega
        rw [hz] at g9
        generalize hc : (σ'.cells.cell l).2 = c at g9
        generalize List.drop ys.length ls' = ms at g9
        cases g9
        rw [g1]
        simp [defineAll, define_last hU hH hxu g2, hc, Cells.car]
  refine (runs_step (step_proper k (.id x) (.id z) e (ys.map .id))).trans ?_
  have : exec H Γ tag (.cons (.id (U.rename 3)) (.cons (outFirst U (.id x) e)
      (nexts U x ys (.cons (outLast U 8 (.id x) (.id z)) .nil)))) σ = none := by
    rw [exec, if_pos (show Γ.kw (U.rename 3) = some .begin_ from hU.symbol 3)]
    rw [defineAll, define_first hU he, hv]
    simp only [Option.bind_some, h1, Option.map_some, Option.bind_eq_bind]
    exact key
  rw [show exec H Γ tag (.cons (.id (U.rename 3)) (.cons (outFirst U (.id x) e)
    ((List.map (outNext U (.id x)) (ys.map .id)).foldr .cons (.cons (outLast U 8 (.id x) (.id z)) .nil)))) σ = _ from this]
  exact eq_comm

/-! ### What is missing -/

namespace Example

/-- Identifiers from 100 are made by renaming. -/
def ctx : Ctx where
  made n := 100 ≤ n
  kw n := if 100 ≤ n then keyword (n - 100) else none
  user x h := by simp [h]

/-- The renaming. -/
def use : Use := ⟨fun x y => x == y, (· + 100)⟩

theorem fresh {f : Form} (h : ∀ x ∈ idsOf f, x < 100) : Fresh ctx use f where
  made x := by simp [ctx, use]
  injective x y h := by simpa [use] using h
  fresh x hx := by
    have := h _ hx
    simp [use] at this
    omega
  symbol x := by simp [ctx, use]

/-- A number. -/
abbrev num (n : Nat) : Value := .datum (.atom n)

/-- The pairs: the object `<values>` at 0, the constant list `(1 2 3)` at 1, 2 and 3. -/
def cells : Cells where
  cell l := if l = 1 then (num 1, .pair 2) else if l = 2 then (num 2, .pair 3) else if l = 3 then (num 3, .nil) else (.nil, .nil)
  next := 4

/-- The variable `xs` (60) holds the list. -/
def σ₀ : State := ⟨cells, fun x => if x = 60 then .pair 1 else .nil⟩

/-- The expression `(apply values '(1 2 3))` is `.atom 0`: `values` receives the list itself (C84), and puts the mark
before it. -/
def host : Host
  | .id x, σ => some (σ.vars x, σ)
  | .bool b, σ => some (.datum (.bool b), σ)
  | .atom 0, σ => some (.pair σ.cells.next, ⟨σ.cells.cons (.pair 0) (.pair 1), σ.vars⟩)
  | _, _ => none

theorem lawful : Lawful host := ⟨fun _ _ => rfl, fun _ _ => rfl⟩

/-- The store after the expression. -/
def σ₁ : State := ⟨cells.cons (.pair 0) (.pair 1), σ₀.vars⟩

theorem returned : Returned 0 σ₁.cells (.pair 4) [num 1, num 2, num 3] [1, 2, 3] :=
  .several rfl (.cons (l := 1) (.cons (l := 2) (.cons (l := 3) .nil)))

/-- `(define-values (a b c) (apply values '(1 2 3)))`. -/
abbrev abc : Form := properForm (.id 14) 70 [71] 72 (.atom 0)

theorem abc_fresh : Fresh ctx use abc := fresh (by decide)

/-- The hypotheses of the theorem are met. -/
theorem C87_example : ∃ σ', (∀ r, Runs host ctx 0 use abc σ₀ r ↔ r = some σ') ∧
    [70, 71, 72].map σ'.vars = [num 1, num 2, num 3] ∧ σ'.vars 60 = .pair 1 := by
  obtain ⟨σ', h1, h2, _⟩ := C87_define_values_partial (σ := σ₀) lawful abc_fresh (by simp [ctx]) (by decide)
    (fun x hx => by simp [idsOf] at hx) rfl returned (by decide)
  exact ⟨σ', h1, h2.1, h2.2 60 (by simp [ctx]) (by decide)⟩

/-- The store after the definitions. -/
def σ₂ : State :=
  ((State.set ⟨σ₁.cells.setCdr 1 (.pair 3), update σ₀.vars 70 (.pair 1)⟩ 71 (num 2)).set 70 (num 1)).set 72 (num 3)

theorem run_abc (r : Option State) : Runs host ctx 0 use abc σ₀ r ↔ r = some σ₂ := by
  refine (runs_step (step_proper (.id 14) (.id 70) (.id 72) (.atom 0) [.id 71])).trans ?_
  rw [show exec host ctx 0 _ σ₀ = some σ₂ from rfl]
  exact eq_comm

/-- The list from which the values came is not the same afterwards: `xs` was `(1 2 3)` and is `(1 3)`. -/
theorem C87_shared_list_fails : ∃ σ', Runs host ctx 0 use abc σ₀ (some σ') ∧ σ₀.vars 60 = σ'.vars 60 ∧
    (∃ ls, IsList σ₀.cells (σ₀.vars 60) [num 1, num 2, num 3] ls) ∧
    (∃ ls, IsList σ'.cells (σ'.vars 60) [num 1, num 3] ls) := by
  refine ⟨σ₂, (run_abc _).2 rfl, rfl, ⟨[1, 2, 3], .cons (l := 1) (.cons (l := 2) (.cons (l := 3) .nil))⟩,
    ⟨[1, 3], .cons (l := 1) (.cons (l := 3) .nil)⟩⟩

/-- The same definition evaluated again (in a procedure that is called twice, say): there are too few values now. -/
theorem C87_again_fails (r : Option State) : Runs host ctx 0 use abc σ₂ r ↔ r = none := by
  refine (runs_step (step_proper (.id 14) (.id 70) (.id 72) (.atom 0) [.id 71])).trans ?_
  rw [show exec host ctx 0 _ σ₂ = none from rfl]
  exact eq_comm

/-- Too many values are not an error. -/
theorem C87_too_many_fails : ∃ σ', Runs host ctx 0 use (properForm (.id 14) 70 [] 71 (.atom 0)) σ₀ (some σ') ∧
    Returned 0 σ₁.cells (.pair 4) [num 1, num 2, num 3] [1, 2, 3] ∧ [70, 71].map σ'.vars = [num 1, num 2] := by
  obtain ⟨σ', h1, h2, _⟩ := C87_define_values_partial (σ := σ₀) (k := .id 14) (x := 70) (ys := []) (z := 71) (e := .atom 0) lawful
    (fresh (by decide)) (by simp [ctx]) (by decide) (fun x hx => by simp [idsOf] at hx) rfl returned (by decide)
  exact ⟨σ', (h1 _).2 rfl, returned, h2.1⟩

/-- `(define-values (a) (values 1 2 3))` is not an error: the variable is bound to the object that stands for the
three values. -/
theorem C87_single_fails : ∃ σ', Runs host ctx 0 use (.ofList [.id 14, .ofList [.id 70], .atom 0]) σ₀ (some σ') ∧
    Returned 0 σ'.cells (σ'.vars 70) [num 1, num 2, num 3] [1, 2, 3] :=
  ⟨_, (C87_define_values_single (fresh (by decide)) (fun x hx => by simp [idsOf] at hx) _).2 rfl, returned⟩

/-- `(define-values (a . b) (apply values '(1 2 3)))`: `b` is a list of the others, and no pair changes. -/
example : ∃ σ', (∀ r, Runs host ctx 0 use (dottedForm (.id 14) 70 [] 71 (.atom 0)) σ₀ r ↔ r = some σ') ∧
    [70].map σ'.vars = [num 1] ∧ ∃ ms, IsList σ'.cells (σ'.vars 71) [num 2, num 3] ms := by
  obtain ⟨σ', h1, h2, h3, _⟩ := C87_define_values_rest_partial (σ := σ₀) (k := .id 14) (x := 70) (ys := []) (z := 71) (e := .atom 0) lawful
    (fresh (by decide)) (by simp [ctx]) (by decide) (fun x hx => by simp [idsOf] at hx) rfl returned (by decide)
  exact ⟨σ', h1, h2, h3⟩

end Example

end Meevax.DefineValues
