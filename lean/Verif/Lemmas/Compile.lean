import Verif.Spec.Scheme
import Mathlib.Tactic.Tauto

/-!
The generator, seen from the expressions: `comp` is what `generate` yields for a form that parses.
-/

namespace Meevax.Secd

open Scheme

def addrIn (x : Name) (i : Nat) : List Name → Option Name → Nat → Option Identity
  | y :: fs, rest, j => if y = x then some (.relative i j) else addrIn x i fs rest (j + 1)
  | [], some r, j => if r = x then some (.variadic i j) else none
  | [], none, _ => none

def addrFrom (x : Name) : Scopes → Nat → Option Identity
  | [], _ => none
  | (fs, rest) :: sc, i =>
    match addrIn x i fs rest 0 with
    | some id => some id
    | none => addrFrom x sc (i + 1)

def addr (free : Name → Nat) (x : Name) (sc : Scopes) : Identity :=
  (addrFrom x sc 0).getD (.absolute (free x))

mutual

def comp (free : Name → Nat) (sc : Scopes) : Expr → Code → Bool → Code
  | .const d, k, _ => .loadConstant d :: k
  | .var x, k, _ => loadInstr (addr free x sc) :: k
  | .lam fs rest body, k, _ => .loadClosure (comp free ((fs, rest) :: sc) body [.ret] true) :: k
  | .app f args, k, tail =>
    .loadConstant .nil :: compArgs free sc args
      (comp free sc f (if tail then [.tailCall] else .call :: k) false)
  | .ite a b c, k, tail =>
    let k' : Code := if tail then k else [.join]
    let c₁ := comp free sc b k' tail
    let c₂ := comp free sc c k' tail
    comp free sc a (if tail then [.tailSelect c₁ c₂] else .select c₁ c₂ :: k) false
  | .set x e, k, _ => comp free sc e (storeInstr (addr free x sc) :: k) false
  | .letrec xs es body, k, tail =>
    .dummy :: .loadConstant .nil :: compArgs free ((xs, none) :: sc) es
      (.loadClosure (comp free ((xs, none) :: sc) body [.ret] true) ::
        if tail then [.tailLetrec] else .letrec :: k)
  | .seq a b, k, tail => comp free sc a (.drop :: comp free sc b k tail) false
  | .callcc f, k, tail => .loadContinuation k :: comp free sc f [.tailCall] tail
  | .current i, k, _ => .current i :: k
  | .install i e, k, _ => comp free sc e (.install i :: k) false

def compArgs (free : Name → Nat) (sc : Scopes) : List Expr → Code → Code
  | [], k => k
  | a :: as, k => compArgs free sc as (comp free sc a (.cons :: k) false)

end

/-- The code of the operands that are still to be evaluated, the next one first. -/
def compTodo (free : Name → Nat) (sc : Scopes) : List Expr → Code → Code
  | [], k => k
  | a :: as, k => comp free sc a (.cons :: compTodo free sc as k) false

theorem compTodo_append (free : Name → Nat) (sc : Scopes) (as : List Expr) (a : Expr) (k : Code) :
    compTodo free sc (as ++ [a]) k = compTodo free sc as (comp free sc a (.cons :: k) false) := by
  induction as with
  | nil => rfl
  | cons b as ih => simp only [List.cons_append, compTodo, ih]

theorem compArgs_eq (free : Name → Nat) (sc : Scopes) (as : List Expr) (k : Code) :
    compArgs free sc as k = compTodo free sc as.reverse k := by
  induction as generalizing k with
  | nil => simp [compArgs, compTodo]
  | cons a as ih => simp only [compArgs, ih, List.reverse_cons, compTodo_append]

/-! Code of an expression that is not in tail position ends with its continuation. -/

mutual

theorem comp_append (free : Name → Nat) (sc : Scopes) :
    ∀ (e : Expr) (k₁ k₂ : Code), Placed false e →
      comp free sc e (k₁ ++ k₂) false = comp free sc e k₁ false ++ k₂
  | .const d, _, _, _ => by simp [comp]
  | .var x, _, _, _ => by simp [comp]
  | .lam .., _, _, _ => by simp [comp]
  | .app f args, k₁, k₂, h => by
    cases h with
    | app _ hf ha =>
      have h₁ := comp_append free sc f (.call :: k₁) k₂ hf
      have h₂ := compArgs_append free sc args (comp free sc f (.call :: k₁) false) k₂ ha
      simp only [List.cons_append] at h₁
      simp [comp, h₁, h₂]
  | .ite a b c, k₁, k₂, h => by
    cases h with
    | ite ha hb hc =>
      have := comp_append free sc a
        (.select (comp free sc b [.join] false) (comp free sc c [.join] false) :: k₁) k₂ ha
      simpa [comp] using this
  | .set x e, k₁, k₂, h => by
    cases h with
    | set _ _ he =>
      have := comp_append free sc e (storeInstr (addr free x sc) :: k₁) k₂ he
      simpa [comp] using this
  | .letrec xs es body, k₁, k₂, h => by
    cases h with
    | letrec _ _ _ hes hb =>
      have := compArgs_append free ((xs, none) :: sc) es
        (.loadClosure (comp free ((xs, none) :: sc) body [.ret] true) :: .letrec :: k₁) k₂ hes
      simpa [comp] using this
  | .seq a b, k₁, k₂, h => by
    cases h with
    | seq ha hb =>
      have h₁ := comp_append free sc b k₁ k₂ hb
      have h₂ := comp_append free sc a (.drop :: comp free sc b k₁ false) k₂ ha
      simp only [List.cons_append] at h₂
      simp [comp, h₁, h₂]
  | .callcc f, _, _, h => by cases h
  | .current _, _, _, _ => by simp [comp]
  | .install i e, k₁, k₂, h => by
    cases h with
    | install _ _ he =>
      have := comp_append free sc e (.install i :: k₁) k₂ he
      simpa [comp] using this

theorem compArgs_append (free : Name → Nat) (sc : Scopes) :
    ∀ (as : List Expr) (k₁ k₂ : Code), (∀ a ∈ as, Placed false a) →
      compArgs free sc as (k₁ ++ k₂) = compArgs free sc as k₁ ++ k₂
  | [], _, _, _ => by simp [compArgs]
  | a :: as, k₁, k₂, h => by
    have h₁ := comp_append free sc a (.cons :: k₁) k₂ (h a (by simp))
    have h₂ := compArgs_append free sc as (comp free sc a (.cons :: k₁) false) k₂
      (fun b hb => h b (by simp [hb]))
    simp only [List.cons_append] at h₁
    simp [compArgs, h₁, h₂]

end

/-! ### `generate` on forms that parse -/

/-- The bound variables of the generator, against the scopes. -/
inductive ScopesOf : List Form → Scopes → Prop where
  | nil : ScopesOf [] []
  | cons {f : Form} {bv : List Form} {fs : List Name} {rest : Option Name} {sc : Scopes}
      (hf : ParseFormals f fs rest) (h : ScopesOf bv sc) :
      ScopesOf (f :: bv) ((fs, rest) :: sc)

theorem scanFormals_eq {x : Name} {i : Nat} {f : Form} {fs : List Name} {rest : Option Name}
    (h : ParseFormals f fs rest) (j : Nat) : scanFormals x i f j = addrIn x i fs rest j := by
  induction h generalizing j with
  | nil => rfl
  | rest r => rfl
  | cons y h ih => simp [scanFormals, addrIn, ih]

theorem scanScopes_eq {x : Name} {bv : List Form} {sc : Scopes} (h : ScopesOf bv sc) (i : Nat) :
    scanScopes x bv i = addrFrom x sc i := by
  induction h generalizing i with
  | nil => rfl
  | cons hf h ih =>
    simp only [scanScopes, addrFrom, scanFormals_eq hf, ih]
    split <;> rename_i h <;> simp [h]

theorem identify_eq {G : Globals} {x : Name} {bv : List Form} {sc : Scopes} (h : ScopesOf bv sc) :
    identify G x bv = addr G.free x sc := by
  simp [identify, addr, scanScopes_eq h]

theorem addrIn_none {x : Name} {i : Nat} {fs : List Name} {rest : Option Name} {j : Nat} :
    addrIn x i fs rest j = none ↔ x ∉ fs ++ rest.toList := by
  induction fs generalizing j with
  | nil => cases rest <;> simp [addrIn, eq_comm]
  | cons y fs ih => by_cases h : y = x <;> simp [addrIn, h, ih, eq_comm]; tauto

theorem addrFrom_none {x : Name} {sc : Scopes} {i : Nat} :
    addrFrom x sc i = none ↔ x ∉ names sc := by
  induction sc generalizing i with
  | nil => simp [addrFrom, names]
  | cons s sc ih =>
    obtain ⟨fs, rest⟩ := s
    have := addrIn_none (x := x) (i := i) (fs := fs) (rest := rest) (j := 0)
    simp only [addrFrom, names]
    split
    · rename_i h; rw [h] at this; simp at this ⊢; tauto
    · rename_i h; rw [h] at this; rw [ih]; simp at this ⊢; tauto

theorem addrFrom_ne_absolute {x : Name} {sc : Scopes} {i g : Nat} :
    addrFrom x sc i ≠ some (.absolute g) := by
  induction sc generalizing i with
  | nil => simp [addrFrom]
  | cons s sc ih =>
    obtain ⟨fs, rest⟩ := s
    simp only [addrFrom]
    have : ∀ j, addrIn x i fs rest j ≠ some (.absolute g) := by
      induction fs with
      | nil => intro j; cases rest <;> simp [addrIn]; 
      | cons y fs ih => intro j; simp only [addrIn]; split <;> simp [ih]
    split
    · rename_i id h; intro h'; exact this 0 (h ▸ h')
    · exact ih

theorem keyword_of {G : Globals} {bv : List Form} {sc : Scopes} (h : ScopesOf bv sc) {x : Name}
    {s : Syntax} (hk : IsKeyword G sc x s) : keyword G (.sym x) bv = some s := by
  have : identify G x bv = .absolute (G.free x) := by
    rw [identify_eq h, addr, addrFrom_none.2 hk.1]; rfl
  simp [keyword, this, hk.2]

theorem not_keyword {G : Globals} {bv : List Form} {sc : Scopes} (h : ScopesOf bv sc) {a : Form}
    (hk : NotKeyword G sc a) : keyword G a bv = none := by
  cases a with
  | sym x =>
    simp only [keyword]
    split
    · rename_i g hg
      rw [identify_eq h, addr] at hg
      rcases hk x rfl with hx | hx
      · cases ha : addrFrom x sc 0 with
        | none => exact absurd hx (addrFrom_none.1 ha)
        | some id =>
          rw [ha] at hg; simp at hg; subst hg
          exact absurd ha addrFrom_ne_absolute
      · cases ha : addrFrom x sc 0 with
        | none => rw [ha] at hg; simp at hg; subst hg; exact hx
        | some id =>
          rw [ha] at hg; simp at hg; subst hg
          exact absurd ha addrFrom_ne_absolute
    · rfl
  | _ => rfl

/-- Expressions whose code is one instruction. -/
def Simple : Expr → Prop
  | .var _ => True
  | .lam .. => True
  | _ => False

/-- What the generator has to yield for each kind of form. -/
def GenOK (G : Globals) (bv : List Form) (sc : Scopes) (form : Form) : Item → Prop
  | .expr e => ∀ (k : Code) (tail : Bool), (tail = true → k = [.ret] ∨ Simple e) → Placed tail e →
      generate G form bv k tail = some (comp G.free sc e k tail)
  | .args es => (∀ e ∈ es, Placed false e) → ∀ k : Code,
      genOperand G form bv k = some (.loadConstant .nil :: compArgs G.free sc es k)
  | .binds _ es => (∀ e ∈ es, Placed false e) → ∃ inits, mapCadr form = some inits ∧
      ∀ k : Code, genOperand G inits bv k = some (.loadConstant .nil :: compArgs G.free sc es k)
  | .body e =>
      (Placed true e → genBody G form bv [.ret] = some (comp G.free sc e [.ret] true)) ∧
      ∀ (k : Code) (tail : Bool), (tail = true → k = [.ret] ∨ Simple e) → Placed tail e →
        genSequence G form bv k tail = some (comp G.free sc e k tail)

theorem parse_binds {G : Globals} {sc : Scopes} {form : Form} {it : Item}
    (h : Parse G sc form it) : ∀ xs es, it = .binds xs es →
      ∃ formals, mapCar form = some formals ∧ ParseFormals formals xs none := by
  induction h with
  | noBinds =>
    intro xs es h; cases h
    exact ⟨.nil, rfl, .nil⟩
  | bind ha hd _ ih =>
    intro xs es h; cases h
    obtain ⟨f, h₁, h₂⟩ := ih _ _ rfl
    exact ⟨_, by rw [mapCar, h₁]; rfl, .cons _ h₂⟩
  | _ => intro xs es h; cases h

theorem parse_generate {G : Globals} {sc : Scopes} {form : Form} {it : Item}
    (h : Parse G sc form it) : ∀ {bv : List Form}, ScopesOf bv sc → GenOK G bv sc form it := by
  induction h with
  | var sc x =>
    intro bv hs k tail hk hp
    rw [generate, identify_eq hs, comp]
  | self h₁ h₂ =>
    intro bv hs k tail hk hp
    rw [generate]
    · rfl
    · exact h₁
    · exact h₂
  | quote d hq =>
    intro bv hs k tail hk hp
    rw [generate.eq_def]; dsimp only; rw [keyword_of hs hq]; rfl
  | lambda hq hf hb ih =>
    intro bv hs k tail hk hp
    cases hp with
    | lam _ _ _ hp =>
      have := (ih (.cons hf hs)).1 hp
      rw [generate.eq_def]; dsimp only; rw [keyword_of hs hq]
      simp [this, comp]
  | app hk hf ha ihf iha =>
    intro bv hs k tail ht hp
    cases hp with
    | app _ hpf hpa =>
      rw [generate.eq_def]; dsimp only; rw [not_keyword hs hk]
      have h₁ := ihf hs (if tail then [.tailCall] else .call :: k) false (by simp) hpf
      have h₂ := iha hs hpa
      simp [h₁, h₂, comp]
  | cond hq hc ht he ihc iht ihe =>
    intro bv hs k tail hk hp
    cases hp with
    | ite hpa hpb hpc =>
      rw [generate.eq_def]; dsimp only; rw [keyword_of hs hq]
      have hk' : tail = true → (if tail then k else [.join]) = [.ret] := by
        intro h; have := hk h; simp [Simple] at this; simp [h, this]
      have h₁ := iht hs (if tail then k else [.join]) tail (fun h => .inl (hk' h)) hpb
      have h₂ := ihe hs (if tail then k else [.join]) tail (fun h => .inl (hk' h)) hpc
      have h₃ := ihc hs
      simp only [h₁, h₂, Option.bind_eq_bind, Option.bind_some]
      rw [h₃ _ false (by simp) hpa]
      simp [comp]
  | cond₁ hq hc ht ihc iht =>
    intro bv hs k tail hk hp
    cases hp with
    | ite hpa hpb hpc =>
      rw [generate.eq_def]; dsimp only; rw [keyword_of hs hq]
      have hk' : tail = true → (if tail then k else [.join]) = [.ret] := by
        intro h; have := hk h; simp [Simple] at this; simp [h, this]
      have h₁ := iht hs (if tail then k else [.join]) tail (fun h => .inl (hk' h)) hpb
      have h₃ := ihc hs
      simp only [h₁, Option.bind_eq_bind, Option.bind_some]
      rw [h₃ _ false (by simp) hpa]
      cases tail
      · simp [comp]
      · have := hk rfl; simp [Simple] at this; simp [comp, this]
  | set hq he ih =>
    intro bv hs k tail hk hp
    cases hp with
    | set _ _ hpe =>
      rw [generate.eq_def]; dsimp only; rw [keyword_of hs hq]
      simp only [identify_eq hs]
      rw [ih hs _ false (by simp) hpe, comp]
  | @define q x e e' hq he ih =>
    intro bv hs k tail hk hp
    cases hs
    cases hp with
    | set _ _ hpe =>
      rw [generate.eq_def]; dsimp only; rw [keyword_of .nil hq]; dsimp only
      rw [identify_eq .nil, ih .nil _ false (by simp) hpe, comp]
  | letrec hq hbs hb ihbs ihb =>
    intro bv hs k tail hk hp
    cases hp with
    | letrec _ _ _ hpes hpb =>
      obtain ⟨fo, h₁, h₂⟩ := parse_binds hbs _ _ rfl
      obtain ⟨ini, h₃, h₄⟩ := ihbs (.cons h₂ hs) hpes
      have h₅ := (ihb (.cons h₂ hs)).1 hpb
      rw [generate.eq_def]; dsimp only; rw [keyword_of hs hq]; dsimp only
      split
      · rename_i f i hf hi
        rw [h₁] at hf; rw [h₃] at hi
        cases hf; cases hi
        simp only [h₅, h₄, Option.bind_eq_bind, Option.bind_some, comp]
      · rename_i hn
        exact (hn _ _ h₁ h₃).elim
  | begin hq hb ih =>
    intro bv hs k tail hk hp
    rw [generate.eq_def]; dsimp only; rw [keyword_of hs hq]
    exact (ih hs).2 k tail hk hp
  | callcc hq hf ih =>
    intro bv hs k tail hk hp
    rw [generate.eq_def]; dsimp only; rw [keyword_of hs hq]; dsimp only
    cases hp with
    | callccVar x => rw [ih hs _ _ (fun _ => .inr trivial) (.var _ _)]; simp [comp]
    | callccLam fs rest hp =>
      rw [ih hs _ _ (fun _ => .inr trivial) (.lam _ _ _ hp)]; simp [comp]
  | current n hq =>
    intro bv hs k tail hk hp
    rw [generate.eq_def]; dsimp only; rw [keyword_of hs hq]; rfl
  | install n hq he ih =>
    intro bv hs k tail hk hp
    cases hp with
    | install _ _ hpe =>
      rw [generate.eq_def]; dsimp only; rw [keyword_of hs hq]
      simp only
      rw [ih hs _ false (by simp) hpe, comp]
  | noArgs =>
    intro bv hs _ k
    rw [genOperand, generate, compArgs] <;> simp
  | arg ha hd iha ihd =>
    intro bv hs hp k
    rw [genOperand, iha hs (.cons :: k) false (by simp) (hp _ (by simp))]
    simp only [Option.bind_eq_bind, Option.bind_some]
    rw [ihd hs (fun e he => hp e (by simp [he])), compArgs]
  | noBinds =>
    intro bv hs _
    exact ⟨.nil, rfl, fun k => by rw [genOperand, generate, compArgs] <;> simp⟩
  | bind ha hd iha ihd =>
    intro bv hs hp
    obtain ⟨ini, h₃, h₄⟩ := ihd hs (fun e he => hp e (by simp [he]))
    refine ⟨_, by rw [mapCadr, h₃]; rfl, fun k => ?_⟩
    rw [genOperand, iha hs (.cons :: k) false (by simp) (hp _ (by simp))]
    simp only [Option.bind_eq_bind, Option.bind_some]
    rw [h₄, compArgs]
  | last ha ih =>
    intro bv hs
    refine ⟨fun hp => ?_, fun k tail hk hp => ?_⟩
    · rw [genBody]; exact ih hs [.ret] true (by simp) hp
    · rw [genSequence]; exact ih hs k tail hk hp
  | more ha hd iha ihd =>
    intro bv hs
    have hne : ∀ {d sc e}, Parse G sc d (.body e) → d ≠ .nil := by
      rintro d sc e h rfl; cases h
    refine ⟨fun hp => ?_, fun k tail hk hp => ?_⟩
    · cases hp with
      | seq hpa hpb =>
        rw [genBody]
        · rw [(ihd hs).1 hpb]
          simp only [Option.bind_eq_bind, Option.bind_some]
          rw [iha hs _ false (by simp) hpa, comp]
        · exact hne hd
    · cases hp with
      | seq hpa hpb =>
        rw [genSequence]
        · rw [(ihd hs).2 k tail (fun h => .inl (by simpa [Simple] using hk h)) hpb, iha hs [] false (by simp) hpa]
          simp only [Option.bind_eq_bind, Option.bind_some, Option.some.injEq]
          rw [comp, ← comp_append _ _ _ _ _ hpa]; rfl
        · exact hne hd

end Meevax.Secd
