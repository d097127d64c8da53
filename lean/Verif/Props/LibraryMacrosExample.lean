import Mathlib.Data.Nat.Pairing
import Verif.Props.CaseLambda

/-!
C82: the hypotheses hold of a concrete way to make new identifiers and a concrete meaning of bodies, with
effects; and what the theorems say of some uses.
-/

namespace Meevax.LibraryMacros.Example

open Meevax.Rules Spec

/-- The identifier made from `x` in use number `k`. -/
def name (k x : Nat) : Nat := 2 * Nat.pair k x + 101

/-- The odd numbers from 101 are made by renaming. -/
def made (n : Nat) : Prop := 101 ≤ n ∧ n % 2 = 1

instance (n : Nat) : Decidable (made n) := by unfold made; infer_instance

/-- What an identifier was made from. -/
def base (n : Nat) : Nat := (Nat.unpair ((n - 101) / 2)).2

theorem made_name (k x : Nat) : made (name k x) := by
  unfold made name
  omega

theorem base_name (k x : Nat) : base (name k x) = x := by
  have : (name k x - 101) / 2 = Nat.pair k x := by unfold name; omega
  rw [base, this, Nat.unpair_pair]

theorem base_lt {n : Nat} (h : made n) : base n < n := by
  have h1 := Nat.unpair_right_le ((n - 101) / 2)
  unfold base
  unfold made at h
  omega

/-- The meaning of an identifier. -/
def kw (n : Nat) : Option Kw :=
  if h : made n then (if made (base n) then kw (base n) else keyword (base n)) else none
termination_by n
decreasing_by exact base_lt h

/-- The variable an identifier stands for. -/
def var (n : Nat) : Nat :=
  if h : made n then (if made (base n) then var (base n) else n) else n
termination_by n
decreasing_by exact base_lt h

/-- The context. -/
def ctx : Ctx := ⟨made, kw, var⟩

theorem symbols : Symbols ctx := by
  intro x hx
  have := hx.1
  omega

theorem supply : Supply ctx := by
  intro form
  refine ⟨⟨fun x y => x == y, name ((idsOf form).foldr max 0 + 1)⟩, ?_, ?_, ?_, ?_, ?_⟩
  · intro x
    exact made_name _ _
  · intro x y h
    have := congrArg base h
    simpa only [base_name] using this
  · intro x hx
    have hle : ∀ l : List Nat, ∀ y ∈ l, y ≤ l.foldr max 0 := by
      intro l
      induction l with
      | nil => intro y hy; cases hy
      | cons a l ih =>
        intro y hy
        rcases List.mem_cons.1 hy with rfl | hy
        · exact Nat.le_max_left _ _
        · exact Nat.le_trans (ih y hy) (Nat.le_max_right _ _)
    have h1 := hle _ _ hx
    have h2 := Nat.left_le_pair ((idsOf form).foldr max 0 + 1) x
    simp only [name] at h1
    omega
  · intro x hx
    have hx : ¬made x := hx
    constructor
    · show kw (name _ x) = _
      rw [kw, dif_pos (made_name _ _), base_name, if_neg hx]
    · show var (name _ x) = _
      rw [var, dif_pos (made_name _ _), base_name, if_neg hx]
  · intro x hx
    have hx : made x := hx
    constructor
    · show kw (name _ x) = kw x
      rw [kw, dif_pos (made_name _ _), base_name, if_pos hx]
    · show var (name _ x) = var x
      rw [var, dif_pos (made_name _ _), base_name, if_pos hx]

/-- Effects: the expressions evaluated so far. -/
abbrev M := StateM (List Form)

/-- A body evaluates to the value of its last form: a variable of the user, or itself.  A vector stands for
several values. -/
def host : Host M Form where
  body fs ρ := do
    modify (· ++ fs)
    match fs.getLast? with
    | some (.id x) => pure (if made x then .undefined else ρ x)
    | some f => pure f
    | none => pure .undefined
  vals
    | .vec xs => xs.toList.getD []
    | v => [v]
  list vs := pure (.ofList vs)
  items l := pure (l.toList.getD [])
  enter _ v := pure v
  wrong n b vs := do
    modify (· ++ [.num n, .bool b])
    pure .undefined
  const f := f
  prim p vs := match p, vs with
    | .length, [l] => pure (.num ((l.toList.getD []).length : Nat))
    | .numEq, [.num a, .num b] => pure (.bool (decide (a = b)))
    | .numGe, [.num a, .num b] => pure (.bool (decide (b ≤ a)))
    | .error, vs => do
      modify (· ++ vs)
      pure .undefined
    | _, _ => pure .undefined
  truth v := v ≠ .bool false

theorem lawful : Lawful host ctx.made where
  lexical fs ρ ρ' h := by
    simp only [host]
    congr 1
    funext _
    split
    · rename_i x _
      by_cases hx : made x
      · simp [hx]
      · simp only [if_neg hx, h x hx]
    · rfl
    · rfl
  enter _ _ _ := rfl

theorem toList_ofList (vs : List Form) : (Form.ofList vs).toList = some vs := by
  induction vs with
  | nil => rfl
  | cons v vs ih => simp [Form.ofList, Form.toList, ih]

theorem arithmetic : Arithmetic host (fun n => .num (n : Nat)) (fun b => .bool b) where
  length_list vs k := by simp [host, toList_ofList]
  items_list vs k := by simp [host, toList_ofList]
  length_const fs := by simp [host, toList_ofList]
  numEq a b := by simp [host, Int.ofNat_inj]
  numGe a b := by simp [host]
  truth b := by cases b <;> simp [host]

/-- The environment outside. -/
def ρ₀ : Env Form := fun _ => .num 0

/-- Variables of the user. -/
abbrev a : Form := .id 60
abbrev b : Form := .id 61
abbrev c : Form := .id 62

/-- `(values 1 2)`, `(values 3 4 5)`. -/
abbrev v12 : Form := .vec (.ofList [.num 1, .num 2])
abbrev v345 : Form := .vec (.ofList [.num 3, .num 4, .num 5])

/-- `(let-values (((a b) (values 1 2)) ((c . a') (values 3 4 5))) …)`. -/
def bindings : List (Form × Form) := [(.ofList [a, b], v12), (.cons c (.id 63), v345)]

theorem bindings_ok : BindingsOk ctx bindings := by
  intro x hx
  simp only [bindings, List.mem_cons, List.not_mem_nil, or_false] at hx
  rcases hx with rfl | rfl
  · exact ⟨.cons (.cons .nil), fun x hx => by cases hx⟩
  · exact ⟨.cons .rest, fun x hx => by cases hx⟩

theorem user_small {f : Form} (h : ∀ x ∈ idsOf f, x < 101) : ctx.User f := fun x hx hm => by
  have := hm.1
  have := h x hx
  omega

/-- The use of `let-values` has a meaning, and it is that of the specification. -/
theorem C82_let_values_example (body : Form) (hb : ∀ x ∈ idsOf body, x < 101) (d : Env Form → M Form) :
    Means host ctx letValuesRules (.cons (.id 70) (.cons (.ofList (bindings.map bindingForm)) (.cons body (.ofList [])))) d ↔
      d = fun ρ => letValues host ρ (host.body [body]) bindings [] :=
  C82_let_values lawful supply symbols bindings_ok (user_small (by simpa [idsOf, Form.ofList] using hb))

/-- The rest of the values is in a list; both expressions are evaluated, from the left, before the body. -/
example : (letValues host ρ₀ (host.body [.id 63]) bindings []).run [] =
    (.ofList [.num 4, .num 5], [v12, v345, .id 63]) := by repeat (first | rfl | constructor)

/-- The wrong number of values. -/
example : (letValues host ρ₀ (host.body [a]) [(.ofList [a], v12)] []).run [] =
    (.undefined, [v12, .num 1, .bool false]) := by repeat (first | rfl | constructor)

/-- `let*-values` evaluates the second expression with the first binding, `let-values` without. -/
example : (letStarValues host (host.body [b]) [(.ofList [a], .num 7), (.ofList [b], a)] ρ₀).run [] =
      (.num 7, [.num 7, a, b]) ∧
    (letValues host ρ₀ (host.body [b]) [(.ofList [a], .num 7), (.ofList [b], a)] []).run [] =
      (.num 0, [.num 7, a, b]) := by repeat (first | rfl | constructor)

/-- `receive`. -/
example : (receive host (.cons a b) v345 [b] ρ₀).run [] = (.ofList [.num 4, .num 5], [v345, b]) := by repeat (first | rfl | constructor)

/-- Clauses `((a) a) ((a b) b) ((a . b) b)`. -/
def clauses : List (Form × List Form) := [(.ofList [a], [a]), (.ofList [a, b], [b]), (.cons a b, [b])]

theorem clauses_are_ok : ClausesOk ctx clauses := by
  intro x hx
  simp only [clauses, List.mem_cons, List.not_mem_nil, or_false] at hx
  rcases hx with rfl | rfl | rfl
  · exact ⟨.cons .nil, user_small (by decide)⟩
  · exact ⟨.cons (.cons .nil), user_small (by decide)⟩
  · exact ⟨.cons .rest, user_small (by decide)⟩

theorem C82_case_lambda_example (p : Env Form → List Form → M Form) :
    MeansProc host ctx caseLambdaRules (.cons (.id 70) (.ofList (clauses.map clauseForm))) p ↔ p = caseLambda host clauses :=
  C82_case_lambda lawful arithmetic supply symbols clauses_are_ok

example : (caseLambda host clauses ρ₀ [.num 1]).run [] = (.num 1, [a]) ∧
    (caseLambda host clauses ρ₀ [.num 1, .num 2]).run [] = (.num 2, [b]) ∧
    (caseLambda host clauses ρ₀ [.num 1, .num 2, .num 3]).run [] = (.ofList [.num 2, .num 3], [b]) ∧
    (caseLambda host clauses ρ₀ []).run [] = (.undefined, [strNoMatch, strNoMatch]) := by repeat (first | rfl | constructor)

end Meevax.LibraryMacros.Example
