import Verif.Spec.Readback
import Verif.Lemmas.SecdPlain

/-! The code of a term is the code of its expression. -/

namespace Meevax.Expand

open Secd (Name Code)
open Scheme (Expr)
open Spec

/-- The parameters of the enclosing procedures, innermost first. -/
abbrev Shape := List (Nat × Bool)

/-- An address that is within the parameters. -/
def Scoped (Γ : Shape) : Address → Prop
  | .loc i j => ∃ n r, Γ[i]? = some (n, r) ∧ j < n
  | .rest i j => Γ[i]? = some (j, true)
  | .glob _ => True

mutual

/-- All addresses of a term are within the parameters, and bodies are not empty. -/
def Closed : Shape → Term → Prop
  | _, .const _ => True
  | Γ, .ref a => Scoped Γ a
  | Γ, .lam n r body => body ≠ [] ∧ ClosedAll ((n, r) :: Γ) body
  | Γ, .when t c => Closed Γ t ∧ Closed Γ c
  | Γ, .ite t c a => Closed Γ t ∧ Closed Γ c ∧ Closed Γ a
  | Γ, .set a t => Scoped Γ a ∧ Closed Γ t
  | Γ, .app f args => Closed Γ f ∧ ClosedAll Γ args
  | Γ, .seq ts => ts ≠ [] ∧ ClosedAll Γ ts
  | Γ, .letrec inits body => body ≠ [] ∧ ClosedAll ((inits.length, false) :: Γ) inits ∧
      ClosedAll ((inits.length, false) :: Γ) body

def ClosedAll : Shape → List Term → Prop
  | _, [] => True
  | Γ, t :: ts => Closed Γ t ∧ ClosedAll Γ ts

end

/-- The scopes of the names. -/
def scopes : Shape → Scheme.Scopes
  | [] => []
  | (n, r) :: Γ => (locals Γ.length n, if r then some (localName Γ.length n) else none) :: scopes Γ

theorem localName_inj {a b c d : Nat} (h : localName a b = localName c d) : a = c ∧ b = d := by
  have h : 2 * Nat.pair a b = 2 * Nat.pair c d := h
  exact Nat.pair_eq_pair.1 (by omega)

open Classical in
theorem addrIn_locals (x : Name) (i d : Nat) (rest : Option Name) : ∀ (n a : Nat),
    Secd.addrIn x i ((List.range' a n).map (localName d)) rest a =
      if ∃ j, a ≤ j ∧ j < a + n ∧ x = localName d j then some (Secd.Identity.relative i (Nat.unpair (x / 2)).2)
      else if rest = some x then some (.variadic i (a + n)) else none
  | 0, a => by
    have : ¬ ∃ j, a ≤ j ∧ j < a + 0 ∧ x = localName d j := by
      rintro ⟨j, h₁, h₂, -⟩; omega
    rw [if_neg this]
    simp only [List.range'_zero, List.map_nil, Nat.add_zero]
    cases rest with
    | none => simp [Secd.addrIn]
    | some r => simp [Secd.addrIn]
  | n + 1, a => by
    rw [List.range'_succ, List.map_cons, Secd.addrIn]
    by_cases h : localName d a = x
    · rw [if_pos h, if_pos ⟨a, by omega, by omega, h.symm⟩]
      subst h
      simp [localName]
    · rw [if_neg h, addrIn_locals x i d rest n (a + 1)]
      have : (∃ j, a + 1 ≤ j ∧ j < a + 1 + n ∧ x = localName d j) ↔
          ∃ j, a ≤ j ∧ j < a + (n + 1) ∧ x = localName d j := by
        constructor
        · rintro ⟨j, h₁, h₂, h₃⟩; exact ⟨j, by omega, by omega, h₃⟩
        · rintro ⟨j, h₁, h₂, h₃⟩
          have : j ≠ a := by rintro rfl; exact h h₃.symm
          exact ⟨j, by omega, by omega, h₃⟩
      simp only [this]
      rw [show a + 1 + n = a + (n + 1) by omega]

open Classical in
theorem addrIn_scope (x : Name) (i d n : Nat) (r : Bool) :
    Secd.addrIn x i (locals d n) (if r then some (localName d n) else none) 0 =
      if ∃ j, j < n ∧ x = localName d j then some (Secd.Identity.relative i (Nat.unpair (x / 2)).2)
      else if r = true ∧ x = localName d n then some (.variadic i n) else none := by
  have := addrIn_locals x i d (if r then some (localName d n) else none) n 0
  rw [← List.range_eq_range'] at this
  unfold locals
  rw [this]
  simp only [Nat.zero_le, true_and, Nat.zero_add]
  congr 1
  cases r <;> simp [eq_comm]

/-- A local variable is found in its own frame. -/
theorem addrFrom_local {Γ : Shape} {i j n : Nat} {r : Bool} (h : Γ[i]? = some (n, r)) (k : Nat) :
    Secd.addrFrom (localName (Γ.length - 1 - i) j) (scopes Γ) k =
      if j < n then some (.relative (k + i) j)
      else if r = true ∧ j = n then some (.variadic (k + i) n)
      else Secd.addrFrom (localName (Γ.length - 1 - i) j) (scopes (Γ.drop (i + 1))) (k + i + 1) := by
  induction Γ generalizing i k with
  | nil => simp at h
  | cons f Γ ih =>
    obtain ⟨n', r'⟩ := f
    simp only [scopes, Secd.addrFrom]
    rw [addrIn_scope]
    cases i with
    | zero =>
      simp only [List.getElem?_cons_zero, Option.some.injEq, Prod.mk.injEq] at h
      obtain ⟨rfl, rfl⟩ := h
      simp only [List.length_cons, Nat.add_sub_cancel, Nat.sub_zero, Nat.add_zero, List.drop_succ_cons,
        List.drop_zero]
      by_cases hj : j < n'
      · rw [if_pos ⟨j, hj, rfl⟩, if_pos hj]
        simp [localName]
      · have : ¬ ∃ j', j' < n' ∧ localName Γ.length j = localName Γ.length j' := by
          rintro ⟨j', h₁, h₂⟩
          have := (localName_inj h₂).2
          omega
        rw [if_neg this, if_neg hj]
        by_cases hr : r' = true ∧ j = n'
        · rw [if_pos ⟨hr.1, by rw [hr.2]⟩, if_pos hr]
        · rw [if_neg hr, if_neg]
          rintro ⟨h₁, h₂⟩
          exact hr ⟨h₁, (localName_inj h₂).2⟩
    | succ i =>
      simp only [List.getElem?_cons_succ] at h
      have hi : i < Γ.length := by
        obtain ⟨h', -⟩ := List.getElem?_eq_some_iff.1 h; exact h'
      have hl : (List.length ((n', r') :: Γ) - 1 - (i + 1)) = Γ.length - 1 - i := by simp; omega
      have hne : Γ.length - 1 - i ≠ Γ.length := by omega
      rw [hl, if_neg, if_neg]
      · simp only
        rw [ih h (k + 1)]
        simp only [List.drop_succ_cons]
        rw [show k + 1 + i = k + (i + 1) by omega]
      · rintro ⟨-, h₂⟩; exact hne (localName_inj h₂).1
      · rintro ⟨j', -, h₂⟩; exact hne (localName_inj h₂).1

theorem global_ne_local {g d j : Nat} (h : globalName g = localName d j) : False := by
  have h : 2 * g + 1 = 2 * Nat.pair d j := h
  omega

theorem addrFrom_global (g : Nat) : ∀ (Γ : Shape) (k : Nat),
    Secd.addrFrom (globalName g) (scopes Γ) k = none
  | [], k => rfl
  | (n, r) :: Γ, k => by
    simp only [scopes, Secd.addrFrom]
    rw [addrIn_scope, if_neg, if_neg]
    · exact addrFrom_global g Γ (k + 1)
    · rintro ⟨-, h⟩; exact global_ne_local h
    · rintro ⟨j, -, h⟩; exact global_ne_local h

/-- The identity of an address. -/
def addressIdentity : Address → Secd.Identity
  | .loc i j => .relative i j
  | .rest i j => .variadic i j
  | .glob g => .absolute g

theorem addr_name {Γ : Shape} {a : Address} (h : Scoped Γ a) :
    Secd.addr free (a.name Γ.length) (scopes Γ) = addressIdentity a := by
  unfold Secd.addr
  cases a with
  | loc i j =>
    obtain ⟨n, r, h, hj⟩ := h
    simp only [Address.name]
    rw [addrFrom_local h 0, if_pos hj]
    simp [addressIdentity]
  | rest i j =>
    simp only [Address.name]
    rw [addrFrom_local h 0, if_neg (by omega), if_pos ⟨rfl, rfl⟩]
    simp [addressIdentity]
  | glob g =>
    simp only [Address.name, addrFrom_global, Option.getD_none, addressIdentity]
    have : free (globalName g) = g := by
      change (2 * g + 1) / 2 = g
      omega
    rw [this]

theorem load_readback (a : Address) : Secd.loadInstr (addressIdentity a) = a.load := by cases a <;> rfl
theorem store_readback (a : Address) : Secd.storeInstr (addressIdentity a) = a.store := by cases a <;> rfl

theorem exprs_length (d : Nat) : ∀ ts : List Term, (exprs d ts).length = ts.length
  | [] => by simp [exprs]
  | t :: ts => by simp [exprs, exprs_length d ts]

mutual

theorem comp_emit : ∀ (t : Term) (Γ : Shape) (k : Code) (tail : Bool), Closed Γ t →
    (tail = true → k = [.ret]) →
    Secd.comp free (scopes Γ) (t.expr Γ.length) k tail = emit t k tail
  | .const c, Γ, k, tail, h, hk => by simp [Term.expr, Secd.comp, emit]
  | .ref a, Γ, k, tail, h, hk => by
    simp only [Closed] at h
    simp only [Term.expr, Secd.comp, emit, addr_name h, load_readback]
  | .lam n r body, Γ, k, tail, h, hk => by
    simp only [Closed] at h
    have := comp_body body ((n, r) :: Γ) h.1 h.2
    simp only [scopes, List.length_cons] at this
    simp only [Term.expr, Secd.comp, emit, this]
  | .when t c, Γ, k, tail, h, hk => by
    simp only [Closed] at h
    simp only [Term.expr, Secd.comp, emit]
    cases tail with
    | true =>
      obtain rfl := hk rfl
      simp only [if_true]
      rw [comp_emit t Γ _ false h.1 (by simp), comp_emit c Γ _ true h.2 (by simp)]
    | false =>
      simp only [Bool.false_eq_true, if_false]
      rw [comp_emit t Γ _ false h.1 (by simp), comp_emit c Γ _ false h.2 (by simp)]
  | .ite t c a, Γ, k, tail, h, hk => by
    simp only [Closed] at h
    simp only [Term.expr, Secd.comp, emit]
    cases tail with
    | true =>
      obtain rfl := hk rfl
      simp only [if_true]
      rw [comp_emit t Γ _ false h.1 (by simp), comp_emit c Γ _ true h.2.1 (by simp),
        comp_emit a Γ _ true h.2.2 (by simp)]
    | false =>
      simp only [Bool.false_eq_true, if_false]
      rw [comp_emit t Γ _ false h.1 (by simp), comp_emit c Γ _ false h.2.1 (by simp),
        comp_emit a Γ _ false h.2.2 (by simp)]
  | .set a t, Γ, k, tail, h, hk => by
    simp only [Closed] at h
    simp only [Term.expr, Secd.comp, emit, addr_name h.1, store_readback]
    exact comp_emit t Γ _ false h.2 (by simp)
  | .app f args, Γ, k, tail, h, hk => by
    simp only [Closed] at h
    simp only [Term.expr, Secd.comp, emit]
    rw [comp_emit f Γ _ false h.1 (by simp)]
    exact comp_args args Γ _ h.2
  | .seq ts, Γ, k, tail, h, hk => by
    simp only [Closed] at h
    simp only [Term.expr, emit]
    exact comp_sequence ts Γ k tail h.1 h.2 hk
  | .letrec inits body, Γ, k, tail, h, hk => by
    simp only [Closed] at h
    have h₁ := comp_body body ((inits.length, false) :: Γ) h.1 h.2.2
    have h₂ := fun k => comp_args inits ((inits.length, false) :: Γ) k h.2.1
    simp only [scopes, List.length_cons, Bool.false_eq_true, if_false] at h₁ h₂
    simp only [Term.expr, Secd.comp, emit, h₁, h₂]

theorem comp_args : ∀ (ts : List Term) (Γ : Shape) (k : Code), ClosedAll Γ ts →
    (.loadConstant .nil :: Secd.compArgs free (scopes Γ) (exprs Γ.length ts) k : Code) = emitArgs ts k
  | [], Γ, k, h => by simp [exprs, Secd.compArgs, emitArgs]
  | t :: ts, Γ, k, h => by
    simp only [ClosedAll] at h
    simp only [exprs, Secd.compArgs, emitArgs]
    rw [comp_emit t Γ _ false h.1 (by simp)]
    exact comp_args ts Γ _ h.2

theorem comp_body : ∀ (ts : List Term) (Γ : Shape), ts ≠ [] → ClosedAll Γ ts →
    Secd.comp free (scopes Γ) (sequence Γ.length ts) [.ret] true = emitBody ts
  | [], Γ, h, _ => absurd rfl h
  | [t], Γ, _, h => by
    simp only [ClosedAll] at h
    simp only [sequence, emitBody]
    exact comp_emit t Γ _ true h.1 (by simp)
  | t :: t' :: ts, Γ, _, h => by
    simp only [ClosedAll] at h
    simp only [sequence, emitBody, Secd.comp]
    rw [comp_emit t Γ _ false h.1 (by simp)]
    have := comp_body (t' :: ts) Γ (by simp) (by simpa [ClosedAll] using h.2)
    rw [this]

theorem comp_sequence : ∀ (ts : List Term) (Γ : Shape) (k : Code) (tail : Bool), ts ≠ [] →
    ClosedAll Γ ts → (tail = true → k = [.ret]) →
    Secd.comp free (scopes Γ) (sequence Γ.length ts) k tail = emitSeq ts k tail
  | [], Γ, k, tail, h, _, _ => absurd rfl h
  | [t], Γ, k, tail, _, h, hk => by
    simp only [ClosedAll] at h
    simp only [sequence, emitSeq]
    exact comp_emit t Γ _ tail h.1 hk
  | t :: t' :: ts, Γ, k, tail, _, h, hk => by
    simp only [ClosedAll] at h
    simp only [sequence, emitSeq, Secd.comp]
    rw [comp_emit t Γ _ false h.1 (by simp)]
    have := comp_sequence (t' :: ts) Γ k tail (by simp) (by simpa [ClosedAll] using h.2) hk
    rw [this]

end

mutual

theorem expr_plain : ∀ (t : Term) (d : Nat), Scheme.Plain (t.expr d)
  | .const c, d => by simp only [Term.expr]; exact .const _
  | .ref a, d => by simp only [Term.expr]; exact .var _
  | .lam n r body, d => by simp only [Term.expr]; exact .lam _ _ (sequence_plain body _)
  | .when t c, d => by simp only [Term.expr]; exact .ite (expr_plain t d) (expr_plain c d) (.const _)
  | .ite t c a, d => by simp only [Term.expr]; exact .ite (expr_plain t d) (expr_plain c d) (expr_plain a d)
  | .set a t, d => by simp only [Term.expr]; exact .set _ (expr_plain t d)
  | .app f args, d => by simp only [Term.expr]; exact .app (expr_plain f d) (exprs_plain args d)
  | .seq ts, d => by simp only [Term.expr]; exact sequence_plain ts d
  | .letrec inits body, d => by
    simp only [Term.expr]; exact .letrec _ (exprs_plain inits _) (sequence_plain body _)

theorem exprs_plain : ∀ (ts : List Term) (d : Nat), ∀ e ∈ exprs d ts, Scheme.Plain e
  | [], d => by simp [exprs]
  | t :: ts, d => by
    intro e he
    simp only [exprs, List.mem_cons] at he
    rcases he with rfl | he
    · exact expr_plain t d
    · exact exprs_plain ts d e he

theorem sequence_plain : ∀ (ts : List Term) (d : Nat), Scheme.Plain (sequence d ts)
  | [], d => by simp only [sequence]; exact .const _
  | [t], d => by simp only [sequence]; exact expr_plain t d
  | t :: t' :: ts, d => by
    simp only [sequence]; exact .seq (expr_plain t d) (sequence_plain (t' :: ts) d)

end

mutual

theorem expr_placed : ∀ (t : Term) (d : Nat) (b : Bool), Scheme.Placed b (t.expr d)
  | .const c, d, b => by simp only [Term.expr]; exact .const _ _
  | .ref a, d, b => by simp only [Term.expr]; exact .var _ _
  | .lam n r body, d, b => by simp only [Term.expr]; exact .lam _ _ _ (sequence_placed body _ _)
  | .when t c, d, b => by
    simp only [Term.expr]; exact .ite (expr_placed t d _) (expr_placed c d _) (.const _ _)
  | .ite t c a, d, b => by
    simp only [Term.expr]; exact .ite (expr_placed t d _) (expr_placed c d _) (expr_placed a d _)
  | .set a t, d, b => by simp only [Term.expr]; exact .set _ _ (expr_placed t d _)
  | .app f args, d, b => by
    simp only [Term.expr]; exact .app _ (expr_placed f d _) (exprs_placed args d)
  | .seq ts, d, b => by simp only [Term.expr]; exact sequence_placed ts d _
  | .letrec inits body, d, b => by
    simp only [Term.expr]
    exact .letrec _ _ (by simp [locals, exprs_length]) (exprs_placed inits _) (sequence_placed body _ _)

theorem exprs_placed : ∀ (ts : List Term) (d : Nat), ∀ e ∈ exprs d ts, Scheme.Placed false e
  | [], d => by simp [exprs]
  | t :: ts, d => by
    intro e he
    simp only [exprs, List.mem_cons] at he
    rcases he with rfl | he
    · exact expr_placed t d _
    · exact exprs_placed ts d e he

theorem sequence_placed : ∀ (ts : List Term) (d : Nat) (b : Bool), Scheme.Placed b (sequence d ts)
  | [], d, b => by simp only [sequence]; exact .const _ _
  | [t], d, b => by simp only [sequence]; exact expr_placed t d b
  | t :: t' :: ts, d, b => by
    simp only [sequence]; exact .seq (expr_placed t d _) (sequence_placed (t' :: ts) d b)

end

/-! ## The meaning of a form is a closed term -/

/-- The parameters of the frames. -/
def shape (ρ : List Frame) : Shape := ρ.map fun f => (f.fixed.length, f.rest.isSome)

theorem find_scoped {f : Frame} {v : Form} {i : Nat} {a : Address} (h : f.find v i = some a) :
    (∃ j, a = .loc i j ∧ j < f.fixed.length) ∨ (a = .rest i f.fixed.length ∧ f.rest.isSome = true) := by
  unfold Frame.find at h
  split at h
  · rename_i j hj
    cases h
    obtain ⟨h, -⟩ := List.findIdx?_eq_some_iff_getElem.1 hj
    exact .inl ⟨j, rfl, h⟩
  · split at h
    · rename_i hr
      cases h
      exact .inr ⟨rfl, by simp [hr]⟩
    · cases h

theorem lookup_scoped : ∀ {ρ ρ' : List Frame} {v : Form} {i : Nat} {a : Address},
    lookup ρ v i = some a → ρ'.length = i → Scoped (shape (ρ' ++ ρ)) a
  | [], _, _, _, _, h, _ => by simp [lookup] at h
  | f :: ρ, ρ', v, i, a, h, hl => by
    simp only [lookup] at h
    split at h
    · rename_i a' ha
      cases h
      have hg : (shape (ρ' ++ f :: ρ))[i]? = some (f.fixed.length, f.rest.isSome) := by
        subst hl
        simp [shape]
      rcases find_scoped ha with ⟨j, rfl, hj⟩ | ⟨rfl, hr⟩
      · exact ⟨_, _, hg, hj⟩
      · simp only [Scoped, hg, hr]
    · have := lookup_scoped (ρ := ρ) (ρ' := ρ' ++ [f]) h (by simp [hl])
      simpa using this

theorem refers_scoped {C : Ctx} {ρ : List Frame} {v : Form} {a : Address} (h : C.refers ρ v = some a) :
    Scoped (shape ρ) a := by
  unfold Ctx.refers at h
  split at h
  · rename_i a' ha
    cases h
    exact lookup_scoped (ρ' := []) ha rfl
  · cases hg : C.global v with
    | none => simp [hg] at h
    | some g => simp [hg] at h; subst h; trivial

theorem closedAll_iff {Γ : Shape} : ∀ {ts : List Term}, ClosedAll Γ ts ↔ ∀ t ∈ ts, Closed Γ t
  | [] => by simp [ClosedAll]
  | t :: ts => by simp [ClosedAll, closedAll_iff (ts := ts)]

theorem sets_closed {Γ : Shape} {n : Nat} {r : Bool} : ∀ {ts : List Term} {j : Nat},
    (∀ t ∈ ts, Closed ((n, r) :: Γ) t) → j + ts.length ≤ n → ∀ t ∈ sets j ts, Closed ((n, r) :: Γ) t
  | [], _, _, _ => by simp [sets]
  | t :: ts, j, h, hj => by
    intro u hu
    simp only [sets, List.mem_cons] at hu
    simp only [List.length_cons] at hj
    rcases hu with rfl | hu
    · simp only [Closed]
      exact ⟨⟨n, r, rfl, by omega⟩, h t (by simp)⟩
    · exact sets_closed (fun t ht => h t (by simp [ht])) (by omega) u hu

theorem den_lengths {C : Ctx} {k : Kind} {ρ : List Frame} {form : Form} {m m' : Nat} {ts : List Term}
    (h : Den C k ρ form m ts m') :
    ∀ fs : List Form, form = .ofList fs → (k = .list ∨ k = .defs) → ts.length = fs.length := by
  induction h with
  | nil => intro fs hf _; cases fs <;> simp [Form.ofList] at hf ⊢
  | cons _ _ _ ih =>
    intro fs hf _
    cases fs with
    | nil => simp [Form.ofList] at hf
    | cons a fs =>
      simp only [Form.ofList, Form.cons.injEq] at hf
      simp [ih fs hf.2 (.inl rfl)]
  | defsNil => intro fs hf _; cases fs <;> simp [Form.ofList] at hf ⊢
  | defsVar _ _ _ _ _ _ ih =>
    intro fs hf _
    cases fs with
    | nil => simp [Form.ofList] at hf
    | cons a fs =>
      simp only [Form.ofList, Form.cons.injEq] at hf
      simp [ih fs hf.2 (.inr rfl)]
  | defsFun _ _ _ _ _ _ _ ih =>
    intro fs hf _
    cases fs with
    | nil => simp [Form.ofList] at hf
    | cons a fs =>
      simp only [Form.ofList, Form.cons.injEq] at hf
      simp [ih fs hf.2 (.inr rfl)]
  | _ => intro fs _ hk; rcases hk with hk | hk <;> cases hk

theorem den_closed {C : Ctx} {k : Kind} {ρ : List Frame} {form : Form} {m m' : Nat} {ts : List Term}
    (h : Den C k ρ form m ts m') :
    (∀ t ∈ ts, Closed (shape ρ) t) ∧ (k = .body → ts ≠ []) := by
  induction h with
  | var _ hr => simpa [Closed] using refers_scoped hr
  | const => simp [Closed]
  | quote => simp [Closed]
  | when _ _ _ ih =>
    refine ⟨?_, by simp⟩
    simpa [Closed] using ih.1
  | ite _ _ _ ih =>
    refine ⟨?_, by simp⟩
    simpa [Closed] using ih.1
  | set _ _ _ hr _ ih =>
    refine ⟨?_, by simp⟩
    have := ih.1
    simp only [List.mem_cons, List.not_mem_nil, or_false, forall_eq_or_imp, forall_eq] at this
    simpa [Closed] using ⟨refers_scoped hr, this.2⟩
  | seq _ _ hne _ ih =>
    refine ⟨?_, by simp⟩
    simp only [List.mem_singleton, forall_eq, Closed, closedAll_iff]
    exact ⟨hne, ih.1⟩
  | lam _ _ _ _ _ ih =>
    refine ⟨?_, by simp⟩
    simp only [List.mem_singleton, forall_eq, Closed, closedAll_iff]
    exact ⟨ih.2 rfl, ih.1⟩
  | letrec _ _ _ hl h₁ _ ih₁ ih₂ =>
    refine ⟨?_, by simp⟩
    have := den_lengths h₁ _ rfl (.inl rfl)
    simp only [List.mem_singleton, forall_eq, Closed, closedAll_iff, this, ← hl]
    exact ⟨ih₂.2 rfl, ih₁.1, ih₂.1⟩
  | app _ _ _ ih =>
    refine ⟨?_, by simp⟩
    have := ih.1
    simp only [List.mem_cons, forall_eq_or_imp] at this
    simpa [Closed, closedAll_iff] using this
  | use _ _ _ _ _ ih => exact ⟨ih.1, by simp⟩
  | nil => simp
  | cons _ _ ih₁ ih₂ =>
    refine ⟨?_, by simp⟩
    intro u hu
    rcases List.mem_cons.1 hu with rfl | hu
    · exact ih₁.1 _ (by simp)
    · exact ih₂.1 u hu
  | exprs hne _ ih => exact ⟨ih.1, fun _ => hne⟩
  | @define ρ fs ds vs e es m m₁ m₂ ts₁ ts₂ _ _ hds _ _ h₁ h₂ ih₁ ih₂ =>
    refine ⟨?_, by simp⟩
    have hl₁ := den_lengths h₁ _ rfl (.inr rfl)
    have hl₂ : ds.length = vs.length := by simpa using congrArg List.length hds
    have hl₃ := den_lengths h₂ _ rfl (.inl rfl)
    simp only [List.mem_singleton, forall_eq, Closed, closedAll_iff]
    refine ⟨⟨?_, ?_⟩, ?_⟩
    · intro h
      have := congrArg List.length h
      simp [hl₃] at this
    · intro u hu
      rcases List.mem_append.1 hu with hu | hu
      · exact sets_closed ih₁.1 (by simp only; omega) u hu
      · exact ih₂.1 u hu
    · intro u hu
      obtain rfl := List.eq_of_mem_replicate hu
      trivial
  | @defineUse ρ fs ds vs q d es m m₁ m₂ m₃ t t₀ ts₁ ts₂ _ _ hds _ _ _ _ h₁ _ ih₀ ih₁ ih₂ =>
    refine ⟨?_, by simp⟩
    have hl₁ := den_lengths h₁ _ rfl (.inr rfl)
    have hl₂ : ds.length = vs.length := by simpa using congrArg List.length hds
    simp only [List.mem_singleton, forall_eq, Closed, closedAll_iff]
    refine ⟨⟨by simp, ?_⟩, ?_⟩
    · intro u hu
      rcases List.mem_append.1 hu with hu | hu
      · exact sets_closed ih₁.1 (by simp only; omega) u hu
      · rcases List.mem_cons.1 hu with rfl | hu
        · exact ih₀.1 _ (by simp)
        · exact ih₂.1 u hu
    · intro u hu
      obtain rfl := List.eq_of_mem_replicate hu
      trivial
  | defsNil => simp
  | defsVar _ _ _ _ _ ih₁ ih₂ =>
    refine ⟨?_, by simp⟩
    intro u hu
    rcases List.mem_cons.1 hu with rfl | hu
    · exact ih₁.1 _ (by simp)
    · exact ih₂.1 u hu
  | defsFun _ _ _ _ _ _ ih₁ ih₂ =>
    refine ⟨?_, by simp⟩
    intro u hu
    rcases List.mem_cons.1 hu with rfl | hu
    · simp only [Closed, closedAll_iff]
      exact ⟨ih₁.2 rfl, ih₁.1⟩
    · exact ih₂.1 u hu

end Meevax.Expand
