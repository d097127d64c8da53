import Verif.Spec.SurfaceSyntax
import Verif.Lemmas.Derived
import Verif.Lemmas.HygieneMain
import Verif.Lemmas.Readback

/-!
Expressions and their hygienic meaning: how the scopes of a program and of its expansion go together, and
the terms that have the code of an expression.
-/

namespace Meevax.Expand

open Secd (Name Code)
open Spec
open Surface (seqs)

/-- The scope of the program, the scope of the expansion, and the scope of the translation.  The frames that
the expansion adds bind names that the program does not use (`H`), or objects made by macros. -/
inductive Match (C : Ctx) (H : Name → Prop) (m : Nat) : Scheme.Scopes → List Frame → Scheme.Scopes → Prop where
  | nil : Match C H m [] [] []
  | user {sc ρ nsc} (fs : List Name) (rest : Option Name) : Match C H m sc ρ nsc →
    Match C H m ((fs, rest) :: sc) (⟨fs.map .sym, rest.map .sym⟩ :: ρ) ((fs, rest) :: nsc)
  | name {sc ρ nsc x} : H x → C.symbol x = none → Match C H m sc ρ nsc →
    Match C H m sc (⟨[.sym x], none⟩ :: ρ) (([x], none) :: nsc)
  | temp {sc ρ nsc x k e y} : H x → k < m → Match C H m sc ρ nsc →
    Match C H m sc (⟨[.closure (.rename k) e [] y], none⟩ :: ρ) (([x], none) :: nsc)

theorem Match.mono {C : Ctx} {H H' : Name → Prop} {m m' : Nat} {sc : Scheme.Scopes} {ρ : List Frame}
    {nsc : Scheme.Scopes} (h : Match C H m sc ρ nsc) (hH : ∀ x, H x → H' x) (hm : m ≤ m') :
    Match C H' m' sc ρ nsc := by
  induction h with
  | nil => exact .nil
  | user fs rest _ ih => exact .user fs rest ih
  | name hx hk _ ih => exact .name (hH _ hx) hk ih
  | temp hx hk _ ih => exact .temp (hH _ hx) (by omega) ih

theorem find_user (fs : List Name) (rest : Option Name) (x : Name) (i : Nat) : ∀ j,
    Secd.addrIn x i fs rest j =
      match (fs.map Form.sym).findIdx? (· = Form.sym x) with
      | some n => some (.relative i (j + n))
      | none => if rest.map Form.sym = some (.sym x) then some (.variadic i (j + fs.length)) else none := by
  induction fs with
  | nil =>
    intro j
    cases rest with
    | none => simp [Secd.addrIn]
    | some r => by_cases h : r = x <;> simp [Secd.addrIn, h]
  | cons y fs ih =>
    intro j
    rw [Secd.addrIn, List.map_cons, List.findIdx?_cons]
    by_cases h : y = x
    · simp [h]
    · have hd : decide (Form.sym y = Form.sym x) = false := by simpa using h
      rw [if_neg h, ih (j + 1), hd]
      cases (fs.map Form.sym).findIdx? (· = Form.sym x) with
      | none => simp only [Bool.false_eq_true, if_false, Option.map_none, List.length_cons]; rw [show j + 1 + fs.length = j + (fs.length + 1) by omega]
      | some n => simp only [Bool.false_eq_true, if_false, Option.map_some]; rw [show j + 1 + n = j + (n + 1) by omega]

theorem Match.lookup {C : Ctx} {H : Name → Prop} {m : Nat} {sc : Scheme.Scopes} {ρ : List Frame}
    {nsc : Scheme.Scopes} (h : Match C H m sc ρ nsc) {x : Name} (hx : ¬ H x) :
    ∀ i, (Spec.lookup ρ (.sym x) i).map addressIdentity = Secd.addrFrom x nsc i := by
  induction h with
  | nil => intro i; rfl
  | user fs rest _ ih =>
    intro i
    simp only [Spec.lookup, Frame.find, Secd.addrFrom, find_user, Nat.zero_add]
    cases (fs.map Form.sym).findIdx? (· = Form.sym x) with
    | some n => simp [addressIdentity]
    | none =>
      simp only
      by_cases hr : rest.map Form.sym = some (.sym x)
      · simp [hr, addressIdentity]
      · rw [if_neg hr, if_neg hr]
        exact ih _
  | @name sc ρ nsc y hy hk _ ih =>
    intro i
    have hne : y ≠ x := by rintro rfl; exact hx hy
    simp only [Spec.lookup, Frame.find, Secd.addrFrom, Secd.addrIn, if_neg hne]
    rw [List.findIdx?_cons]
    simpa [hne] using ih (i + 1)
  | @temp sc ρ nsc y k e z hy hk _ ih =>
    intro i
    have hne : y ≠ x := by rintro rfl; exact hx hy
    simp only [Spec.lookup, Frame.find, Secd.addrFrom, Secd.addrIn, if_neg hne]
    rw [List.findIdx?_cons]
    simpa using ih (i + 1)

/-- Objects that are made later are not bound. -/
theorem Match.fresh {C : Ctx} {H : Name → Prop} {m : Nat} {sc : Scheme.Scopes} {ρ : List Frame}
    {nsc : Scheme.Scopes} (h : Match C H m sc ρ nsc) {k : Nat} (hk : m ≤ k) (e : Nat) (y : Form) :
    ∀ f ∈ ρ, Form.closure (.rename k) e [] y ∉ f.ids := by
  induction h with
  | nil => simp
  | user fs rest _ ih =>
    intro f hf
    rcases List.mem_cons.1 hf with rfl | hf
    · simp [Frame.ids]
    · exact ih f hf
  | name hy hk' _ ih =>
    intro f hf
    rcases List.mem_cons.1 hf with rfl | hf
    · simp [Frame.ids]
    · exact ih f hf
  | temp hy hk' _ ih =>
    intro f hf
    rcases List.mem_cons.1 hf with rfl | hf
    · simp only [Frame.ids, Option.toList, List.append_nil, List.mem_singleton, Form.closure.injEq, Stamp.rename.injEq]
      omega
    · exact ih f hf

theorem Match.bound {C : Ctx} {H : Name → Prop} {m : Nat} {sc : Scheme.Scopes} {ρ : List Frame}
    {nsc : Scheme.Scopes} (h : Match C H m sc ρ nsc) {x : Name} (hx : ¬ H x) :
    Spec.bound x ρ → boundIn x sc := by
  induction h with
  | nil => rintro ⟨f, hf, -⟩; cases hf
  | user fs rest _ ih =>
    rintro ⟨f, hf, h⟩
    rcases List.mem_cons.1 hf with rfl | hf
    · refine ⟨_, List.mem_cons_self, ?_⟩
      simpa using h
    · obtain ⟨g, hg, h⟩ := ih ⟨f, hf, h⟩
      exact ⟨g, List.mem_cons_of_mem _ hg, h⟩
  | name hy _ _ ih =>
    rintro ⟨f, hf, h⟩
    rcases List.mem_cons.1 hf with rfl | hf
    · simp only [List.mem_singleton, Form.sym.injEq] at h
      subst h
      exact absurd hy hx
    · exact ih ⟨f, hf, h⟩
  | temp hy _ _ ih =>
    rintro ⟨f, hf, h⟩
    rcases List.mem_cons.1 hf with rfl | hf
    · simp at h
    · exact ih ⟨f, hf, h⟩

theorem Match.rebound {C : Ctx} {H : Name → Prop} {m : Nat} {sc : Scheme.Scopes} {ρ : List Frame}
    {nsc : Scheme.Scopes} (h : Match C H m sc ρ nsc) {x : Name} (hx : ¬ H x) :
    Spec.rebound x ρ → reboundIn x sc := by
  induction h with
  | nil => exact fun h => h
  | user fs rest hm ih =>
    rintro (⟨h, hb⟩ | h)
    · refine .inl ⟨?_, hm.bound hx hb⟩
      simpa [Frame.ids] using h
    · exact .inr (ih h)
  | name hy _ _ ih =>
    rintro (⟨h, -⟩ | h)
    · simp only [Frame.ids, Option.toList, List.append_nil, List.mem_singleton, Form.sym.injEq] at h
      subst h
      exact absurd hy hx
    · exact ih h
  | temp hy _ _ ih =>
    rintro (⟨h, -⟩ | h)
    · simp [Frame.ids] at h
    · exact ih h

/-- A keyword of the program is not bound by the expansion either. -/
theorem Match.keyword {C : Ctx} {H : Name → Prop} {m : Nat} {sc : Scheme.Scopes} {ρ : List Frame}
    {nsc : Scheme.Scopes} (h : Match C H m sc ρ nsc) {q : Name} (hk : C.symbol q ≠ none)
    (hq : q ∉ Scheme.names sc) : ∀ f ∈ ρ, Form.sym q ∉ f.ids := by
  induction h with
  | nil => simp
  | user fs rest _ ih =>
    simp only [Scheme.names, List.mem_append, not_or] at hq
    intro f hf
    rcases List.mem_cons.1 hf with rfl | hf
    · simpa [Frame.ids] using hq.1
    · exact ih hq.2 f hf
  | name hy hn _ ih =>
    intro f hf
    rcases List.mem_cons.1 hf with rfl | hf
    · simp only [Frame.ids, Option.toList, List.append_nil, List.mem_singleton, Form.sym.injEq]
      rintro rfl
      exact hk hn
    · exact ih hq f hf
  | temp hy _ _ ih =>
    intro f hf
    rcases List.mem_cons.1 hf with rfl | hf
    · simp [Frame.ids]
    · exact ih hq f hf

theorem Match.mem {C : Ctx} {H : Name → Prop} {m : Nat} {sc : Scheme.Scopes} {ρ : List Frame}
    {nsc : Scheme.Scopes} (h : Match C H m sc ρ nsc) {x : Name} (hx : x ∈ Scheme.names sc) :
    ∃ f ∈ ρ, Form.sym x ∈ f.ids := by
  induction h with
  | nil => simp [Scheme.names] at hx
  | user fs rest _ ih =>
    simp only [Scheme.names, List.mem_append] at hx
    rcases hx with hx | hx
    · exact ⟨_, List.mem_cons_self, by simpa [Frame.ids] using hx⟩
    · obtain ⟨f, hf, h⟩ := ih hx
      exact ⟨f, List.mem_cons_of_mem _ hf, h⟩
  | name _ _ _ ih =>
    obtain ⟨f, hf, h⟩ := ih hx
    exact ⟨f, List.mem_cons_of_mem _ hf, h⟩
  | temp _ _ _ ih =>
    obtain ⟨f, hf, h⟩ := ih hx
    exact ⟨f, List.mem_cons_of_mem _ hf, h⟩

/-! ## Terms with the code of an expression -/

variable {C : Ctx} {nsc : Scheme.Scopes} {ρ : List Frame} {m m' m₁ : Nat}

/-- The term has the code of the expression. -/
def Codes (C : Ctx) (nsc : Scheme.Scopes) (T : Term) (e : Scheme.Expr) : Prop :=
  ∀ k tail, (tail = true → k = [.ret]) → emit T k tail = Secd.comp C.index nsc e k tail

theorem Codes.args {Ts : List Term} {es : List Scheme.Expr} (h : List.Forall₂ (Codes C nsc) Ts es) :
    ∀ k, emitArgs Ts k = .loadConstant .nil :: Secd.compArgs C.index nsc es k := by
  induction h with
  | nil => intro k; simp [emitArgs, Secd.compArgs]
  | cons h _ ih =>
    intro k
    simp only [emitArgs, Secd.compArgs, h _ false (by simp), ih]

theorem Codes.seq {Ts : List Term} {es : List Scheme.Expr} (h : List.Forall₂ (Codes C nsc) Ts es)
    (hne : es ≠ []) : ∀ k tail, (tail = true → k = [.ret]) →
      emitSeq Ts k tail = Secd.comp C.index nsc (seqs es) k tail := by
  induction h with
  | nil => exact absurd rfl hne
  | @cons T e Ts es h hs ih =>
    intro k tail hk
    cases hs with
    | nil => simp only [emitSeq, seqs]; exact h k tail hk
    | cons h' hs' =>
      simp only [emitSeq, seqs, Secd.comp]
      rw [h _ false (by simp), ih (by simp) k tail hk]

theorem Codes.body {Ts : List Term} {es : List Scheme.Expr} (h : List.Forall₂ (Codes C nsc) Ts es)
    (hne : es ≠ []) : emitBody Ts = Secd.comp C.index nsc (seqs es) [.ret] true := by
  induction h with
  | nil => exact absurd rfl hne
  | @cons T e Ts es h hs ih =>
    cases hs with
    | nil => simp only [emitBody, seqs]; exact h _ true (by simp)
    | cons h' hs' =>
      simp only [emitBody, seqs, Secd.comp]
      rw [h _ false (by simp), ih (by simp)]

/-- The form has a meaning with the code of the expression. -/
structure Good (C : Ctx) (ρ : List Frame) (nsc : Scheme.Scopes) (form : Form) (m m' : Nat) (T : Term)
    (e : Scheme.Expr) : Prop where
  den : Den C .expr ρ form m [T] m'
  codes : Codes C nsc T e
  value : ∀ g, T = .ref (.glob g) → C.value g = none
  le : m ≤ m'

structure Goods (C : Ctx) (ρ : List Frame) (nsc : Scheme.Scopes) (form : Form) (m m' : Nat) (Ts : List Term)
    (es : List Scheme.Expr) : Prop where
  den : Den C .list ρ form m Ts m'
  codes : List.Forall₂ (Codes C nsc) Ts es
  le : m ≤ m'

/-- The body has a meaning with the code of the expression. -/
structure GoodBody (C : Ctx) (ρ : List Frame) (nsc : Scheme.Scopes) (form : Form) (m m' : Nat) (Ts : List Term)
    (e : Scheme.Expr) : Prop where
  den : Den C .body ρ form m Ts m'
  codes : emitBody Ts = Secd.comp C.index nsc e [.ret] true
  le : m ≤ m'

/-- The definitions have a meaning with the code of the expressions. -/
structure GoodDefs (C : Ctx) (ρ : List Frame) (nsc : Scheme.Scopes) (form : Form) (m m' : Nat) (Ts : List Term)
    (es : List Scheme.Expr) : Prop where
  den : Den C .defs ρ form m Ts m'
  codes : List.Forall₂ (Codes C nsc) Ts es
  le : m ≤ m'

theorem Goods.nil : Goods C ρ nsc .nil m m [] [] := ⟨.nil, .nil, Nat.le_refl _⟩

theorem Goods.cons {a d : Form} {T : Term} {Ts : List Term} {e : Scheme.Expr} {es : List Scheme.Expr}
    (h : Good C ρ nsc a m m₁ T e) (hs : Goods C ρ nsc d m₁ m' Ts es) :
    Goods C ρ nsc (.cons a d) m m' (T :: Ts) (e :: es) :=
  ⟨.cons h.den hs.den, .cons h.codes hs.codes, Nat.le_trans h.le hs.le⟩

theorem Goods.ne {d : Form} {Ts : List Term} {es : List Scheme.Expr} (h : Goods C ρ nsc d m m' Ts es)
    (hne : es ≠ []) : Ts ≠ [] := by
  rintro rfl
  have := h.codes
  cases this
  exact hne rfl

theorem Good.const {d : Form} {c : Secd.Form} (hi : d.isIdentifier = false) (hd : ∀ a b, d ≠ .cons a b)
    (hc : toDatum d = some c) : Good C ρ nsc d m m (.const c) (.const c) :=
  ⟨.const hi hd hc, fun k tail _ => by simp [emit, Secd.comp], (by simp), Nat.le_refl _⟩

theorem Goods.body {d : Form} {Ts : List Term} {es : List Scheme.Expr} (h : Goods C ρ nsc d m m' Ts es)
    (hne : es ≠ []) : GoodBody C ρ nsc d m m' Ts (seqs es) :=
  ⟨.exprs (h.ne hne) h.den, Codes.body h.codes hne, h.le⟩

theorem Good.lam {q f : Form} {F : Frame} {body : Form} {fs : List Name} {rest : Option Name} {Ts : List Term}
    {e : Scheme.Expr} (hq : C.head ρ q = some (.syn .lambda)) (hi : q.isIdentifier = true)
    (hf : parse f = some F) (hb : C.Bindable ρ F)
    (h : GoodBody C (F :: ρ) ((fs, rest) :: nsc) body m m' Ts e) :
    Good C ρ nsc (.cons q (.cons f body)) m m' (.lam F.fixed.length F.rest.isSome Ts) (.lam fs rest e) := by
  refine ⟨.lam hq hi hf hb h.den, fun k tail hk => ?_, (by simp), h.le⟩
  simp only [emit, Secd.comp, h.codes]

theorem Good.app {a d : Form} {T : Term} {Ts : List Term} {e : Scheme.Expr} {es : List Scheme.Expr}
    (hh : a.isIdentifier = true → C.head ρ a = none)
    (h : Good C ρ nsc a m m₁ T e) (hs : Goods C ρ nsc d m₁ m' Ts es) :
    Good C ρ nsc (.cons a d) m m' (.app T Ts) (.app e es) := by
  refine ⟨.app hh h.value (.cons h.den hs.den), fun k tail hk => ?_, (by simp), Nat.le_trans h.le hs.le⟩
  simp only [emit, Secd.comp, h.codes _ false (by simp), Codes.args hs.codes]

theorem Good.ite {q a b c : Form} {m₂ : Nat} {Ta Tb Tc : Term} {ea eb ec : Scheme.Expr}
    (hq : C.head ρ q = some (.syn .cond)) (hi : q.isIdentifier = true)
    (ha : Good C ρ nsc a m m₁ Ta ea) (hb : Good C ρ nsc b m₁ m₂ Tb eb) (hc : Good C ρ nsc c m₂ m' Tc ec) :
    Good C ρ nsc (.ofList [q, a, b, c]) m m' (.ite Ta Tb Tc) (.ite ea eb ec) := by
  refine ⟨.ite hq hi (.cons ha.den (.cons hb.den (.cons hc.den .nil))), fun k tail hk => ?_, (by simp),
    Nat.le_trans ha.le (Nat.le_trans hb.le hc.le)⟩
  simp only [emit, Secd.comp]
  cases tail with
  | true =>
    obtain rfl := hk rfl
    simp only [if_true]
    rw [ha.codes _ false (by simp), hb.codes _ true (by simp), hc.codes _ true (by simp)]
  | false =>
    simp only [Bool.false_eq_true, if_false]
    rw [ha.codes _ false (by simp), hb.codes _ false (by simp), hc.codes _ false (by simp)]

theorem Good.when {q a b : Form} {Ta Tb : Term} {ea eb : Scheme.Expr}
    (hq : C.head ρ q = some (.syn .cond)) (hi : q.isIdentifier = true)
    (ha : Good C ρ nsc a m m₁ Ta ea) (hb : Good C ρ nsc b m₁ m' Tb eb) :
    Good C ρ nsc (.ofList [q, a, b]) m m' (.when Ta Tb) (.ite ea eb (.const .unspecified)) := by
  refine ⟨.when hq hi (.cons ha.den (.cons hb.den .nil)), fun k tail hk => ?_, (by simp),
    Nat.le_trans ha.le hb.le⟩
  simp only [emit, Secd.comp]
  cases tail with
  | true =>
    obtain rfl := hk rfl
    simp only [if_true]
    rw [ha.codes _ false (by simp), hb.codes _ true (by simp)]
  | false =>
    simp only [Bool.false_eq_true, if_false]
    rw [ha.codes _ false (by simp), hb.codes _ false (by simp)]

theorem Good.begin {q d : Form} {Ts : List Term} {es : List Scheme.Expr}
    (hq : C.head ρ q = some (.syn .begin)) (hi : q.isIdentifier = true)
    (h : Goods C ρ nsc d m m' Ts es) (hne : es ≠ []) :
    Good C ρ nsc (.cons q d) m m' (.seq Ts) (seqs es) :=
  ⟨.seq hq hi (h.ne hne) h.den, fun k tail hk => by simp only [emit]; exact Codes.seq h.codes hne k tail hk,
    (by simp), h.le⟩

theorem Good.letrec {q body : Form} {vs fs : List Form} {xs : List Name} {Ts Ts' : List Term}
    {es : List Scheme.Expr} {e : Scheme.Expr} (hq : C.head ρ q = some (.syn .letrec)) (hi : q.isIdentifier = true)
    (hd : C.Definable ρ vs) (hl : vs.length = fs.length)
    (h : Goods C (⟨vs, none⟩ :: ρ) ((xs, none) :: nsc) (.ofList fs) m m₁ Ts es)
    (h' : GoodBody C (⟨vs, none⟩ :: ρ) ((xs, none) :: nsc) body m₁ m' Ts' e) :
    Good C ρ nsc (.cons q (.cons (.ofList (List.zipWith (fun v e => Form.ofList [v, e]) vs fs)) body)) m m'
      (.letrec Ts Ts') (.letrec xs es e) := by
  refine ⟨.letrec hq hi hd hl h.den h'.den, fun k tail hk => ?_, (by simp),
    Nat.le_trans h.le h'.le⟩
  simp only [emit, Secd.comp, h'.codes, Codes.args h.codes]

theorem Good.use {q d out : Form} {id : Nat} {rs : List (Form × Form)} {T : Term} {e : Scheme.Expr}
    (hq : C.head ρ q = some (.transformer id)) (hi : q.isIdentifier = true)
    (ht : instantiate (C.home id) (C.template id (.cons q d)) [] m = (out, rs, m₁)) (hm : m ≤ m₁)
    (hr : ∀ x, out = .sym x → ¬ rebound x ρ) (h : Good C ρ nsc out (m₁ + 1) m' T e) :
    Good C ρ nsc (.cons q d) m m' T e :=
  ⟨.use hq hi ht hr h.den, h.codes, h.value, by have := h.le; omega⟩

/-- A variable that the expansion binds. -/
theorem Good.temp {v : Form} {a : Address} {x : Name} (hi : v.isIdentifier = true)
    (hl : lookup ρ v 0 = some a) (ha : Secd.addrFrom x nsc 0 = some (addressIdentity a)) :
    Good C ρ nsc v m m (.ref a) (.var x) := by
  refine ⟨.var hi (by simp [Ctx.refers, hl]), fun k tail hk => ?_, ?_, Nat.le_refl _⟩
  · simp only [emit, Secd.comp, Secd.addr, ha, Option.getD_some, load_readback]
  · intro g h
    cases h
    exact absurd hl lookup_not_glob

/-- A variable of the program refers to the same location. -/
theorem Match.refers {H : Name → Prop} {sc : Scheme.Scopes} (h : Match C H m₁ sc ρ nsc) {x : Name}
    (hx : ¬ H x) :
    ∃ a, C.refers ρ (.sym x) = some a ∧ addressIdentity a = Secd.addr C.index x nsc := by
  have hl := h.lookup hx 0
  unfold Ctx.refers Secd.addr
  rw [← hl]
  cases hf : Spec.lookup ρ (.sym x) 0 with
  | some a => exact ⟨a, rfl, rfl⟩
  | none => exact ⟨.glob (C.index x), rfl, rfl⟩

theorem avoid_of_sequence {H : Name → Prop} : ∀ {es : List Surface.Expr},
    (Surface.sequence es).Avoids H → Surface.Avoid es H
  | [], _ => trivial
  | [e], h => ⟨h, trivial⟩
  | e :: e' :: es, h => ⟨h.1, avoid_of_sequence h.2⟩

/-- A variable of the program. -/
theorem Good.var {H : Name → Prop} {sc : Scheme.Scopes} (h : Match C H m₁ sc ρ nsc) {x : Name} (hx : ¬ H x)
    (hv : x ∈ Scheme.names sc ∨ C.value (C.index x) = none) :
    ∃ a, C.refers ρ (.sym x) = some a ∧ addressIdentity a = Secd.addr C.index x nsc ∧
      ∀ g, a = .glob g → C.value g = none := by
  have hl := h.lookup hx 0
  unfold Ctx.refers Secd.addr
  rw [← hl]
  cases hf : Spec.lookup ρ (.sym x) 0 with
  | some a =>
    refine ⟨a, rfl, rfl, ?_⟩
    rintro g rfl
    exact absurd hf lookup_not_glob
  | none =>
    refine ⟨.glob (C.index x), rfl, rfl, ?_⟩
    rintro g hg
    cases hg
    rcases hv with hv | hv
    · obtain ⟨f, hf', h⟩ := h.mem hv
      exact absurd h (lookup_none.1 hf f hf')
    · exact hv

end Meevax.Expand
