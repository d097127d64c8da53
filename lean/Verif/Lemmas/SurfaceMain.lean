import Verif.Lemmas.SurfaceTerms

/-! Forms with derived expression types have a hygienic meaning, and this has the code of the expression that
the form is. -/

namespace Meevax.Expand

open Secd (Name Code)
open Spec
open Surface (seqs cores)

/-- The symbol `x` renamed by a macro of the library. -/
abbrev renamed (home k : Nat) (x : Name) : Form := .closure (.rename k) home [] (.sym x)

/-- The identifier has no lexical binding. -/
abbrev Unbound (ρ : List Frame) (v : Form) : Prop := ∀ f ∈ ρ, v ∉ f.ids

variable {C : Ctx} {home : Nat} {ids : Macro → Nat} {t r : Name} {H : Name → Prop}
  {sc nsc : Scheme.Scopes} {ρ : List Frame} {m m' m₁ : Nat}

theorem Unbound.temp {k k' e : Nat} {x : Name} {y : Form} (h : Unbound ρ (renamed home k x)) (hk : k ≠ k') :
    Unbound (⟨[.closure (.rename k') e [] y], none⟩ :: ρ) (renamed home k x) := by
  intro f hf
  rcases List.mem_cons.1 hf with rfl | hf
  · simp [Frame.ids, hk]
  · exact h f hf

theorem Unbound.user {k : Nat} {x : Name} (h : Unbound ρ (renamed home k x)) (fs : List Name)
    (rest : Option Name) : Unbound (⟨fs.map .sym, rest.map .sym⟩ :: ρ) (renamed home k x) := by
  intro f hf
  rcases List.mem_cons.1 hf with rfl | hf
  · simp [Frame.ids]
  · exact h f hf

theorem head_alias {k : Nat} {x : Name} (h : Unbound ρ (renamed home k x)) :
    C.head ρ (renamed home k x) = (C.env home x).bind C.value := by
  simp [Ctx.head, lookup_none.2 h, Ctx.keyword, Ctx.origin]

theorem head_symbol (h : Match C H m sc ρ nsc) {q : Name} {k : Keyword} (hq : C.Is sc q k) :
    C.head ρ (.sym q) = some k := by
  have := h.keyword (q := q) (by rw [hq.2]; simp) hq.1
  simp only [Ctx.head, lookup_none.2 this, if_true, Ctx.keyword]
  exact hq.2

theorem Match.unbound (h : Match C H m sc ρ nsc) {k : Nat} (hk : m ≤ k) (x : Name) :
    Unbound ρ (renamed home k x) := h.fresh hk home (.sym x)

theorem bindable_symbols (h : Match C H m sc ρ nsc) {fs : List Name} {rest : Option Name}
    (hb : C.Binds sc (fs ++ rest.toList)) (hH : ∀ x ∈ fs ++ rest.toList, ¬ H x) :
    C.Bindable ρ ⟨fs.map .sym, rest.map .sym⟩ := by
  have hids : (Frame.ids ⟨fs.map Form.sym, rest.map .sym⟩) = (fs ++ rest.toList).map .sym := by
    cases rest <;> simp [Frame.ids]
  refine ⟨?_, ?_⟩
  · rw [hids]
    exact hb.1.map (fun a b h => by simpa using h)
  · rw [hids]
    intro v hv hk
    obtain ⟨x, hx, rfl⟩ := List.mem_map.1 hv
    exact ⟨x, rfl, fun h' => hb.2 x hx hk (h.bound (hH x hx) h')⟩

theorem definable_symbols (h : Match C H m sc ρ nsc) {xs : List Name} (hb : C.Defines sc xs)
    (hH : ∀ x ∈ xs, ¬ H x) : C.Definable ρ (xs.map .sym) := by
  refine ⟨hb.1.map (fun a b h => by simpa using h), ?_⟩
  intro v hv
  obtain ⟨x, hx, rfl⟩ := List.mem_map.1 hv
  refine ⟨rfl, (hb.2 x hx).1, ?_⟩
  intro y hy h'
  cases hy
  exact (hb.2 x hx).2 (h.bound (hH x hx) h')

theorem bindable_temp {k : Nat} {y : Name} (h : (C.env home y).bind C.value = none) :
    C.Bindable ρ ⟨[renamed home k y], none⟩ := by
  refine ⟨by simp [Frame.ids], ?_⟩
  intro v hv hk
  simp only [Frame.ids, Option.toList, List.append_nil, List.mem_singleton] at hv
  subst hv
  exact absurd h hk

theorem parse_formals : ∀ (fs : List Name) (rest : Option Name),
    parse (formals fs rest) = some ⟨fs.map .sym, rest.map .sym⟩
  | [], none => rfl
  | [], some r => rfl
  | x :: fs, rest => by simp [formals, parse, Form.isIdentifier, parse_formals fs rest]

theorem formals_ofList : ∀ fs : List Name, formals fs none = .ofList (fs.map .sym)
  | [] => rfl
  | x :: fs => by simp [formals, Form.ofList, formals_ofList fs]

theorem cars_bindings : ∀ (xs : List Name) (es : List Form), xs.length = es.length →
    cars (bindings xs es) = formals xs none
  | [], [], _ => rfl
  | x :: xs, e :: es, h => by
    have := cars_bindings xs es (by simpa using h)
    simp only [bindings, List.zipWith_cons_cons, Form.ofList, cars, formals] at this ⊢
    rw [this]

theorem cadrs_bindings : ∀ (xs : List Name) (es : List Form), xs.length = es.length →
    cadrs (bindings xs es) = .ofList es
  | [], [], _ => rfl
  | x :: xs, e :: es, h => by
    have := cadrs_bindings xs es (by simpa using h)
    simp only [bindings, List.zipWith_cons_cons, Form.ofList, cadrs] at this ⊢
    rw [this]

theorem ofList_not_identifier (fs : List Form) : (Form.ofList fs).isIdentifier = false := by
  cases fs <;> rfl

theorem instantiate_le (home : Nat) : ∀ (T : Template) (rs : List (Form × Form)) (m : Nat),
    m ≤ (instantiate home T rs m).2.2
  | .use f, rs, m => Nat.le_refl _
  | .insert v, rs, m => by
    simp only [instantiate, rename]
    split <;> simp
  | .pair a d, rs, m => by
    simp only [instantiate]
    exact Nat.le_trans (instantiate_le home a rs m) (instantiate_le home d _ _)

theorem den_le {k : Kind} {form : Form} {Ts : List Term} (h : Den C k ρ form m Ts m') : m ≤ m' := by
  induction h with
  | use _ _ hi _ _ ih =>
    have := instantiate_le (C.home _) _ [] _ |>.trans_eq (by rw [hi])
    simp only at this
    omega
  | _ => omega

theorem Goods.append : ∀ {cs ds : List Form} {m m₁ m' : Nat} {Ts Ts' : List Term} {es es' : List Scheme.Expr},
    Goods C ρ nsc (.ofList cs) m m₁ Ts es → Goods C ρ nsc (.ofList ds) m₁ m' Ts' es' →
    Goods C ρ nsc (.ofList (cs ++ ds)) m m' (Ts ++ Ts') (es ++ es')
  | [], ds, m, m₁, m', Ts, Ts', es, es', h, h' => by
    obtain ⟨hd, hc, -⟩ := h
    simp only [Form.ofList] at hd
    cases hd
    cases hc
    exact h'
  | c :: cs, ds, m, m₁, m', Ts, Ts', es, es', h, h' => by
    obtain ⟨hd, hc, -⟩ := h
    simp only [Form.ofList] at hd
    cases hd with
    | cons hd₁ hd₂ =>
      cases hc with
      | cons hc₁ hc₂ =>
        have := Goods.append (cs := cs) ⟨hd₂, hc₂, den_le hd₂⟩ h'
        exact ⟨.cons hd₁ this.den, .cons hc₁ this.codes, Nat.le_trans (den_le hd₁) this.le⟩

/-- `((lambda (v) (if v b c)) a)` -/
theorem good_test {ql qi v a b c : Form} {k : Nat} {y : Name} {ea eb ec : Scheme.Expr}
    (hv : v = renamed home k y) (hy : (C.env home y).bind C.value = none)
    (hl : C.head ρ ql = some (.syn .lambda)) (hil : ql.isIdentifier = true)
    (hi : C.head (⟨[v], none⟩ :: ρ) qi = some (.syn .cond)) (hii : qi.isIdentifier = true)
    (hb : ∃ T m', Good C (⟨[v], none⟩ :: ρ) (([t], none) :: nsc) b m m' T eb)
    (hc : ∀ m₁ ≥ m, ∃ T m', Good C (⟨[v], none⟩ :: ρ) (([t], none) :: nsc) c m₁ m' T ec)
    (ha : ∀ m₁ ≥ m, ∃ T m', Good C ρ nsc a m₁ m' T ea) :
    ∃ T m', Good C ρ nsc (.ofList [.ofList [ql, .ofList [v], .ofList [qi, v, b, c]], a]) m m' T
      (.app (.lam [t] none (.ite (.var t) eb ec)) [ea]) := by
  subst hv
  obtain ⟨Tb, m₁, hb⟩ := hb
  obtain ⟨Tc, m₂, hc⟩ := hc m₁ hb.le
  obtain ⟨Ta, m₃, ha⟩ := ha m₂ (Nat.le_trans hb.le hc.le)
  have hvar : ∀ m, Good C (⟨[renamed home k y], none⟩ :: ρ) (([t], none) :: nsc) (renamed home k y) m m
      (.ref (.loc 0 0)) (.var t) := fun m => Good.temp rfl (by simp [lookup, Frame.find, List.findIdx?_cons])
        (by simp [Secd.addrFrom, Secd.addrIn, addressIdentity])
  exact ⟨_, _, Good.app (by simp [Form.ofList, Form.isIdentifier])
    (Good.lam (F := ⟨[renamed home k y], none⟩) hl hil rfl (bindable_temp hy)
      ((Goods.cons (Good.ite hi hii (hvar _) hb hc) Goods.nil).body (by simp)))
    (Goods.cons ha Goods.nil)⟩

/-! ## What the transformers build -/

theorem inst_splice (T : Template) (rs : List (Form × Form)) (m : Nat) : ∀ cs : List Form,
    instantiate home (splice (.ofList cs) T) rs m =
      (cs.foldr .cons (instantiate home T rs m).1, (instantiate home T rs m).2)
  | [] => rfl
  | c :: cs => by
    simp only [Form.ofList, splice, instantiate, List.foldr_cons]
    rw [inst_splice T rs m cs]

theorem foldr_ofList (d : List Form) : ∀ cs : List Form, cs.foldr .cons (Form.ofList d) = .ofList (cs ++ d)
  | [] => rfl
  | c :: cs => by simp [foldr_ofList d cs, Form.ofList]

theorem inst_steps (rs : List (Form × Form)) (m : Nat) : ∀ specs : List (Name × Form × Option Form),
    instantiate home (doSteps (.ofList (specs.map doSpec))) rs m = (.ofList (specs.map stepOf), rs, m)
  | [] => rfl
  | (x, e, none) :: specs => by
    simp only [List.map_cons, Form.ofList, doSpec, doSteps, instantiate, inst_steps rs m specs, stepOf]
  | (x, e, some s) :: specs => by
    simp only [List.map_cons, Form.ofList, doSpec, doSteps, instantiate, inst_steps rs m specs, stepOf]

theorem inst_bindings (rs : List (Form × Form)) (m : Nat) : ∀ specs : List (Name × Form × Option Form),
    instantiate home (doBindings (.ofList (specs.map doSpec))) rs m =
      (bindings (specs.map Prod.fst) (specs.map fun s => s.2.1), rs, m)
  | [] => rfl
  | (x, e, none) :: specs => by
    simp only [List.map_cons, Form.ofList, doSpec, doBindings, instantiate, inst_bindings rs m specs, tlist,
      bindings, List.zipWith_cons_cons]
  | (x, e, some s) :: specs => by
    simp only [List.map_cons, Form.ofList, doSpec, doBindings, instantiate, inst_bindings rs m specs, tlist,
      bindings, List.zipWith_cons_cons]

/-- The form after the clause with the test: `(begin command ... (rec step ...))`. -/
def againForm (home kb kr : Nat) (specs : List (Name × Form × Option Form)) (commands : List Form) : Form :=
  .cons (renamed home kb beginName)
    (.ofList (commands ++ [.cons (renamed home kr recName) (.ofList (specs.map stepOf))]))

theorem inst_do (q test a : Form) (res commands : List Form) (specs : List (Name × Form × Option Form)) (m : Nat) :
    instantiate home (doTemplate (.cons q (.cons (.ofList (specs.map doSpec))
        (.cons (.cons test (.ofList (a :: res))) (.ofList commands))))) [] m =
      (.ofList [renamed home m letName, renamed home (m + 1) recName,
        bindings (specs.map Prod.fst) (specs.map fun s => s.2.1),
        .ofList [renamed home (m + 2) ifName, test, .cons (renamed home (m + 3) beginName) (.ofList (a :: res)),
          againForm home (m + 3) (m + 1) specs commands]],
        [(.sym beginName, renamed home (m + 3) beginName), (.sym ifName, renamed home (m + 2) ifName),
          (.sym recName, renamed home (m + 1) recName), (.sym letName, renamed home m letName)], m + 4) := by
  simp only [doTemplate, tlist, rcons, instantiate, rsym, inst_bindings, inst_steps, inst_splice, Form.ofList,
    reduceCtorEq, if_false, againForm]
  rw [← foldr_ofList]
  rfl

theorem inst_do_nil (q test : Form) (commands : List Form) (specs : List (Name × Form × Option Form)) (m : Nat) :
    instantiate home (doTemplate (.cons q (.cons (.ofList (specs.map doSpec))
        (.cons (.cons test .nil) (.ofList commands))))) [] m =
      (.ofList [renamed home m letName, renamed home (m + 1) recName,
        bindings (specs.map Prod.fst) (specs.map fun s => s.2.1),
        .ofList [renamed home m letName, .ofList [.ofList [renamed home (m + 2) itName, test]],
          .ofList [renamed home (m + 3) ifName, renamed home (m + 2) itName, renamed home (m + 2) itName,
            againForm home (m + 4) (m + 1) specs commands]]],
        [(.sym beginName, renamed home (m + 4) beginName), (.sym ifName, renamed home (m + 3) ifName),
          (.sym itName, renamed home (m + 2) itName),
          (.sym recName, renamed home (m + 1) recName), (.sym letName, renamed home m letName)], m + 5) := by
  simp only [doTemplate, tlist, rcons, instantiate, rsym, inst_bindings, inst_steps, inst_splice, Form.ofList,
    if_true, againForm]
  rw [← foldr_ofList]
  rfl

end Meevax.Expand
