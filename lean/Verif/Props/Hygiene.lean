import Verif.Lemmas.HygieneMain

/-!
C53: macro hygiene.

`C53_compile_partial`: the compiler gives every program the code of its hygienic meaning
(Spec/Hygiene.lean).  The other theorems say what this meaning has to do with hygiene: identifiers
that a macro inserts are never captured, and capture nothing.
-/

namespace Meevax.Expand

open Secd (Name Code)
open Spec

/-- The expander is ready to compile a program of the specification: it has the same global bindings
and macros, and macros are defined in global environments, which are numbered below `base`. -/
structure Ready (C : Ctx) (W : World) (base : Nat) (st : St) : Prop where
  value : W.value = C.value
  fresh : W.fresh = C.fresh
  pos : 0 < base
  lam : (C.env 0 lambdaName).bind C.value = some (.syn .lambda)
  set : (C.env 0 setName).bind C.value = some (.syn .set)
  home : ∀ g t, C.value g = some (.transformer t) → C.home t < base
  template : ∀ g t, C.value g = some (.transformer t) → ∀ form, Src base form →
    SrcT base (C.template t form)
  envs : ∀ e < base, st.envs e = ⟨[], C.env e⟩
  old : base ≤ st.nextEnv
  macros : ∀ g t, C.value g = some (.transformer t) →
    (st.macros t).2 = C.home t ∧ W.run (st.macros t).1 = erTransformer (C.template t)

/-- The connection of the program with the expander, for one compilation. -/
def setup (C : Ctx) (W : World) (base : Nat) (st : St) : Setup := ⟨C, W, base, st.nextEnv⟩

theorem Ready.ok {C : Ctx} {W : World} {base : Nat} {st : St} (h : Ready C W base st) :
    (setup C W base st).Ok :=
  ⟨h.value, h.fresh, h.pos, h.lam, h.set, h.home, h.template⟩

/-- The state in which a compilation starts. -/
def start (C : Ctx) (st : St) : St :=
  { (newEnv [] C.globals st).2 with alpha := [⟨st.nextEnv, [], []⟩] }

theorem Ready.rel {C : Ctx} {W : World} {base : Nat} {st : St} (h : Ready C W base st) :
    Rel (setup C W base st) [] [] [] (start C st) := by
  refine ⟨⟨rfl, by simp [start, newEnv, setup], by simp [start, newEnv, setup], ?_, ?_, h.macros⟩,
    [], rfl, ?_⟩
  · intro e he
    have he' : e < base := he
    have : e ≠ st.nextEnv := by have := h.old; omega
    simp [start, newEnv, this, h.envs e he', setup]
  · have := h.old
    simp [start, newEnv, setup]; omega
  · refine ⟨?_, by simp, by simp [bound], by simp [rebound], by simp, by simp [rebound], by simp⟩
    intro v _ _
    cases v <;> simp [conv]

theorem compile_eq (W : World) (n : Nat) (C : Ctx) (form : Form) (st : St) :
    compile W n C.globals form st =
      (expand W n C.globals form [] (start C st)).bind fun p =>
        generate W p.2.envs C.globals p.1 [] [.stop] false := rfl

theorem genEnv {C : Ctx} {W : World} {base : Nat} {st st' : St} (h : Ready C W base st)
    (hx : Ext (start C st) st') : GenEnv (setup C W base st) st'.envs :=
  ⟨(h.rel.ext hx).ok.env0, (h.rel.ext hx).ok.envs⟩

theorem compile_of {C : Ctx} {W : World} {base : Nat} {st : St} (h : Ready C W base st)
    {form : Form} {t : Term} {m' : Nat} (hs : Src base form)
    (hd : Den C .expr [] form st.made [t] m') :
    ∃ M e st', (∀ n ≥ M, expand W n C.globals form [] (start C st) = some (e, st')) ∧
      Ext (start C st) st' ∧
      ∀ k tail, generate W st'.envs C.globals e [] k tail = some (emit t k tail) := by
  have hm := expands_den (P := setup C W base st) h.ok hd hs t rfl
  obtain ⟨M, e, t', st', h₁, hx, _, ht, hsame⟩ := hm.expr [] [] _ h.rel rfl
  refine ⟨M, e, st', h₁, hx, ?_⟩
  intro k tail
  have hg := ht.generate h.ok (genEnv h hx) ⟨[], rfl⟩ t' rfl k tail
  rw [hsame.code] at hg
  exact hg

/-- **C53**: a program is compiled to the code of its hygienic meaning: every identifier refers to
the innermost binding of that very identifier; if there is none, a symbol refers to the global
binding, and an identifier inserted by a macro to what it means where the macro was defined.

Partial: this covers explicit renaming macros (`syntax-rules` is one) that are defined globally, and
programs within the side conditions of `Den`; Props/HygieneFails.lean shows that the compiler does
something else outside of them. -/
theorem C53_compile_partial {C : Ctx} {W : World} {base : Nat} {st : St} (h : Ready C W base st)
    {form : Form} {t : Term} {m' : Nat} (hs : Src base form)
    (hd : Den C .expr [] form st.made [t] m') :
    ∃ M, ∀ n ≥ M, compile W n C.globals form st = some (emit t [.stop] false) := by
  obtain ⟨M, e, st', h₁, _, hg⟩ := compile_of h hs hd
  refine ⟨M, fun n hn => ?_⟩
  rw [compile_eq, h₁ n hn]
  exact hg _ _

/-- The meaning of a program determines its code: two meanings of one program have the same code. -/
theorem C53_meaning_unique {C : Ctx} {W : World} {base : Nat} {st : St} (h : Ready C W base st)
    {form : Form} {t t' : Term} {m m' : Nat} (hs : Src base form)
    (hd : Den C .expr [] form st.made [t] m) (hd' : Den C .expr [] form st.made [t'] m') :
    emit t [.stop] false = emit t' [.stop] false := by
  obtain ⟨M, h₁⟩ := C53_compile_partial h hs hd
  obtain ⟨M', h₂⟩ := C53_compile_partial h hs hd'
  have := (h₁ (max M M') (by omega)).symm.trans (h₂ (max M M') (by omega))
  exact Option.some.inj this

/-! ## Definitions at the outermost level -/

theorem syntax_define_var {W : World} {n : Nat} {s : Name → Option Nat} {q e : Form} {x : Name}
    {bv : Scopes} {st : St} :
    expandSyntax W (n + 1) .define s (.ofList [q, .sym x, e]) bv st =
      (expand W n s e bv (convert q st).2).bind fun p =>
        some (.ofList [(convert q st).1, .sym x, p.1], p.2) := by
  rw [expandSyntax.eq_def]; rfl

theorem syntax_define_proc {W : World} {n : Nat} {s : Name → Option Nat} {q v F forms : Form}
    {bv : Scopes} {st : St} :
    expandSyntax W (n + 1) .define s (.cons q (.cons (.cons v F) forms)) bv st =
      (expand W n s (.cons (defaultRename lambdaName (convert q st).2).1 (.cons F forms)) bv
        (defaultRename lambdaName (convert q st).2).2).bind fun p =>
        some (.ofList [(convert q st).1, v, p.1], p.2) := by
  rw [expandSyntax.eq_def]; rfl

theorem generate_define {W : World} {H : Nat → Env} {s : Name → Option Nat} {q e : Form} {x : Name}
    {k : Code} {tail : Bool} (h : syntaxOf W H s q [] = some .define) :
    generate W H s (.ofList [q, .sym x, e]) [] k tail =
      ((reference W H s (.sym x) []).bind storeInstr).bind fun i =>
        generate W H s e [] (i :: k) false := by
  simp only [Form.ofList]
  rw [generate.eq_def]
  simp only [h, Form.isIdentifier, if_true, Option.bind_eq_bind, Option.bind_assoc]

theorem reference_global {C : Ctx} {W : World} (hf : W.fresh = C.fresh) {H : Nat → Env} {x : Name} :
    (reference W H C.globals (.sym x) []).bind storeInstr =
      some (.storeAbsolute ((C.globals x).getD (C.fresh x))) := by
  unfold reference identify
  simp only [scan]
  cases C.globals x <;> simp [storeInstr, hf]

/-- **C53** for `(define x e)` at the outermost level. -/
theorem C53_define_partial {C : Ctx} {W : World} {base : Nat} {st : St} (h : Ready C W base st)
    {q e : Form} {x : Name} {t : Term} {m' : Nat} (hs : Src base q) (hse : Src base e)
    (hi : q.isIdentifier = true) (hq : C.keyword q = some (.syn .define))
    (hd : Den C .expr [] e st.made [t] m') :
    ∃ M, ∀ n ≥ M, compile W n C.globals (.ofList [q, .sym x, e]) st =
      some (emit t [.storeAbsolute ((C.globals x).getD (C.fresh x)), .stop] false) := by
  obtain ⟨M, e', st', h₁, hx, hg⟩ := compile_of h hse hd
  have hr := h.rel
  have hk : Key (setup C W base st) [] (frames []) q .define :=
    key_of_head hr hs hi (by simpa [Ctx.head, lookup, setup] using hq)
  refine ⟨M + 2, fun n hn => ?_⟩
  obtain ⟨n, rfl, hn'⟩ := fuel2 hn
  rw [compile_eq]
  have hh := hk.head h.ok hr.place
  have he := expand_syn (n := n + 1) (d := .ofList [.sym x, e]) hk.ident hh
  rw [show Form.ofList [q, .sym x, e] = .cons q (.ofList [.sym x, e]) from rfl]
  rw [show expand W (n + 2) C.globals (.cons q (.ofList [.sym x, e])) [] (start C st) = _ from he]
  rw [show Form.cons q (.ofList [.sym x, e]) = .ofList [q, .sym x, e] from rfl, syntax_define_var,
    convert_plain hr.ok hk.plain]
  simp only
  rw [show expand (setup C W base st).W n (setup C W base st).C.globals e [] (start C st) = _
    from h₁ n hn']
  simp only [Option.bind_some]
  have hsy : syntaxOf W st'.envs C.globals q [] = some .define :=
    hk.syntaxOf h.ok (genEnv h hx).envs ⟨[], rfl⟩
  rw [generate_define hsy, reference_global h.fresh]
  exact hg _ _

theorem syntax_define_none {W : World} {n : Nat} {s : Name → Option Nat} {q : Form} {x : Name}
    {bv : Scopes} {st : St} :
    expandSyntax W (n + 1) .define s (.ofList [q, .sym x]) bv st =
      some (.ofList [(convert q st).1, .sym x], (convert q st).2) := by
  rw [expandSyntax.eq_def]; rfl

theorem generate_define_none {W : World} {H : Nat → Env} {s : Name → Option Nat} {q : Form} {x : Name}
    {k : Code} {tail : Bool} (h : syntaxOf W H s q [] = some .define) :
    generate W H s (.ofList [q, .sym x]) [] k tail =
      ((reference W H s (.sym x) []).bind storeInstr).bind fun i => some (.loadConstant .unspecified :: i :: k) := by
  simp only [Form.ofList]
  rw [generate.eq_def]
  simp only [h, Form.isIdentifier, if_true, Option.bind_eq_bind, Option.bind_assoc]

/-- **C53** for `(define x)` at the outermost level: the variable gets an unspecified value. -/
theorem C53_define_unspecified {C : Ctx} {W : World} {base : Nat} {st : St} (h : Ready C W base st)
    {q : Form} {x : Name} (hs : Src base q)
    (hi : q.isIdentifier = true) (hq : C.keyword q = some (.syn .define)) :
    ∃ M, ∀ n ≥ M, compile W n C.globals (.ofList [q, .sym x]) st =
      some [.loadConstant .unspecified, .storeAbsolute ((C.globals x).getD (C.fresh x)), .stop] := by
  have hr := h.rel
  have hk : Key (setup C W base st) [] (frames []) q .define :=
    key_of_head hr hs hi (by simpa [Ctx.head, lookup, setup] using hq)
  refine ⟨2, fun n hn => ?_⟩
  obtain ⟨n, rfl, hn'⟩ := fuel2 (M := 0) hn
  rw [compile_eq]
  have hh := hk.head h.ok hr.place
  have he := expand_syn (n := n + 1) (d := .ofList [.sym x]) hk.ident hh
  rw [show Form.ofList [q, .sym x] = .cons q (.ofList [.sym x]) from rfl]
  rw [show expand W (n + 2) C.globals (.cons q (.ofList [.sym x])) [] (start C st) = _ from he]
  rw [show Form.cons q (.ofList [.sym x]) = .ofList [q, .sym x] from rfl, syntax_define_none,
    convert_plain hr.ok hk.plain]
  simp only [Option.bind_some]
  have hsy : syntaxOf W (start C st).envs C.globals q [] = some .define :=
    hk.syntaxOf h.ok (genEnv h (Ext.refl _)).envs ⟨[], rfl⟩
  rw [generate_define_none hsy, reference_global h.fresh]
  rfl

/-- **C53** for `(define (x . formals) body ...)` at the outermost level. -/
theorem C53_define_procedure_partial {C : Ctx} {W : World} {base : Nat} {st : St}
    (h : Ready C W base st) {q F forms : Form} {f : Frame} {x : Name} {ts : List Term} {m' : Nat}
    (hs : Src base q) (hsF : Src base F) (hsf : Src base forms)
    (hi : q.isIdentifier = true) (hq : C.keyword q = some (.syn .define))
    (hF : parse F = some f) (hb : C.Bindable [] f) (hd : Den C .body [f] forms st.made ts m') :
    ∃ M, ∀ n ≥ M, compile W n C.globals (.cons q (.cons (.cons (.sym x) F) forms)) st =
      some [.loadClosure (emitBody ts), .storeAbsolute ((C.globals x).getD (C.fresh x)), .stop] := by
  have hr := h.rel
  have hk : Key (setup C W base st) [] (frames []) q .define :=
    key_of_head hr hs hi (by simpa [Ctx.head, lookup, setup] using hq)
  have hr' : Rel (setup C W base st) [] [] [] (defaultRename lambdaName (start C st)).2 :=
    hr.ext (Ext.bump _ 1)
  have hbody := expands_den (P := setup C W base st) h.ok hd hsf
  obtain ⟨M, e, t', st', h₁, hx, _, ht, hsame⟩ :=
    expands_lam (m := st.made) (a := f.fixed.length) (r := f.rest.isSome) h.ok hr' (key_lambda h.ok hr' (start C st).next) hF hb hsF rfl hbody
  refine ⟨M + 2, fun n hn => ?_⟩
  obtain ⟨n, rfl, hn'⟩ := fuel2 hn
  rw [compile_eq]
  have hh := hk.head h.ok hr.place
  have he := expand_syn (n := n + 1) (d := .cons (.cons (.sym x) F) forms) hk.ident hh
  rw [show expand W (n + 2) C.globals (.cons q (.cons (.cons (.sym x) F) forms)) [] (start C st) = _
    from he]
  rw [syntax_define_proc, convert_plain hr.ok hk.plain]
  simp only
  rw [show expand (setup C W base st).W n (setup C W base st).C.globals
    (.cons (defaultRename lambdaName (start C st)).1 (.cons F forms)) []
    (defaultRename lambdaName (start C st)).2 = _ from h₁ n hn']
  simp only [Option.bind_some]
  have hx' : Ext (start C st) st' := (Ext.bump _ 1).trans hx
  have hsy : syntaxOf W st'.envs C.globals q [] = some .define :=
    hk.syntaxOf h.ok (genEnv h hx').envs ⟨[], rfl⟩
  rw [generate_define hsy, reference_global h.fresh]
  have hg := ht.generate h.ok (genEnv h hx') ⟨[], rfl⟩ t' rfl
    [.storeAbsolute ((C.globals x).getD (C.fresh x)), .stop] false
  rw [hsame.code] at hg
  exact hg

/-! ## What a macro inserts -/

/-- The objects a form is made of were made before object number `m`. -/
def Below (m : Nat) : Form → Prop
  | .cons a d => Below m a ∧ Below m d
  | .closure i _ _ w => (∀ n, i = .rename n → n < m) ∧ Below m w
  | .macro k _ => Below m k
  | _ => True

theorem Below.mono {m m' : Nat} (h : m ≤ m') : ∀ {form : Form}, Below m form → Below m' form := by
  intro form
  induction form with
  | cons a d iha ihd => exact fun hb => ⟨iha hb.1, ihd hb.2⟩
  | closure i e fr w ih => exact fun hb => ⟨fun n hn => Nat.lt_of_lt_of_le (hb.1 n hn) h, ih hb.2⟩
  | «macro» k t ih => exact fun hb => ih hb
  | _ => exact fun _ => trivial

/-- The parts of a template that come from the user or are constants. -/
def Template.parts : Template → List Form
  | .use f => [f]
  | .insert _ => []
  | .pair a d => a.parts ++ d.parts

/-- The identifiers a template inserts. -/
def Template.inserted : Template → List Form
  | .use _ => []
  | .insert v => [v]
  | .pair a d => a.inserted ++ d.inserted

/-- The renamed identifiers of one use of a macro: new objects, one for each identifier. -/
structure Renames (home m m₁ : Nat) (rs : List (Form × Form)) : Prop where
  new : ∀ p ∈ rs, ∃ k, m ≤ k ∧ k < m₁ ∧ p.2 = .closure (.rename k) home [] p.1
  le : m ≤ m₁

theorem instantiate_renames {home m : Nat} : ∀ {T : Template} {rs rs' : List (Form × Form)}
    {m₁ m₂ : Nat} {out : Form}, Renames home m m₁ rs →
    instantiate home T rs m₁ = (out, rs', m₂) →
    Renames home m m₂ rs' ∧ m₁ ≤ m₂ ∧ (∀ p ∈ rs, p ∈ rs') ∧
      ∀ v ∈ T.inserted, ∃ a, (v, a) ∈ rs' := by
  intro T
  induction T with
  | use f =>
    intro rs rs' m₁ m₂ out hr h
    simp only [instantiate, Prod.mk.injEq] at h
    obtain ⟨rfl, rfl, rfl⟩ := h
    exact ⟨hr, Nat.le_refl _, fun p hp => hp, by simp [Template.inserted]⟩
  | insert v =>
    intro rs rs' m₁ m₂ out hr h
    simp only [instantiate, rename] at h
    split at h
    · rename_i a ha
      simp only [Prod.mk.injEq] at h
      obtain ⟨rfl, rfl, rfl⟩ := h
      refine ⟨hr, Nat.le_refl _, fun p hp => hp, ?_⟩
      intro w hw
      rw [Template.inserted, List.mem_singleton] at hw
      subst hw
      obtain ⟨l₁, l₂, rfl, _⟩ := List.lookup_eq_some_iff.mp ha
      exact ⟨a, by simp⟩
    · simp only [Prod.mk.injEq] at h
      obtain ⟨rfl, rfl, rfl⟩ := h
      refine ⟨⟨?_, Nat.le_succ_of_le hr.le⟩, Nat.le_succ _, fun p hp => List.mem_cons_of_mem _ hp, ?_⟩
      · intro p hp
        rcases List.mem_cons.mp hp with rfl | hp
        · exact ⟨m₁, hr.le, Nat.lt_succ_self _, rfl⟩
        · obtain ⟨k, h₁, h₂, h₃⟩ := hr.new p hp
          exact ⟨k, h₁, Nat.lt_succ_of_lt h₂, h₃⟩
      · intro w hw
        rw [Template.inserted, List.mem_singleton] at hw
        subst hw
        exact ⟨_, List.mem_cons_self⟩
  | pair a d iha ihd =>
    intro rs rs' m₁ m₂ out hr h
    simp only [instantiate] at h
    generalize ha : instantiate home a rs m₁ = pa at h
    obtain ⟨oa, ra, ma⟩ := pa
    generalize hd : instantiate home d ra ma = pd at h
    obtain ⟨od, rd, md⟩ := pd
    simp only [Prod.mk.injEq] at h
    obtain ⟨rfl, rfl, rfl⟩ := h
    obtain ⟨h₁, h₂, h₃, h₄⟩ := iha hr ha
    obtain ⟨g₁, g₂, g₃, g₄⟩ := ihd h₁ hd
    refine ⟨g₁, Nat.le_trans h₂ g₂, fun p hp => g₃ p (h₃ p hp), ?_⟩
    intro v hv
    rcases List.mem_append.mp hv with hv | hv
    · obtain ⟨x, hx⟩ := h₄ v hv
      exact ⟨x, g₃ _ hx⟩
    · exact g₄ v hv

theorem renames_nil (home m : Nat) : Renames home m m [] := ⟨by simp, Nat.le_refl _⟩

theorem lookup_append_of_not_mem {ρ' ρ : List Frame} {v : Form} (h : ∀ f ∈ ρ', v ∉ f.ids) (i : Nat) :
    lookup (ρ' ++ ρ) v i = lookup ρ v (i + ρ'.length) := by
  induction ρ' generalizing i with
  | nil => rfl
  | cons f ρ' ih =>
    have hf : f.find v i = none := find_none.mpr (h f List.mem_cons_self)
    simp only [List.cons_append, lookup, hf]
    rw [ih (fun g hg => h g (List.mem_cons_of_mem _ hg)), List.length_cons]
    congr 1
    omega

/-- **C53**, first half: whatever the user binds around the use of a macro, an identifier that the
macro inserts refers to the global binding which it has where the macro was defined, unless the
macro itself binds it (in `ρ'`, the scope between the use and the place where it stands). -/
theorem C53_inserted {C : Ctx} {home m m₁ : Nat} {T : Template} {out : Form}
    {rs : List (Form × Form)} (h : instantiate home T [] m = (out, rs, m₁)) {ρ ρ' : List Frame}
    (hρ : ∀ f ∈ ρ, ∀ v ∈ f.ids, Below m v) {v : Form} (hv : v ∈ T.inserted) :
    ∃ a, (v, a) ∈ rs ∧ ((∀ f ∈ ρ', a ∉ f.ids) →
      C.refers (ρ' ++ ρ) a = (C.origin home v).map .glob ∧
      C.head (ρ' ++ ρ) a = (C.origin home v).bind C.value) := by
  obtain ⟨hr, _, _, hall⟩ := instantiate_renames (renames_nil home m) h
  obtain ⟨a, ha⟩ := hall v hv
  obtain ⟨k, hk, _, hka⟩ := hr.new _ ha
  simp only at hka
  refine ⟨a, ha, fun hρ' => ?_⟩
  have hl : lookup (ρ' ++ ρ) a 0 = none := by
    rw [lookup_none]
    intro f hf hm
    rcases List.mem_append.mp hf with hf | hf
    · exact hρ' f hf hm
    · have := hρ f hf a hm
      subst hka
      have := this.1 k rfl
      omega
  subst hka
  simp [Ctx.refers, Ctx.head, hl, Ctx.global, Ctx.keyword]

/-- **C53**, second half: whatever the macro binds (`ρ'`, frames of identifiers it inserted), an
identifier of the user means what it means at the place of the use. -/
theorem C53_user {home m m₁ : Nat} {T : Template} {out : Form} {rs : List (Form × Form)}
    (h : instantiate home T [] m = (out, rs, m₁)) {ρ ρ' : List Frame}
    (hρ' : ∀ f ∈ ρ', ∀ v ∈ f.ids, ∃ w, (w, v) ∈ rs) {u : Form} (hu : Below m u) :
    lookup (ρ' ++ ρ) u 0 = lookup ρ u ρ'.length := by
  obtain ⟨hr, _, _, _⟩ := instantiate_renames (renames_nil home m) h
  rw [lookup_append_of_not_mem, Nat.zero_add]
  intro f hf hm
  obtain ⟨w, hw⟩ := hρ' f hf u hm
  obtain ⟨k, hk, _, hka⟩ := hr.new _ hw
  simp only at hka
  subst hka
  have := hu.1 k rfl
  omega

/-- **C53**: two uses of macros insert different identifiers, so that what one of them binds captures
nothing of the other. -/
theorem C53_separate {home home' m m₁ m₂ m₃ : Nat} {T T' : Template} {out out' : Form}
    {rs rs' : List (Form × Form)} (h : instantiate home T [] m = (out, rs, m₁)) (hle : m₁ ≤ m₂)
    (h' : instantiate home' T' [] m₂ = (out', rs', m₃)) :
    ∀ p ∈ rs, ∀ p' ∈ rs', p.2 ≠ p'.2 := by
  obtain ⟨hr, _, _, _⟩ := instantiate_renames (renames_nil home m) h
  obtain ⟨hr', _, _, _⟩ := instantiate_renames (renames_nil home' m₂) h'
  intro p hp p' hp' heq
  obtain ⟨k, _, hk, hka⟩ := hr.new _ hp
  obtain ⟨k', hk', _, hka'⟩ := hr'.new _ hp'
  rw [hka, hka'] at heq
  simp only [Form.closure.injEq, Stamp.rename.injEq] at heq
  omega

theorem convertSym_again (x : Name) : ∀ (ls : List Level) (next : Nat),
    convertSym x (convertSym x next ls).2.1 (convertSym x next ls).2.2 = convertSym x next ls
  | [], _ => rfl
  | l :: outer, next => by
    by_cases hf : l.free.contains x
    · have ih := convertSym_again x outer next
      simp only [convertSym, hf, if_true, ih]
    · cases hl : l.dict.lookup x with
      | some a => simp only [convertSym, hf, hl, Bool.false_eq_true, if_false]
      | none =>
        by_cases ho : outer.isEmpty
        · simp only [convertSym, hf, hl, ho, Bool.false_eq_true, if_false, if_true]
        · simp only [convertSym, hf, hl, ho, Bool.false_eq_true, if_false, List.lookup_cons_self]

/-- **C53 (one name for one symbol).** In any nesting of syntactic closures, whatever names have been
made before: all occurrences of a symbol in a form become the same identifier.  What is converted a
second time needs no new name. -/
theorem C53_same_name (v : Form) (st : St) : convert v (convert v st).2 = convert v st := by
  cases v with
  | sym x =>
    have := convertSym_again x st.alpha st.next
    simp only [convert]
    rw [this]
  | _ => rfl

/-- A symbol in a closure inside of another scope is given a new name. -/
example {st : St} {l l' : Level} (h : st.alpha = [⟨3, [], []⟩, l']) (x : Name) :
    (convert (.sym x) st).1 = .closure (.alpha st.next) 3 [] (.sym x) := by
  simp [convert, convertSym, h]

end Meevax.Expand
