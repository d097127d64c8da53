import Verif.Spec.Hygiene

/-!
Lemmas about identifiers: `scan` and `identify` of the expander against `lookup` and `refers` of the
specification, and what α-conversion does to one frame.
-/

namespace Meevax.Expand

open Secd (Name Code)
open Spec

/-! ## Source forms -/

/-- Forms a program or a macro can contain: the only syntactic closures are renamed identifiers,
made for macros defined at the outermost level. -/
def Src (base : Nat) : Form → Prop
  | .cons a d => Src base a ∧ Src base d
  | .closure i e free w =>
    (∃ n, i = .rename n) ∧ e < base ∧ free = [] ∧ w.isIdentifier = true ∧ Src base w
  | .macro .. => False
  | _ => True

/-- Templates of such forms. -/
def SrcT (base : Nat) : Template → Prop
  | .use f => Src base f
  | .insert v => v.isIdentifier = true ∧ Src base v
  | .pair a d => SrcT base a ∧ SrcT base d

theorem instantiate_src {base : Nat} {e : Nat} (he : e < base) :
    ∀ {T : Template} {rs : List (Form × Form)} {m : Nat} {out rs' m'},
      SrcT base T → (∀ p ∈ rs, Src base p.2) → instantiate e T rs m = (out, rs', m') →
      Src base out ∧ ∀ p ∈ rs', Src base p.2 := by
  intro T
  induction T with
  | use f =>
    intro rs m out rs' m' hT hrs h
    simp only [instantiate, Prod.mk.injEq] at h
    obtain ⟨rfl, rfl, rfl⟩ := h
    exact ⟨hT, hrs⟩
  | insert v =>
    intro rs m out rs' m' hT hrs h
    simp only [instantiate, rename] at h
    split at h
    · rename_i a ha
      simp only [Prod.mk.injEq] at h
      obtain ⟨rfl, rfl, rfl⟩ := h
      have : ∃ k, (k, a) ∈ rs := by
        clear hrs
        induction rs with
        | nil => simp at ha
        | cons p rs ih =>
          obtain ⟨k, b⟩ := p
          simp only [List.lookup_cons] at ha
          split at ha
          · exact ⟨k, by simp_all⟩
          · obtain ⟨k', hk'⟩ := ih ha
            exact ⟨k', by simp [hk']⟩
      obtain ⟨k, hk⟩ := this
      exact ⟨hrs _ hk, hrs⟩
    · simp only [Prod.mk.injEq] at h
      obtain ⟨rfl, rfl, rfl⟩ := h
      have : Src base (Form.closure (.rename m) e [] v) := ⟨⟨m, rfl⟩, he, rfl, hT.1, hT.2⟩
      refine ⟨this, ?_⟩
      intro p hp
      rcases List.mem_cons.mp hp with rfl | hp
      · exact this
      · exact hrs p hp
  | pair a d iha ihd =>
    intro rs m out rs' m' hT hrs h
    simp only [instantiate] at h
    cases h₁ : instantiate e a rs m with
    | mk a' r =>
      obtain ⟨rs₁, m₁⟩ := r
      rw [h₁] at h
      cases h₂ : instantiate e d rs₁ m₁ with
      | mk d' r =>
        obtain ⟨rs₂, m₂⟩ := r
        simp only [h₂, Prod.mk.injEq] at h
        obtain ⟨rfl, rfl, rfl⟩ := h
        obtain ⟨ha, hrs₁⟩ := iha hT.1 hrs h₁
        obtain ⟨hd, hrs₂⟩ := ihd hT.2 hrs₁ h₂
        exact ⟨⟨ha, hd⟩, hrs₂⟩

/-! ## Frames -/

/-- The identity that an address is in the expander. -/
def Spec.Address.identity : Address → Identity
  | .loc i j => .relative i j
  | .rest i j => .variadic i j
  | .glob g => .absolute g

/-- The frames of the expander, read as frames of the specification. -/
def Frames (fs : List Form) (φ : List Frame) : Prop := fs.map parse = φ.map some

theorem parse_ident : ∀ {F : Form} {f : Frame}, parse F = some f →
    ∀ v ∈ f.ids, v.isIdentifier = true := by
  intro F
  induction F with
  | nil => intro f h; simp [parse] at h; subst h; simp [Frame.ids]
  | cons a d _ ihd =>
    intro f h v hv
    simp only [parse] at h
    split at h
    · rename_i ha
      simp only [Option.map_eq_some_iff] at h
      obtain ⟨g, hg, rfl⟩ := h
      simp only [Frame.ids, List.cons_append, List.mem_cons] at hv
      rcases hv with rfl | hv
      · exact ha
      · exact ihd hg v hv
    · simp at h
  | sym x => intro f h; simp [parse, Form.isIdentifier] at h; subst h; simp [Frame.ids, Form.isIdentifier]
  | closure i e fr w _ => intro f h; simp [parse, Form.isIdentifier] at h; subst h; simp [Frame.ids, Form.isIdentifier]
  | _ => intro f h; simp [parse, Form.isIdentifier] at h

theorem not_ident_macro {k t} : (Form.macro k t).isIdentifier = false := rfl

/-- The inner loop of `identify` finds the position of the identifier. -/
theorem scanFormals_eq (v : Form) (i : Nat) : ∀ {F : Form} {f : Frame}, parse F = some f →
    ∀ j, scanFormals v i F j =
      match f.fixed.findIdx? (· = v) with
      | some k => some (.relative i (j + k))
      | none => if f.rest = some v then some (.variadic i (j + f.fixed.length)) else none := by
  intro F
  induction F with
  | nil => intro f h j; simp [parse] at h; subst h; simp [scanFormals, Form.isIdentifier]
  | cons a d _ ihd =>
    intro f h j
    simp only [parse] at h
    split at h
    · rename_i ha
      simp only [Option.map_eq_some_iff] at h
      obtain ⟨g, hg, rfl⟩ := h
      have hm : scanFormals v i (.cons a d) j =
          if a = v then some (.relative i j) else scanFormals v i d (j + 1) := by
        cases a <;> simp_all [scanFormals, Form.isIdentifier]
      rw [hm, List.findIdx?_cons]
      by_cases hav : a = v
      · simp [hav]
      · simp only [hav, if_false, decide_false]
        rw [ihd hg (j + 1)]
        cases g.fixed.findIdx? (· = v) <;> simp [Nat.add_assoc, Nat.add_comm 1]
    · simp at h
  | sym x =>
    intro f h j; simp [parse, Form.isIdentifier] at h; subst h
    simp [scanFormals, Form.isIdentifier]
  | closure i' e fr w _ =>
    intro f h j; simp [parse, Form.isIdentifier] at h; subst h
    simp [scanFormals, Form.isIdentifier]
  | _ => intro f h; simp [parse, Form.isIdentifier] at h

theorem scan_eq (v : Form) : ∀ {fs : List Form} {φ : List Frame}, Frames fs φ → ∀ i,
    scan v fs i = (lookup φ v i).map Address.identity := by
  intro fs
  induction fs with
  | nil => intro φ h i; cases φ <;> simp [Frames] at h; simp [scan, lookup]
  | cons F fs ih =>
    intro φ h i
    cases φ with
    | nil => simp [Frames] at h
    | cons f φ =>
      simp only [Frames, List.map_cons, List.cons.injEq] at h
      simp only [scan, lookup, scanFormals_eq v i h.1 0, Frame.find]
      cases f.fixed.findIdx? (· = v) with
      | some k => simp [Address.identity]
      | none =>
        by_cases hr : f.rest = some v
        · simp [hr, Address.identity]
        · simp only [hr, if_false]
          exact ih h.2 (i + 1)

theorem find_none {f : Frame} {v : Form} {i : Nat} : f.find v i = none ↔ v ∉ f.ids := by
  simp only [Frame.find, Frame.ids, List.mem_append, Option.mem_toList]
  cases h : f.fixed.findIdx? (· = v) with
  | some k =>
    have := List.findIdx?_eq_some_iff_getElem.mp h
    obtain ⟨hk, hv, _⟩ := this
    simp only [decide_eq_true_eq] at hv
    have : v ∈ f.fixed := hv ▸ List.getElem_mem hk
    simp [this]
  | none =>
    have := List.findIdx?_eq_none_iff.mp h
    have hv : v ∉ f.fixed := fun hm => by simpa using this v hm
    by_cases hr : f.rest = some v <;> simp [hr, hv]

/-- Shift an address by one frame. -/
def Spec.Address.up : Address → Address
  | .loc i j => .loc (i + 1) j
  | .rest i j => .rest (i + 1) j
  | .glob g => .glob g

theorem find_up (f : Frame) (v : Form) (i : Nat) : f.find v (i + 1) = (f.find v i).map Address.up := by
  simp only [Frame.find]
  cases f.fixed.findIdx? (· = v) with
  | some k => simp [Address.up]
  | none => by_cases hr : f.rest = some v <;> simp [hr, Address.up]

theorem lookup_up : ∀ (ρ : List Frame) (v : Form) (i : Nat),
    lookup ρ v (i + 1) = (lookup ρ v i).map Address.up := by
  intro ρ
  induction ρ with
  | nil => intro v i; simp [lookup]
  | cons f ρ ih =>
    intro v i
    simp only [lookup, find_up]
    cases f.find v i with
    | some a => simp
    | none => simp only [Option.map_none]; exact ih v (i + 1)

theorem lookup_none {ρ : List Frame} {v : Form} {i : Nat} :
    lookup ρ v i = none ↔ ∀ f ∈ ρ, v ∉ f.ids := by
  induction ρ generalizing i with
  | nil => simp [lookup]
  | cons f ρ ih =>
    simp only [lookup, List.mem_cons, forall_eq_or_imp]
    cases h : f.find v i with
    | some a =>
      have : v ∈ f.ids := by
        apply Classical.byContradiction
        intro hv
        rw [find_none.mpr hv] at h
        simp at h
      simp [this]
    | none => simp only [ih]; simp [find_none.mp h]

theorem lookup_not_glob {ρ : List Frame} {v : Form} {i : Nat} {g : Nat} :
    lookup ρ v i ≠ some (.glob g) := by
  induction ρ generalizing i with
  | nil => simp [lookup]
  | cons f ρ ih =>
    simp only [lookup]
    cases h : f.find v i with
    | some a =>
      simp only [Frame.find] at h
      intro hg
      simp only [Option.some.injEq] at hg
      subst hg
      split at h
      · simp at h
      · split at h <;> simp at h
    | none => exact ih

theorem lookup_cons_of_not_mem {f : Frame} {ρ : List Frame} {v : Form} (h : v ∉ f.ids) :
    lookup (f :: ρ) v 0 = (lookup ρ v 0).map Address.up := by
  simp only [lookup, find_none.mpr h]
  exact lookup_up ρ v 0

theorem memqFormals_eq (v : Form) : ∀ {F : Form} {f : Frame}, parse F = some f →
    (memqFormals v F = true ↔ v ∈ f.fixed) := by
  intro F
  induction F with
  | nil => intro f h; simp [parse] at h; subst h; simp [memqFormals]
  | cons a d _ ihd =>
    intro f h
    simp only [parse] at h
    split at h
    · simp only [Option.map_eq_some_iff] at h
      obtain ⟨g, hg, rfl⟩ := h
      simp only [memqFormals, Bool.or_eq_true, decide_eq_true_eq, List.mem_cons, ihd hg]
    · simp at h
  | sym x => intro f h; simp [parse, Form.isIdentifier] at h; subst h; simp [memqFormals]
  | closure i e fr w _ => intro f h; simp [parse, Form.isIdentifier] at h; subst h; simp [memqFormals]
  | _ => intro f h; simp [parse, Form.isIdentifier] at h

theorem visible_iff {x : Name} : ∀ {fs : List Form} {φ : List Frame}, Frames fs φ →
    (visible x fs = true ↔ bound x φ) := by
  intro fs
  induction fs with
  | nil => intro φ h; cases φ <;> simp [Frames] at h; simp [visible, bound]
  | cons F fs ih =>
    intro φ h
    cases φ with
    | nil => simp [Frames] at h
    | cons f φ =>
      simp only [Frames, List.map_cons, List.cons.injEq] at h
      have := ih h.2
      simp only [visible, List.any_cons, Bool.or_eq_true, memqFormals_eq _ h.1] at this ⊢
      rw [this]
      simp [bound]

/-! ## Identifiers without a lexical binding -/

theorem scan_pad (v : Form) (hv : v.isIdentifier = true) :
    ∀ n i, scan v (pad n []) i = none := by
  intro n
  induction n with
  | zero => intro i; simp [pad, scan]
  | succ n ih =>
    intro i
    have : pad (n + 1) [] = .nil :: pad n [] := by simp [pad, List.replicate_succ]
    rw [this]
    simp only [scan, scanFormals]
    have h2 : (Form.nil.isIdentifier && decide (Form.nil = v)) = false := by
      simp [Form.isIdentifier]
    simp only [h2]
    exact ih (i + 1)

/-- The environments of macro definitions. -/
def EnvOk (C : Ctx) (base : Nat) (H : Nat → Env) : Prop :=
  ∀ e < base, H e = ⟨[], C.env e⟩

theorem identify_pad {C : Ctx} {base : Nat} {H : Nat → Env} (hH : EnvOk C base H) :
    ∀ {w : Form} {e : Nat} (n : Nat), w.isIdentifier = true → Src base w →
      identify H (C.env e) w (pad n []) = (C.origin e w).map .absolute := by
  intro w
  induction w with
  | sym x =>
    intro e n hw _
    unfold identify
    rw [scan_pad _ hw]
    simp [Ctx.origin]
  | closure i e' free w ih =>
    intro e n hw hs
    obtain ⟨_, he', _, hw', hs'⟩ := hs
    unfold identify
    rw [scan_pad _ hw]
    have hp : ∀ k, pad k (frames []) = pad k [] := fun k => rfl
    simp only [hw', if_true, hH e' he', hp, Ctx.origin]
    rw [ih _ hw' hs']
    cases h : C.origin e' w with
    | some g => simp
    | none =>
      simp only [Option.map_none]
      rw [ih _ hw' hs', h]
      simp
  | _ => intro e n hw; simp [Form.isIdentifier] at hw

/-- `syntactic_closure::identify` of a renamed identifier. -/
theorem identifyClosure_some {C : Ctx} {base : Nat} {H : Nat → Env} (hH : EnvOk C base H)
    {e : Nat} {w : Form} {g : Nat} {fs : List Form} (he : e < base) (hw : w.isIdentifier = true)
    (hs : Src base w) (h : C.origin e w = some g) :
    identifyClosure H e w fs = some (.absolute g) := by
  have hp : ∀ k, pad k (frames []) = pad k [] := fun k => rfl
  simp only [identifyClosure, hH e he, hp, identify_pad hH _ hw hs, h, Option.map_some]

/-- No frame holds a macro. -/
def NoMacro (fs : List Form) : Prop := ∀ v i t, scan v fs i ≠ some (.macro t)

theorem noMacro {fs : List Form} {φ : List Frame} (h : Frames fs φ) : NoMacro fs := by
  intro v i t hs
  rw [scan_eq v h] at hs
  cases hl : lookup φ v i with
  | none => simp [hl] at hs
  | some a => cases a <;> simp [hl, Address.identity] at hs

/-- A renamed identifier without origin is no keyword anywhere. -/
theorem identify_not_keyword {C : Ctx} {base : Nat} {H : Nat → Env} (hH : EnvOk C base H) {W : World}
    {fs : List Form} (hfs : NoMacro fs) (habs : ∀ v i g, scan v fs i ≠ some (.absolute g)) :
    ∀ {w : Form} {e : Nat}, w.isIdentifier = true → Src base w → C.origin e w = none →
      keywordOf W (identify H (C.env e) w fs) = none := by
  intro w
  induction w with
  | sym x =>
    intro e hw _ ho
    unfold identify
    cases hsc : scan (Form.sym x) fs 0 with
    | some a =>
      cases a with
      | absolute g => exact absurd hsc (habs _ _ _)
      | «macro» t => exact absurd hsc (hfs _ _ _)
      | _ => simp [keywordOf]
    | none =>
      simp only [Ctx.origin] at ho
      simp [ho, keywordOf]
  | closure i e' free w ih =>
    intro e hw hs ho
    obtain ⟨_, he', _, hw', hs'⟩ := hs
    unfold identify
    cases hsc : scan (Form.closure i e' free w) fs 0 with
    | some a =>
      cases a with
      | absolute g => exact absurd hsc (habs _ _ _)
      | «macro» t => exact absurd hsc (hfs _ _ _)
      | _ => simp [keywordOf]
    | none =>
      have hp : ∀ k, pad k (frames []) = pad k [] := fun k => rfl
      simp only [Ctx.origin] at ho
      simp only [hw', if_true, hH e' he', hp, identify_pad hH _ hw' hs', ho, Option.map_none]
      exact ih hw' hs' ho
  | _ => intro e hw; simp [Form.isIdentifier] at hw

theorem scan_not_absolute {fs : List Form} {φ : List Frame} (h : Frames fs φ) (v : Form) (i g : Nat) :
    scan v fs i ≠ some (.absolute g) := by
  intro hs
  rw [scan_eq v h] at hs
  cases hl : lookup φ v i with
  | none => simp [hl] at hs
  | some a =>
    cases a with
    | glob g => exact lookup_not_glob hl
    | _ => simp [hl, Address.identity] at hs

theorem identifyClosure_not_keyword {C : Ctx} {base : Nat} {H : Nat → Env} (hH : EnvOk C base H)
    {W : World} (hW : W.value = C.value)
    {fs : List Form} {φ : List Frame} (hfs : Frames fs φ) {w : Form} {e : Nat} (he : e < base)
    (hw : w.isIdentifier = true) (hs : Src base w) (ho : (C.origin e w).bind C.value = none) :
    keywordOf W (identifyClosure H e w fs) = none := by
  cases hg : C.origin e w with
  | some g =>
    rw [identifyClosure_some hH he hw hs hg]
    simp only [hg, Option.bind_some] at ho
    simp [keywordOf, hW, ho]
  | none =>
    have hp : ∀ k, pad k (frames []) = pad k [] := fun k => rfl
    simp only [identifyClosure, hH e he, hp, identify_pad hH _ hw hs, hg, Option.map_none]
    exact identify_not_keyword hH (noMacro hfs) (scan_not_absolute hfs) hw hs hg

end Meevax.Expand
