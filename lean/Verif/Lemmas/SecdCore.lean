import Verif.Lemmas.SecdSim
import Verif.Model.Builtins
import Verif.Spec.Builtins

/-! The builtins do what R7RS says, on representations. -/

namespace Meevax.Secd

open Scheme

variable {free : Name → Nat}

theorem Grows.refl (W : World) (c : Cells) (id : Nat) : Grows W W c c id :=
  ⟨rfl, rfl, fun _ _ _ => rfl, fun _ => .inl rfl, fun _ _ _ _ => rfl⟩

theorem ArgList.one {W : World} {c : Cells} {id : Nat} {xs : Value} {v : Val}
    {vs : List Val} (h : ArgList free W c id xs (v :: vs)) :
    ∃ x t, c.car xs = some x ∧ VRel free W v x ∧ c.cdr xs = some t ∧ ArgList free W c id t vs := by
  obtain ⟨l, rfl, -, h₁, h₂⟩ := h
  exact ⟨_, _, rfl, h₁, rfl, h₂⟩

theorem VRel.first {W : World} {p : Pairs} {c : Cells} (hp : PairsInv free W p c) {v w : Val}
    {x : Value} (h : VRel free W v x) (hw : p.car v = some w) :
    ∃ y, c.first x = some y ∧ VRel free W w y := by
  cases h with
  | datum d =>
    cases d with
    | cons a d => cases hw; exact ⟨_, rfl, .datum a⟩
    | _ => simp [Pairs.car] at hw
  | pair hl => cases hw; exact ⟨_, rfl, (hp.user _ _ hl).2.1⟩
  | _ => simp [Pairs.car] at hw

theorem VRel.second {W : World} {p : Pairs} {c : Cells} (hp : PairsInv free W p c) {v w : Val}
    {x : Value} (h : VRel free W v x) (hw : p.cdr v = some w) :
    ∃ y, c.second x = some y ∧ VRel free W w y := by
  cases h with
  | datum d =>
    cases d with
    | cons a d => cases hw; exact ⟨_, rfl, .datum d⟩
    | _ => simp [Pairs.cdr] at hw
  | pair hl => cases hw; exact ⟨_, rfl, (hp.user _ _ hl).2.2⟩
  | _ => simp [Pairs.cdr] at hw

theorem VRel.isPair {W : World} {v : Val} {x : Value} (h : VRel free W v x) :
    x.isPair = v.isPair := by
  cases h with
  | datum d => cases d <;> rfl
  | _ => rfl

theorem VRel.isNull {W : World} {v : Val} {x : Value} (h : VRel free W v x) :
    x.isNull = v.isNull := by
  cases h with
  | datum d => cases d <;> rfl
  | _ => rfl

/-- A new pair of the program. -/
theorem PairsInv.cons {W : World} {p : Pairs} {c : Cells} (hp : PairsInv free W p c) {a d : Val}
    {x y : Value} (ha : VRel free W a x) (hd : VRel free W d y) (id : Nat) :
    ∃ W', Grows W W' c (c.cons x y) id ∧ PairsInv free W' (p.cons a d) (c.cons x y) ∧
      VRel free W' (.pair p.next) (.pair c.next) := by
  have hfree : W.lab c.next = .free := by
    by_contra h; have := hp.alloc _ h; omega
  have hne : ∀ {l}, W.lab l ≠ .free → l ≠ c.next := by
    rintro l hl rfl; exact hl hfree
  let W' : World := { W with lab := fun l => if l = c.next then .user p.next else W.lab l }
  have hold : ∀ {l}, l ≠ c.next → W'.lab l = W.lab l := fun hl => if_neg hl
  have hnew : W'.lab c.next = .user p.next := if_pos rfl
  have hW : W.le W' :=
    ⟨fun l a h => by rw [hold (hne (by simp [h])), h],
     fun l a h => by rw [hold (hne (by simp [h])), h], fun _ _ h => h⟩
  have huser : ∀ l b, W'.lab l = .user b →
      (l = c.next ∧ b = p.next) ∨ (l ≠ c.next ∧ W.lab l = .user b ∧ b < p.next) := by
    intro l b hl
    by_cases h : l = c.next
    · rw [h, hnew] at hl; cases hl; exact .inl ⟨h, rfl⟩
    · rw [hold h] at hl; exact .inr ⟨h, hl, (hp.user l b hl).1⟩
  refine ⟨W', ⟨rfl, rfl, fun l hl _ => hold (hne hl), fun l => ?_, fun l _ _ hl => ?_⟩, ⟨?_, ?_, ?_, ?_⟩,
    .pair hnew⟩
  · by_cases h : l = c.next
    · exact .inr ⟨_, h ▸ hnew⟩
    · exact .inl (hold h)
  · exact Cells.cons_old (hne hl)
  · intro l b hl
    rcases huser l b hl with ⟨rfl, rfl⟩ | ⟨h₁, h₂, h₃⟩
    · simp only [Cells.cons_new, Pairs.cons, if_pos]
      exact ⟨by omega, ha.mono hW, hd.mono hW⟩
    · obtain ⟨g₁, g₂, g₃⟩ := hp.user l b h₂
      rw [Cells.cons_old h₁]
      simp only [Pairs.cons]
      rw [if_neg (by omega)]
      exact ⟨by omega, g₂.mono hW, g₃.mono hW⟩
  · intro l l' b hl hl'
    rcases huser l b hl with ⟨h₁, h₂⟩ | ⟨h₁, h₂, h₃⟩ <;>
    rcases huser l' b hl' with ⟨g₁, g₂⟩ | ⟨g₁, g₂, g₃⟩
    · rw [h₁, g₁]
    · omega
    · omega
    · exact hp.inj l l' b h₂ g₂
  · have key : ∀ {l i k}, W'.lab l = .arg i k → W.lab l = .arg i k := by
      intro l i k hl
      by_cases h : l = c.next
      · rw [h, hnew] at hl; cases hl
      · rwa [hold h] at hl
    exact fun l l' i k hl hl' => hp.uniq l l' i k (key hl) (key hl')
  · intro l hl
    by_cases h : l = c.next
    · simp only [Cells.cons]; omega
    · rw [hold h] at hl
      have := hp.alloc l hl
      simp only [Cells.cons]; omega

/-- The argument list becomes a list of the program. -/
theorem PairsInv.list {W : World} {p : Pairs} {c : Cells} (hp : PairsInv free W p c) {id : Nat}
    {xs : Value} {vs : List Val} (ha : ArgList free W c id xs vs) :
    ∃ W', Grows W W' c c id ∧ PairsInv free W' (p.list vs).2 c ∧
      VRel free W' (p.list vs).1 xs := by
  let W' : World := { W with lab := relabel W.lab id vs.length fun k => .user (p.next + k) }
  have hother : ∀ l, (∀ k, W.lab l ≠ .arg id k) → W'.lab l = W.lab l := fun l hl => relabel_other hl
  have hW : W.le W' :=
    ⟨fun l a h => by rw [hother l (by simp [h]), h],
     fun l a h => by rw [hother l (by simp [h]), h], fun _ _ h => h⟩
  have hcases : ∀ l, (∃ k, W.lab l = .arg id k ∧ k < vs.length ∧
      W'.lab l = .user (p.next + k)) ∨ W'.lab l = W.lab l := fun l => relabel_cases l
  obtain ⟨h₁, h₂⟩ := ha.toUser (c' := c) (p := p) (t := (p.list vs).1) (p' := (p.list vs).2) hW
    hp.uniq rfl fun l k hl hk => ⟨relabel_arg hl hk, rfl⟩
  obtain ⟨hn, ho⟩ := Pairs.list_spec (p := p) (vs := vs) rfl
  refine ⟨W', ⟨rfl, rfl, fun l _ hl => hother l hl, fun l => ?_, fun l _ _ _ => rfl⟩,
    ⟨?_, ?_, ?_, ?_⟩, h₁⟩
  · rcases hcases l with ⟨k, -, -, h⟩ | h
    · exact .inr ⟨_, h⟩
    · exact .inl h
  · intro l a hl
    rcases hcases l with ⟨k, g₁, g₂, g₃⟩ | g
    · rw [g₃] at hl; cases hl
      exact ⟨by omega, h₂ l k g₁ g₂⟩
    · rw [g] at hl
      obtain ⟨g₁, g₂, g₃⟩ := hp.user l a hl
      rw [ho a g₁]
      exact ⟨by omega, g₂.mono hW, g₃.mono hW⟩
  · intro l l' a hl hl'
    rcases hcases l with ⟨k, g₁, g₂, g₃⟩ | g <;> rcases hcases l' with ⟨k', f₁, f₂, f₃⟩ | f
    · rw [g₃] at hl; rw [f₃] at hl'; cases hl
      simp only [Label.user.injEq] at hl'
      have : k' = k := by omega
      subst this
      exact hp.uniq l l' id _ g₁ f₁
    · rw [g₃] at hl; cases hl
      have := (hp.user l' _ (f ▸ hl')).1; omega
    · rw [f₃] at hl'; cases hl'
      have := (hp.user l _ (g ▸ hl)).1; omega
    · exact hp.inj l l' a (g ▸ hl) (f ▸ hl')
  · have key : ∀ {l i k}, W'.lab l = .arg i k → W.lab l = .arg i k := by
      intro l i k hl
      rcases hcases l with ⟨k, -, -, h⟩ | h
      · rw [h] at hl; cases hl
      · exact h ▸ hl
    exact fun l l' i k hl hl' => hp.uniq l l' i k (key hl) (key hl')
  · intro l hl
    rcases hcases l with ⟨k, h, -⟩ | h
    · exact hp.alloc l (by simp [h])
    · exact hp.alloc l (h ▸ hl)

/-- A field of a pair of the program is assigned. -/
theorem PairsInv.update {W : World} {p : Pairs} {c c' : Cells} (hp : PairsInv free W p c) {l a : Nat}
    (hl : W.lab l = .user a) {new : Val × Val} {cell : Value × Value}
    (h₁ : VRel free W new.1 cell.1) (h₂ : VRel free W new.2 cell.2)
    (hc : ∀ l', c'.cell l' = if l' = l then cell else c.cell l') (hn : c'.next = c.next) (id : Nat) :
    Grows W W c c' id ∧
    PairsInv free W { p with pair := fun l' => if l' = a then new else p.pair l' } c' := by
  refine ⟨⟨rfl, rfl, fun _ _ _ => rfl, fun _ => .inl rfl, fun l' hu _ _ => ?_⟩, fun l' b hb => ?_,
    hp.inj, hp.uniq, fun l' h => by rw [hn]; exact hp.alloc l' h⟩
  · rw [hc, if_neg]
    rintro rfl; exact hu _ hl
  · obtain ⟨g₁, g₂, g₃⟩ := hp.user l' b hb
    rw [hc]
    by_cases h : l' = l
    · subst h
      rw [hl] at hb; cases hb
      rw [if_pos rfl]
      simp only [if_pos]
      exact ⟨g₁, h₁, h₂⟩
    · rw [if_neg h]
      have : b ≠ a := by rintro rfl; exact h (hp.inj _ _ _ hb hl)
      simp only [if_neg this]
      exact ⟨g₁, g₂, g₃⟩

/-- `eq?`. -/
theorem eq_core {W : World} {c : Cells} {id : Nat} {xs : Value} {v w : Val}
    (ha : ArgList free W c id xs [v, w]) {b : Bool}
    (h : ∀ x y, VRel free W v x → VRel free W w y →
      (x.hasIdentity && y.hasIdentity) = true ∧ x.same y = b) :
    core 9 xs c = .ok (.bool b) c := by
  obtain ⟨x, t, h₁, h₂, h₃, h₄⟩ := ha.one
  obtain ⟨y, t', g₁, g₂, -, -⟩ := h₄.one
  obtain ⟨k₁, k₂⟩ := h x y h₂ g₂
  simp only [core, h₁, h₃, g₁, Option.bind_eq_bind, Option.bind_some, k₁, k₂, if_pos,
    PrimResult.ofOption]

/-- The builtins of Model/Builtins.lean satisfy what the machine relies on. -/
theorem core_ok : PrimsOK free Scheme.core core := by
  constructor
  · intro p W ps ps' c id xs vs v hp ha h
    unfold Scheme.core at h
    split at h
    · -- cons
      cases h
      obtain ⟨x, t, h₁, h₂, h₃, h₄⟩ := ha.one
      obtain ⟨y, t', g₁, g₂, -, -⟩ := h₄.one
      obtain ⟨W', k₁, k₂, k₃⟩ := hp.cons h₂ g₂ id
      exact ⟨W', _, _, by simp only [core, h₁, h₃, g₁, Option.bind_eq_bind, Option.bind_some,
        PrimResult.ofOption], k₁, k₂, k₃⟩
    · -- car
      split at h
      · rename_i w hw
        cases h
        obtain ⟨x, t, h₁, h₂, h₃, h₄⟩ := ha.one
        obtain ⟨y, g₁, g₂⟩ := h₂.first hp hw
        exact ⟨W, y, c, by simp only [core, h₁, g₁, Option.bind_eq_bind, Option.bind_some,
          PrimResult.ofOption], .refl W c id, hp, g₂⟩
      · cases h
    · -- cdr
      split at h
      · rename_i w hw
        cases h
        obtain ⟨x, t, h₁, h₂, h₃, h₄⟩ := ha.one
        obtain ⟨y, g₁, g₂⟩ := h₂.second hp hw
        exact ⟨W, y, c, by simp only [core, h₁, g₁, Option.bind_eq_bind, Option.bind_some,
          PrimResult.ofOption], .refl W c id, hp, g₂⟩
      · cases h
    · -- set-car!
      cases h
      obtain ⟨x, t, h₁, h₂, h₃, h₄⟩ := ha.one
      obtain ⟨y, t', g₁, g₂, -, -⟩ := h₄.one
      cases h₂ with
      | @pair _ l hl =>
        rename_i a
        obtain ⟨k₁, k₂⟩ := hp.update hl (c' := c.setCar l y) (new := (v, (ps.pair a).2))
          (cell := (y, (c.cell l).2)) g₂ (hp.user l a hl).2.2 (fun _ => rfl) rfl id
        exact ⟨W, y, _, by simp only [core, h₁, h₃, g₁, Option.bind_eq_bind, Option.bind_some,
          PrimResult.ofOption], k₁, k₂, g₂⟩
    · -- set-cdr!
      cases h
      obtain ⟨x, t, h₁, h₂, h₃, h₄⟩ := ha.one
      obtain ⟨y, t', g₁, g₂, -, -⟩ := h₄.one
      cases h₂ with
      | @pair _ l hl =>
        rename_i a
        obtain ⟨k₁, k₂⟩ := hp.update hl (c' := c.setCdr l y) (new := ((ps.pair a).1, v))
          (cell := ((c.cell l).1, y)) (hp.user l a hl).2.1 g₂ (fun _ => rfl) rfl id
        exact ⟨W, y, _, by simp only [core, h₁, h₃, g₁, Option.bind_eq_bind, Option.bind_some,
          PrimResult.ofOption], k₁, k₂, g₂⟩
    · -- list
      cases h
      obtain ⟨W', k₁, k₂, k₃⟩ := hp.list ha
      exact ⟨W', xs, c, rfl, k₁, k₂, k₃⟩
    · cases h
      obtain ⟨x, t, h₁, h₂, h₃, h₄⟩ := ha.one
      exact ⟨W, _, c, by simp only [core, h₁, Option.bind_eq_bind, Option.bind_some,
        PrimResult.ofOption, h₂.isPair, Value.bool], .refl W c id, hp, .datum _⟩
    · cases h
      obtain ⟨x, t, h₁, h₂, h₃, h₄⟩ := ha.one
      exact ⟨W, _, c, by simp only [core, h₁, Option.bind_eq_bind, Option.bind_some,
        PrimResult.ofOption, h₂.isNull, Value.bool], .refl W c id, hp, .datum _⟩
    · cases h
      obtain ⟨x, t, h₁, h₂, h₃, h₄⟩ := ha.one
      exact ⟨W, _, c, by simp only [core, h₁, Option.bind_eq_bind, Option.bind_some,
        PrimResult.ofOption, h₂.truthy, Value.bool], .refl W c id, hp, .datum _⟩
    all_goals try (cases h; done)
    all_goals
      cases h
      refine ⟨W, _, c, eq_core ha fun x y hx hy => ?_, .refl W c id, hp, .datum _⟩
    · cases hx; cases hy; exact ⟨rfl, by simp [Value.same]⟩
    · cases hx; cases hy; exact ⟨rfl, by simp [Value.same]⟩
    · cases hx; cases hy; exact ⟨rfl, by simp [Value.same]⟩
    · rename_i a b
      cases hx with
      | @pair _ l hl =>
        cases hy with
        | @pair _ l' hl' =>
          refine ⟨rfl, ?_⟩
          have : l = l' ↔ a = b := by
            constructor
            · rintro rfl; rw [hl] at hl'; cases hl'; rfl
            · rintro rfl; exact hp.inj _ _ _ hl hl'
          simp [Value.same, this]
    · cases hx; cases hy; exact ⟨rfl, by simp [Value.same]⟩
    · cases hx; cases hy; exact ⟨rfl, by simp [Value.same]⟩
    · cases hx; cases hy; exact ⟨rfl, by simp [Value.same]⟩
    · cases hx; cases hy; exact ⟨rfl, by simp [Value.same]⟩
    · cases hx; cases hy; exact ⟨rfl, by simp [Value.same]⟩
  · intro p W ps ps' c id xs vs v hp ha h
    unfold Scheme.core at h
    split at h
    all_goals try (split at h <;> cases h; done)
    all_goals try (cases h; done)
    cases h
    obtain ⟨x, t, h₁, h₂, h₃, h₄⟩ := ha.one
    exact ⟨W, x, c, by simp only [core, h₁], .refl W c id, hp, h₂⟩

end Meevax.Secd
