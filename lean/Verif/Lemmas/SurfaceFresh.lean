import Verif.Lemmas.SurfaceReads

/-! Names that do not occur in a program, and the shape of what is read. -/

namespace Meevax.Surface

open Secd (Name)

mutual

theorem Expr.Avoids.anti {H H' : Name → Prop} (hH : ∀ x, H' x → H x) : ∀ {e : Expr}, e.Avoids H → e.Avoids H'
  | .const _, _ => by simp [Expr.Avoids]
  | .var x, h => by simp only [Expr.Avoids] at h ⊢; exact fun hx => h (hH _ hx)
  | .lam fs rest body, h => by
    simp only [Expr.Avoids] at h ⊢; exact ⟨fun x hx h' => h.1 x hx (hH _ h'), Expr.Avoids.anti hH h.2⟩
  | .app f args, h => by
    simp only [Expr.Avoids] at h ⊢; exact ⟨Expr.Avoids.anti hH h.1, Avoid.anti hH h.2⟩
  | .ite a b c, h => by
    simp only [Expr.Avoids] at h ⊢
    exact ⟨Expr.Avoids.anti hH h.1, Expr.Avoids.anti hH h.2.1, Expr.Avoids.anti hH h.2.2⟩
  | .set x e, h => by
    simp only [Expr.Avoids] at h ⊢; exact ⟨fun hx => h.1 (hH _ hx), Expr.Avoids.anti hH h.2⟩
  | .letrec xs es body, h => by
    simp only [Expr.Avoids] at h ⊢
    exact ⟨fun x hx h' => h.1 x hx (hH _ h'), Avoid.anti hH h.2.1, Expr.Avoids.anti hH h.2.2⟩
  | .seq a b, h => by
    simp only [Expr.Avoids] at h ⊢; exact ⟨Expr.Avoids.anti hH h.1, Expr.Avoids.anti hH h.2⟩
  | .orElse a b, h => by
    simp only [Expr.Avoids] at h ⊢; exact ⟨Expr.Avoids.anti hH h.1, Expr.Avoids.anti hH h.2⟩
  | .arrow a f b, h => by
    simp only [Expr.Avoids] at h ⊢
    exact ⟨Expr.Avoids.anti hH h.1, Expr.Avoids.anti hH h.2.1, Expr.Avoids.anti hH h.2.2⟩
  | .let_ xs es body, h => by
    simp only [Expr.Avoids] at h ⊢
    exact ⟨fun x hx h' => h.1 x hx (hH _ h'), Avoid.anti hH h.2.1, Expr.Avoids.anti hH h.2.2⟩
  | .named f xs es body, h => by
    simp only [Expr.Avoids] at h ⊢
    exact ⟨fun hx => h.1 (hH _ hx), fun x hx h' => h.2.1 x hx (hH _ h'),
      Avoid.anti (fun x hx => hx.imp (hH x) id) h.2.2.1, Expr.Avoids.anti hH h.2.2.2⟩
  | .loop xs es steps test res commands, h => by
    simp only [Expr.Avoids] at h ⊢
    exact ⟨fun x hx h' => h.1 x hx (hH _ h'), Avoid.anti hH h.2.1, Avoid.anti hH h.2.2.1,
      Expr.Avoids.anti hH h.2.2.2.1, Avoid.anti hH h.2.2.2.2.1, Avoid.anti hH h.2.2.2.2.2⟩

theorem Avoid.anti {H H' : Name → Prop} (hH : ∀ x, H' x → H x) : ∀ {es : List Expr}, Avoid es H → Avoid es H'
  | [], _ => by simp [Avoid]
  | e :: es, h => by simp only [Avoid] at h ⊢; exact ⟨Expr.Avoids.anti hH h.1, Avoid.anti hH h.2⟩

end

theorem list_bound (xs : List Name) : ∃ N : Nat, ∀ x ∈ xs, x < N := by
  induction xs with
  | nil => exact ⟨0, by simp⟩
  | cons a xs ih =>
    obtain ⟨N, h⟩ := ih
    refine ⟨max N (a + 1), fun x hx => ?_⟩
    rcases List.mem_cons.1 hx with rfl | hx
    · exact Nat.lt_of_lt_of_le (Nat.lt_succ_self _) (Nat.le_max_right _ _)
    · exact Nat.lt_of_lt_of_le (h x hx) (Nat.le_max_left _ _)

/-- Names from `N` on do not occur in the expression. -/
def Expr.Below (e : Expr) (N : Nat) : Prop := ∀ H H' : Name → Prop, (∀ x, H' x → N ≤ x) → e.Avoids H →
  e.Avoids fun x => H x ∨ H' x

def Below (es : List Expr) (N : Nat) : Prop := ∀ H H' : Name → Prop, (∀ x, H' x → N ≤ x) → Avoid es H →
  Avoid es fun x => H x ∨ H' x

theorem Expr.Below.mono {e : Expr} {N N' : Nat} (h : e.Below N) (hN : N ≤ N') : e.Below N' :=
  fun H H' h' => h H H' fun x hx => Nat.le_trans hN (h' x hx)

theorem Below.mono {es : List Expr} {N N' : Nat} (h : Below es N) (hN : N ≤ N') : Below es N' :=
  fun H H' h' => h H H' fun x hx => Nat.le_trans hN (h' x hx)

theorem not_or_of {H H' : Name → Prop} {N : Nat} {x : Name} (h : ∀ x, H' x → N ≤ x) (hx : x < N) (hH : ¬ H x) :
    ¬ (H x ∨ H' x) := by
  rintro (h' | h')
  · exact hH h'
  · exact absurd (h x h') (Nat.not_le.2 hx)

mutual

theorem Expr.bounded : ∀ e : Expr, ∃ N, ∀ N' ≥ N, e.Below N'
  | .const _ => ⟨0, fun _ _ H H' _ _ => by simp [Expr.Avoids]⟩
  | .var x => ⟨x + 1, fun N hN H H' h ha => by
      simp only [Expr.Avoids] at ha ⊢; exact not_or_of h hN ha⟩
  | .lam fs rest body => by
    obtain ⟨N₁, h₁⟩ := list_bound (fs ++ rest.toList)
    obtain ⟨N₂, h₂⟩ := Expr.bounded body
    refine ⟨max N₁ N₂, fun N hN H H' h ha => ?_⟩
    simp only [Expr.Avoids] at ha ⊢
    exact ⟨fun x hx => not_or_of h (Nat.lt_of_lt_of_le (h₁ x hx) (by omega)) (ha.1 x hx), h₂ N (by omega) H H' h ha.2⟩
  | .app f args => by
    obtain ⟨N₁, h₁⟩ := Expr.bounded f
    obtain ⟨N₂, h₂⟩ := bounded args
    refine ⟨max N₁ N₂, fun N hN H H' h ha => ?_⟩
    simp only [Expr.Avoids] at ha ⊢
    exact ⟨h₁ N (by omega) H H' h ha.1, h₂ N (by omega) H H' h ha.2⟩
  | .ite a b c => by
    obtain ⟨N₁, h₁⟩ := Expr.bounded a
    obtain ⟨N₂, h₂⟩ := Expr.bounded b
    obtain ⟨N₃, h₃⟩ := Expr.bounded c
    refine ⟨max N₁ (max N₂ N₃), fun N hN H H' h ha => ?_⟩
    simp only [Expr.Avoids] at ha ⊢
    exact ⟨h₁ N (by omega) H H' h ha.1, h₂ N (by omega) H H' h ha.2.1, h₃ N (by omega) H H' h ha.2.2⟩
  | .set x e => by
    obtain ⟨N₁, h₁⟩ := Expr.bounded e
    refine ⟨max N₁ (x + 1), fun N hN H H' h ha => ?_⟩
    simp only [Expr.Avoids] at ha ⊢
    exact ⟨not_or_of h (Nat.lt_of_lt_of_le (Nat.lt_succ_self x) (Nat.le_trans (Nat.le_max_right _ _) hN)) ha.1,
      h₁ N (by omega) H H' h ha.2⟩
  | .letrec xs es body => by
    obtain ⟨N₁, h₁⟩ := list_bound xs
    obtain ⟨N₂, h₂⟩ := bounded es
    obtain ⟨N₃, h₃⟩ := Expr.bounded body
    refine ⟨max N₁ (max N₂ N₃), fun N hN H H' h ha => ?_⟩
    simp only [Expr.Avoids] at ha ⊢
    exact ⟨fun x hx => not_or_of h (Nat.lt_of_lt_of_le (h₁ x hx) (by omega)) (ha.1 x hx),
      h₂ N (by omega) H H' h ha.2.1, h₃ N (by omega) H H' h ha.2.2⟩
  | .seq a b => by
    obtain ⟨N₁, h₁⟩ := Expr.bounded a
    obtain ⟨N₂, h₂⟩ := Expr.bounded b
    refine ⟨max N₁ N₂, fun N hN H H' h ha => ?_⟩
    simp only [Expr.Avoids] at ha ⊢
    exact ⟨h₁ N (by omega) H H' h ha.1, h₂ N (by omega) H H' h ha.2⟩
  | .orElse a b => by
    obtain ⟨N₁, h₁⟩ := Expr.bounded a
    obtain ⟨N₂, h₂⟩ := Expr.bounded b
    refine ⟨max N₁ N₂, fun N hN H H' h ha => ?_⟩
    simp only [Expr.Avoids] at ha ⊢
    exact ⟨h₁ N (by omega) H H' h ha.1, h₂ N (by omega) H H' h ha.2⟩
  | .arrow a b c => by
    obtain ⟨N₁, h₁⟩ := Expr.bounded a
    obtain ⟨N₂, h₂⟩ := Expr.bounded b
    obtain ⟨N₃, h₃⟩ := Expr.bounded c
    refine ⟨max N₁ (max N₂ N₃), fun N hN H H' h ha => ?_⟩
    simp only [Expr.Avoids] at ha ⊢
    exact ⟨h₁ N (by omega) H H' h ha.1, h₂ N (by omega) H H' h ha.2.1, h₃ N (by omega) H H' h ha.2.2⟩
  | .let_ xs es body => by
    obtain ⟨N₁, h₁⟩ := list_bound xs
    obtain ⟨N₂, h₂⟩ := bounded es
    obtain ⟨N₃, h₃⟩ := Expr.bounded body
    refine ⟨max N₁ (max N₂ N₃), fun N hN H H' h ha => ?_⟩
    simp only [Expr.Avoids] at ha ⊢
    exact ⟨fun x hx => not_or_of h (Nat.lt_of_lt_of_le (h₁ x hx) (by omega)) (ha.1 x hx),
      h₂ N (by omega) H H' h ha.2.1, h₃ N (by omega) H H' h ha.2.2⟩
  | .named f xs es body => by
    obtain ⟨N₁, h₁⟩ := list_bound (f :: xs)
    obtain ⟨N₂, h₂⟩ := bounded es
    obtain ⟨N₃, h₃⟩ := Expr.bounded body
    refine ⟨max N₁ (max N₂ N₃), fun N hN H H' h ha => ?_⟩
    simp only [Expr.Avoids] at ha ⊢
    refine ⟨not_or_of h (Nat.lt_of_lt_of_le (h₁ f (by simp)) (by omega)) ha.1,
      fun x hx => not_or_of h (Nat.lt_of_lt_of_le (h₁ x (by simp [hx])) (by omega)) (ha.2.1 x hx), ?_,
      h₃ N (by omega) H H' h ha.2.2.2⟩
    refine Avoid.anti ?_ (h₂ N (by omega) _ H' h ha.2.2.1)
    rintro x ((hx | hx) | hx)
    · exact .inl (.inl hx)
    · exact .inr hx
    · exact .inl (.inr hx)
  | .loop xs es steps test res commands => by
    obtain ⟨N₁, h₁⟩ := list_bound xs
    obtain ⟨N₂, h₂⟩ := bounded es
    obtain ⟨N₃, h₃⟩ := bounded steps
    obtain ⟨N₄, h₄⟩ := Expr.bounded test
    obtain ⟨N₅, h₅⟩ := bounded res
    obtain ⟨N₆, h₆⟩ := bounded commands
    refine ⟨max N₁ (max N₂ (max N₃ (max N₄ (max N₅ N₆)))), fun N hN H H' h ha => ?_⟩
    simp only [Expr.Avoids] at ha ⊢
    exact ⟨fun x hx => not_or_of h (Nat.lt_of_lt_of_le (h₁ x hx) (by omega)) (ha.1 x hx),
      h₂ N (by omega) H H' h ha.2.1, h₃ N (by omega) H H' h ha.2.2.1, h₄ N (by omega) H H' h ha.2.2.2.1,
      h₅ N (by omega) H H' h ha.2.2.2.2.1, h₆ N (by omega) H H' h ha.2.2.2.2.2⟩

theorem bounded : ∀ es : List Expr, ∃ N, ∀ N' ≥ N, Below es N'
  | [] => ⟨0, fun _ _ H H' _ _ => by simp [Avoid]⟩
  | e :: es => by
    obtain ⟨N₁, h₁⟩ := Expr.bounded e
    obtain ⟨N₂, h₂⟩ := bounded es
    refine ⟨max N₁ N₂, fun N hN H H' h ha => ?_⟩
    simp only [Avoid] at ha ⊢
    exact ⟨h₁ N (by omega) H H' h ha.1, h₂ N (by omega) H H' h ha.2⟩

end

/-- There are two names that do not occur in the program. -/
theorem exists_fresh {es : List Expr} (h : Avoid es fun _ => False) :
    ∃ t r : Name, t ≠ r ∧ Avoid es fun x => x = t ∨ x = r := by
  obtain ⟨N, hN⟩ := bounded es
  refine ⟨N, N + 1, Nat.ne_of_lt (Nat.lt_succ_self N), ?_⟩
  refine Avoid.anti ?_ (hN N (Nat.le_refl _) (fun _ => False) (fun x => x = N ∨ x = N + 1) ?_ h)
  · exact fun x hx => .inr hx
  · rintro x (rfl | rfl)
    · exact Nat.le_refl _
    · exact Nat.le_succ _

end Meevax.Surface

namespace Meevax.Expand

open Secd (Name)
open Spec
open Surface (seqs cores)

variable {C : Ctx} {ids : Macro → Nat} {sc : Scheme.Scopes} {t r : Name}

theorem list_length {fs : List Form} : ∀ {es : List Surface.Expr}, Reads C ids sc (.ofList fs) (.list es) →
    es.length = fs.length := by
  induction fs with
  | nil => intro es h; cases h; rfl
  | cons f fs ih =>
    intro es h
    generalize hg : Form.ofList (f :: fs) = g at h
    cases h with
    | nil => cases hg
    | cons _ h =>
      cases hg
      simp [ih h]

theorem seqs_placed {b : Bool} : ∀ {es : List Scheme.Expr}, (∀ e ∈ es, ∀ b, Scheme.Placed b e) →
    Scheme.Placed b (seqs es)
  | [], _ => .const _ _
  | [e], h => h e (by simp) b
  | e :: e' :: es, h => .seq (h e (by simp) _) (seqs_placed (es := e' :: es) fun x hx => h x (by simp [hx]))

/-- The translation has its letrec expressions in shape. -/
def Spec.Phrase.Placed (t r : Name) : Phrase → Prop
  | .list es => ∀ e ∈ cores t r es, ∀ b, Scheme.Placed b e
  | .expr e => ∀ b, Scheme.Placed b (e.core t r)
  | .body e => ∀ b, Scheme.Placed b (e.core t r)
  | .defs _ es => ∀ e ∈ cores t r es, ∀ b, Scheme.Placed b e
  | .cond e => ∀ b, Scheme.Placed b (e.core t r)
  | .and e => ∀ b, Scheme.Placed b (e.core t r)
  | .or e => ∀ b, Scheme.Placed b (e.core t r)
  | .letStar e => ∀ b, Scheme.Placed b (e.core t r)

theorem test_placed {b : Bool} {x y z : Scheme.Expr} (hx : ∀ b, Scheme.Placed b x) (hy : ∀ b, Scheme.Placed b y)
    (hz : ∀ b, Scheme.Placed b z) : Scheme.Placed b (.app (.lam [t] none (.ite (.var t) y z)) [x]) :=
  .app _ (.lam _ _ _ (.ite (.var _ _) (hy _) (hz _))) (by simpa using hx false)

theorem mem_zipWith {xs : List Name} {es : List Scheme.Expr} {a : Scheme.Expr} :
    a ∈ List.zipWith Scheme.Expr.set xs es → ∃ x, ∃ y, y ∈ es ∧ a = .set x y := by
  induction xs generalizing es with
  | nil => simp
  | cons x xs ih =>
    cases es with
    | nil => simp
    | cons e es =>
      simp only [List.zipWith_cons_cons, List.mem_cons]
      rintro (rfl | h)
      · exact ⟨x, e, .inl rfl, rfl⟩
      · obtain ⟨y, z, hz, rfl⟩ := ih h
        exact ⟨y, z, .inr hz, rfl⟩

theorem reads_placed {form : Form} {p : Phrase} (h : Reads C ids sc form p) : p.Placed t r := by
  induction h with
  | var => intro b; simp only [Surface.Expr.core]; exact .var _ _
  | const => intro b; simp only [Surface.Expr.core]; exact .const _ _
  | quote => intro b; simp only [Surface.Expr.core]; exact .const _ _
  | lam _ _ _ ih =>
    intro b; simp only [Surface.Expr.core]; exact .lam _ _ _ (ih _)
  | app _ _ ih₁ ih₂ => intro b; simp only [Surface.Expr.core]; exact .app _ (ih₁ _) fun a ha => ih₂ a ha _
  | when _ _ _ ih₁ ih₂ =>
    intro b; simp only [Surface.Expr.core]; exact .ite (ih₁ _) (ih₂ _) (.const _ _)
  | ite _ _ _ _ ih₁ ih₂ ih₃ => intro b; simp only [Surface.Expr.core]; exact .ite (ih₁ _) (ih₂ _) (ih₃ _)
  | set _ _ ih => intro b; simp only [Surface.Expr.core]; exact .set _ _ (ih _)
  | begin _ _ _ ih => intro b; simp only [Surface.core_sequence]; exact seqs_placed ih
  | letrec _ _ hl h _ ih₁ ih₂ =>
    intro b
    simp only [Surface.Expr.core]
    exact .letrec _ _ (by rw [Surface.cores_eq, List.length_map, list_length h, hl]) (fun a ha => ih₁ a ha _)
      (ih₂ _)
  | cond _ _ ih => exact ih
  | and _ _ ih => exact ih
  | or _ _ ih => exact ih
  | letStar _ _ ih => exact ih
  | let_ _ _ _ _ _ ih₁ ih₂ =>
    intro b
    simp only [Surface.Expr.core]
    exact .app _ (.lam _ _ _ (ih₂ _)) fun a ha => ih₁ a ha _
  | named _ _ _ _ _ _ _ _ ih₁ ih₂ =>
    intro b
    simp only [Surface.Expr.core]
    exact .letrec _ _ rfl (by simpa using .lam _ _ _ (ih₂ _)) (.app _ (.var _ _) fun a ha => ih₁ a ha _)
  | do_ _ _ _ _ _ _ _ ih₁ ih₂ ih₃ ih₄ ih₅ =>
    intro b
    simp only [Surface.Expr.core]
    have ha : ∀ b, Scheme.Placed b (Surface.again r (cores t r _) (cores t r _)) := fun b => by
      refine seqs_placed ?_
      intro e he b
      rcases List.mem_append.1 he with he | he
      · exact ih₅ e he b
      · obtain rfl := List.mem_singleton.1 he
        exact .app _ (.var _ _) fun a ha => ih₂ a ha _
    refine .letrec _ _ rfl ?_ (.app _ (.var _ _) fun a ha => ih₁ a ha _)
    simp only [List.mem_singleton, forall_eq]
    refine .lam _ _ _ ?_
    unfold Surface.loopBody
    split
    · exact test_placed ih₃ (fun _ => .var _ _) ha
    · exact .ite (ih₃ _) (seqs_placed ih₄) (ha _)
  | nil => intro e he; simp [cores] at he
  | cons _ _ ih₁ ih₂ =>
    intro e he
    simp only [cores, List.mem_cons] at he
    rcases he with rfl | he
    · exact ih₁
    · exact ih₂ e he
  | exprs _ _ ih => intro b; simp only [Surface.core_sequence]; exact seqs_placed ih
  | @internal sc xs fs ds b bs es e es' d _ _ _ _ hdefs _ _ _ ih₁ ih₂ ih₃ =>
    intro b
    simp only [internal, Surface.Expr.core, Surface.core_sequence]
    refine .app _ (.lam _ _ _ (seqs_placed ?_)) ?_
    · intro a ha b
      rw [cores_append, cores_sets, List.mem_append] at ha
      rcases ha with ha | ha
      · obtain ⟨x, y, hxy, rfl⟩ := mem_zipWith ha
        exact .set _ _ (ih₁ y hxy _)
      · simp only [cores, List.mem_cons] at ha
        rcases ha with rfl | ha
        · exact ih₂ _
        · exact ih₃ a ha _
    · intro a ha
      rw [Surface.cores_eq] at ha
      obtain ⟨y, hy, rfl⟩ := List.mem_map.1 ha
      obtain ⟨x, -, rfl⟩ := List.mem_map.1 hy
      simp only [Surface.Expr.core]
      exact .const _ _
  | defsNil => intro e he; simp [cores] at he
  | defsVar _ _ _ ih₁ ih₂ =>
    intro e he
    simp only [cores, List.mem_cons] at he
    rcases he with rfl | he
    · exact ih₁
    · exact ih₂ e he
  | defsFun _ _ _ _ ih₁ ih₂ =>
    intro e he
    simp only [cores, List.mem_cons] at he
    rcases he with rfl | he
    · intro b
      simp only [Surface.Expr.core]
      exact .lam _ _ _ (ih₁ _)
    · exact ih₂ e he
  | condNil => intro b; simp only [Surface.Expr.core]; exact .const _ _
  | condElse _ _ _ ih => intro b; simp only [Surface.core_sequence]; exact seqs_placed ih
  | condTest _ _ _ ih₁ ih₂ =>
    intro b; simp only [Surface.Expr.core]; exact test_placed ih₁ (fun _ => .var _ _) ih₂
  | condArrow _ _ _ _ _ ih₁ ih₂ ih₃ =>
    intro b
    simp only [Surface.Expr.core]
    exact test_placed ih₁ (fun _ => .app _ (ih₂ _) (by simpa using .var _ _)) ih₃
  | condBody _ _ _ _ _ ih₁ ih₂ ih₃ =>
    intro b; simp only [Surface.Expr.core, Surface.core_sequence]; exact .ite (ih₁ _) (seqs_placed ih₂) (ih₃ _)
  | andNil => intro b; simp only [Surface.Expr.core]; exact .const _ _
  | andOne _ _ ih => exact ih
  | andCons _ _ ih₁ ih₂ => intro b; simp only [Surface.Expr.core]; exact .ite (ih₁ _) (ih₂ _) (.const _ _)
  | orNil => intro b; simp only [Surface.Expr.core]; exact .const _ _
  | orOne _ _ ih => exact ih
  | orCons _ _ ih₁ ih₂ =>
    intro b; simp only [Surface.Expr.core]; exact test_placed ih₁ (fun _ => .var _ _) ih₂
  | letStarNil _ ih =>
    intro b
    simp only [Surface.Expr.core]
    exact .app _ (.lam _ _ _ (ih _)) (by simp [cores])
  | letStarCons _ _ _ ih₁ ih₂ =>
    intro b
    simp only [Surface.Expr.core, cores]
    exact .app _ (.lam _ _ _ (ih₂ _)) (by simpa using ih₁ false)

/-! ## The templates are made of the form and of inserted symbols -/

variable {base : Nat}

theorem src_tlist {ts : List Template} (h : ∀ t ∈ ts, SrcT base t) : SrcT base (tlist ts) := by
  induction ts with
  | nil => simp [tlist, SrcT, Src]
  | cons t ts ih =>
    simp only [tlist, SrcT]
    exact ⟨h t (by simp), ih fun x hx => h x (by simp [hx])⟩

theorem src_rsym (x : Name) : SrcT base (rsym x) := by simp [rsym, SrcT, Src, Form.isIdentifier]

theorem src_rcons {x : Name} {d : Form} (h : Src base d) : SrcT base (rcons x d) := by
  simp only [rcons, SrcT]; exact ⟨src_rsym x, h⟩

theorem src_cars {f : Form} (h : Src base f) : Src base (cars f) := by
  fun_induction cars f with
  | case1 a _ d ih => simp only [Src] at h ⊢; exact ⟨h.1.1, ih h.2⟩
  | case2 => simp [Src]

theorem src_cadrs {f : Form} (h : Src base f) : Src base (cadrs f) := by
  fun_induction cadrs f with
  | case1 _ a _ d ih => simp only [Src] at h ⊢; exact ⟨h.1.2.1, ih h.2⟩
  | case2 => simp [Src]

theorem src_splice {f : Form} {T : Template} (h : Src base f) (hT : SrcT base T) : SrcT base (splice f T) := by
  fun_induction splice f T with
  | case1 a d T ih => simp only [Src] at h; simp only [SrcT]; exact ⟨h.1, ih h.2 hT⟩
  | case2 => exact hT

theorem src_doSteps {f : Form} (h : Src base f) : SrcT base (doSteps f) := by
  fun_induction doSteps f with
  | case1 _ _ s _ d ih => simp only [Src] at h; simp only [SrcT]; exact ⟨h.1.2.2.1, ih h.2⟩
  | case2 x _ d _ ih => simp only [Src] at h; simp only [SrcT]; exact ⟨h.1.1, ih h.2⟩
  | case3 => simp [SrcT, Src]

theorem src_doBindings {f : Form} (h : Src base f) : SrcT base (doBindings f) := by
  fun_induction doBindings f with
  | case1 x e _ d ih =>
    simp only [Src] at h
    simp only [SrcT, tlist, Src]
    exact ⟨⟨h.1.1, h.1.2.1, trivial⟩, ih h.2⟩
  | case2 => simp [SrcT, Src]

theorem src_use {f : Form} (h : Src base f) : SrcT base (.use f) := h

theorem src_condResult {test d : Form} {T : Template} (h : Src base test) (hT : SrcT base T) (hd : Src base d) :
    SrcT base (condResult test T d) := by
  simp only [condResult, tlist, SrcT, Src, and_true]
  exact ⟨⟨src_rsym _, src_rsym _, src_rsym _, src_rsym _, hT, src_rcons hd⟩, h⟩

/-- The templates of the library meet the requirement of `Ready`. -/
theorem src_template (k : Macro) {f : Form} (h : Src base f) : SrcT base (k.template f) := by
  cases k with
  | cond =>
    simp only [Macro.template]
    fun_cases condTemplate f <;> try simp only [Src] at h
    all_goals first
      | exact src_condResult h.2.1.1 (src_rsym _) h.2.2
      | exact src_condResult h.2.1.1 (by simp only [tlist, SrcT, Src, and_true]; exact ⟨h.2.1.2.2.1, src_rsym _⟩) h.2.2
      | exact src_rcons h.2.1.2
      | (simp only [tlist, SrcT, Src, and_true]
         exact ⟨src_rsym _, h.2.1.1, src_rcons (by simp only [Src]; exact h.2.1.2), src_rcons h.2.2⟩)
      | simp [SrcT, Src]
  | and =>
    simp only [Macro.template]
    fun_cases andTemplate f <;> try simp only [Src] at h
    all_goals first
      | exact h.2.1
      | (simp only [tlist, SrcT, Src, and_true]; exact ⟨src_rsym _, h.2.1, src_rcons h.2.2⟩)
      | simp [SrcT, Src]
  | or =>
    simp only [Macro.template]
    fun_cases orTemplate f <;> try simp only [Src] at h
    all_goals first
      | exact h.2.1
      | (simp only [tlist, SrcT, Src, and_true]
         exact ⟨⟨src_rsym _, src_rsym _, src_rsym _, src_rsym _, src_rsym _, src_rcons h.2.2⟩, h.2.1⟩)
      | simp [SrcT, Src]
  | let_ =>
    simp only [Macro.template]
    fun_cases letTemplate f <;> try simp only [Src] at h
    all_goals first
      | (simp only [tlist, SrcT, Src, and_true]
         exact ⟨src_rsym _, ⟨h.2.1, src_rsym _, src_cars h.2.2.1, h.2.2.2⟩, h.2.1, src_cadrs h.2.2.1⟩)
      | (simp only [SrcT]; exact ⟨⟨src_rsym _, src_cars h.2.1, h.2.2⟩, src_cadrs h.2.1⟩)
      | simp [SrcT, Src]
  | letStar =>
    simp only [Macro.template]
    fun_cases letStarTemplate f <;> try simp only [Src] at h
    all_goals first
      | (simp only [tlist, SrcT, Src, and_true]
         exact ⟨src_rsym _, h.2.1.1, src_rsym _, h.2.1.2, h.2.2⟩)
      | (simp only [SrcT, Src]; exact ⟨src_rsym _, trivial, h.2.2⟩)
      | simp [SrcT, Src]
  | do_ =>
    simp only [Macro.template]
    fun_cases doTemplate f <;> try simp only [Src] at h
    · rename_i specs test res commands _
      have hb : SrcT base (.pair (rsym beginName) (splice commands (tlist [.pair (rsym recName) (doSteps specs)]))) := by
        simp only [SrcT]
        refine ⟨src_rsym _, src_splice h.2.2.2 ?_⟩
        simp only [tlist, SrcT, Src, and_true]
        exact ⟨src_rsym _, src_doSteps h.2.1⟩
      refine src_tlist ?_
      simp only [List.mem_cons, List.not_mem_nil, or_false, forall_eq_or_imp, forall_eq]
      refine ⟨src_rsym _, src_rsym _, src_doBindings h.2.1, ?_⟩
      split
      · simp only [tlist, SrcT, Src, and_true]
        exact ⟨src_rsym _, ⟨src_rsym _, h.2.2.1.1⟩, src_rsym _, src_rsym _, src_rsym _, hb⟩
      · simp only [tlist, SrcT, Src, and_true]
        exact ⟨src_rsym _, h.2.2.1.1, src_rcons h.2.2.1.2, hb⟩
    · simp [SrcT, Src]

end Meevax.Expand
