import Verif.Lemmas.RulesTail

/-!
The loop of `expand-pattern`: it makes a text that matches the pattern.
-/

namespace Meevax.Rules

open Spec

variable {D : Def}

theorem vars_rotated {p q : Form} {e : Nat} (he : IsEllipsis D e)
    (h : (vars D (.cons p (.cons (.id e) q))).Nodup) : (vars D (rotated p e q)).Nodup := by
  have h0 : vars D (.id e) = [] := by
    have : ¬IsVar D e := fun h => h.2.2 he
    simp [vars, this]
  simp only [rotated, vars, List.append_nil]
  simp only [vars] at h h0
  rw [h0] at h ⊢
  simp only [List.nil_append, List.append_nil] at h ⊢
  rw [List.nodup_append] at h ⊢
  exact ⟨h.2.1, h.1, fun a ha b hb e => h.2.2 b hb a ha e.symm⟩

theorem ok_rotated {p q : Form} {e : Nat} (he : IsEllipsis D e) (hp : PatternOk D p)
    (hx : ∀ x, p = .id x → ¬IsLit D x)
    (hi : (∀ x, p ≠ .id x) → ∀ x ∈ ids p, ¬IsLit D x → ¬IsEllipsis D x → D.inserted x = false)
    (hq : PatternOk D q) : PatternOk D (rotated p e q) :=
  .pair trivial hq (.pair trivial (.more he hp hx hi trivial .nil) .nil)

theorem need_rotated (hD : DefOk D) {p q : Form} {e : Nat} (he : IsEllipsis D e) (hq : q ≠ .nil) :
    need D (rotated p e q) + 1 ≤ need D (.cons p (.cons (.id e) q)) := by
  have h1 : D.isEllipsis (.cons p (.cons (.id e) q)) = true := (isEllipsis_iff hD).2 ⟨_, _, rfl, he⟩
  have h2 : D.isEllipsis (.cons p (.cons (.id e) .nil)) = true := (isEllipsis_iff hD).2 ⟨_, _, rfl, he⟩
  have h3 : need D (.cons p (.cons (.id e) .nil)) = need D p + 1 := by
    rw [need, if_pos h2, if_pos rfl]
  have h4 : need D (.cons p (.cons (.id e) q)) = max (need D q) (need D p + 2) + 2 := by
    rw [need, if_pos h1, if_neg hq]
  have h5 : need D (rotated p e q) = max (need D q) (need D p + 2) + 1 := by
    rw [rotated, need_pair ((isEllipsis_false hD (d := .cons (.cons p (.cons (.id e) .nil)) .nil)).2 trivial),
      need_pair ((isEllipsis_false hD (d := .nil)).2 trivial), h3]
    have : need D .nil = 1 := rfl
    omega
  omega

theorem varAt_rotated {p q : Form} {e : Nat} (he : IsEllipsis D e) {x k : Nat} :
    VarAt D (rotated p e q) x k ↔ VarAt D (.cons p (.cons (.id e) q)) x k := by
  constructor
  · intro h
    have hd : ∀ {a d : Form}, NoEllipsis (IsEllipsis D) d → VarAt D (.cons a d) x k →
        VarAt D a x k ∨ VarAt D d x k := by
      intro a d hn h
      generalize hq : Form.cons a d = r at h
      cases h with
      | id _ => cases hq
      | car _ h' => cases hq; exact .inl h'
      | cdr _ h' => cases hq; exact .inr h'
      | more he _ => cases hq; exact absurd he hn
      | tail he _ => cases hq; exact absurd he hn
      | vec _ => cases hq
    rcases hd (d := .cons (.cons p (.cons (.id e) .nil)) .nil) trivial h with h | h
    · exact .tail he h
    · rcases hd (d := .nil) trivial h with h | h
      · generalize hq : Form.cons p _ = r at h
        cases h with
        | id _ => cases hq
        | car hn h' => cases hq; exact absurd he hn
        | cdr hn h' => cases hq; exact absurd he hn
        | more _ h' => cases hq; exact .more he h'
        | tail _ h' => cases hq; cases h'
        | vec _ => cases hq
      · cases h
  · intro h
    generalize hq : Form.cons p _ = r at h
    cases h with
    | id _ => cases hq
    | car hn h' => cases hq; exact absurd he hn
    | cdr hn h' => cases hq; exact absurd he hn
    | more _ h' => cases hq; exact .cdr trivial (.car trivial (.more he h'))
    | tail _ h' => cases hq; exact .car trivial h'
    | vec _ => cases hq

/-- The text for a pattern and the rest, in one place. -/
def Compiles (D : Def) (f : Nat) (p : Form) (x : Exp) (dim c : Nat) : Prop :=
  ∃ (c₁ : Nat) (nv : Vars) (wrap : Exp → Exp), c ≤ c₁ ∧ NewVars D p dim nv ∧
    (∀ vs k, D.lp f p x dim vs k c = (k (nv ++ vs) c₁).map fun r => (wrap r.1, r.2)) ∧
    ∀ U, Sem D U p x c c₁ wrap

/-- An atomic pattern that binds nothing: a test. -/
theorem compiles_test {f : Nat} {p : Form} {x : Exp} {dim c : Nat} {test : Exp} (hnv : NewVars D p dim [])
    (hlp : ∀ vs k, D.lp f p x dim vs k c = (k vs (c + 1)).map fun r =>
      (.bind [(.gen (c + 1), x)] (.and test r.1), r.2))
    (h : ∀ U ρ F, Env.get ρ (.gen (c + 1)) = some (.form F) →
      (Ev U ρ test (.bool true) ∧ Match D U p F []) ∨
        (Ev U ρ test (.bool false) ∧ ∀ σ, ¬Match D U p F σ))
    (hσ : ∀ U F σ, Match D U p F σ → σ = []) : Compiles D f p x dim c := by
  refine ⟨c + 1, [], fun e => .bind [(.gen (c + 1), x)] (.and test e), by omega, hnv, hlp, ?_⟩
  intro U
  refine Sem.named (by omega) ?_
  intro ek ρ F hg hv
  rcases h U ρ F hv with ⟨h1, h2⟩ | ⟨h1, h2⟩
  · refine ⟨fun σ hm => ?_, fun hn => absurd h2 (hn _)⟩
    rw [hσ U F σ hm]
    exact ⟨ρ, Ext.refl, fun r hr => Ev.andTrue h1 hr⟩
  · exact ⟨fun σ hm => absurd hm (h2 σ), fun _ => Ev.andFalse h1⟩

theorem newVars_none {p : Form} {dim : Nat} (h : ∀ x k, ¬VarAt D p x k) : NewVars D p dim [] :=
  ⟨by simp, by simp, fun y k hv => absurd hv (h y k)⟩

theorem lp_compiles (hD : DefOk D) : ∀ (f : Nat) (p : Form), need D p ≤ f → PatternOk D p →
    (vars D p).Nodup → ∀ x dim c, Compiles D f p x dim c := by
  intro f
  induction f with
  | zero =>
    intro p hn
    exfalso
    revert hn
    fun_induction need D p <;> omega
  | succ f ih =>
    intro p hn hp hl x dim c
    cases hp with
    | id hne =>
      rename_i y
      by_cases hlit : IsLit D y
      · have hb := isLit_iff.2 hlit
        refine compiles_test (test := .prim2 .compare (.var (.gen (c + 1))) (.rename y)) ?_ ?_ ?_ ?_
        · exact newVars_none (by intro x k hv; cases hv with | id h => exact h.1 hlit)
        · intro vs k
          rw [Def.lp]
          simp only [hb, if_true, Option.map_map]
          rfl
        · intro U ρ F hv
          have h0 : ∀ b, Prim2.apply U .compare F (.id (U.rename y)) = some (.bool b) →
              Ev U ρ (.prim2 .compare (.var (.gen (c + 1))) (.rename y)) (.bool b) :=
            fun b hb => Ev.prim2 (Ev.varForm hv) (Ev.rename _) hb
          cases F with
          | id z =>
            cases hc : U.compare z (U.rename y) with
            | true => exact .inl ⟨h0 _ (by simp [Prim2.apply, hc]), .lit hlit hc⟩
            | false =>
              refine .inr ⟨h0 _ (by simp [Prim2.apply, hc]), ?_⟩
              intro σ hm
              cases hm with
              | lit _ h => rw [hc] at h; cases h
              | under h => exact h.2 hlit
              | var h => exact h.1 hlit
              | datum h => exact h
          | _ =>
            refine .inr ⟨h0 _ rfl, ?_⟩
            intro σ hm
            cases hm with
            | under h => exact h.2 hlit
            | var h => exact h.1 hlit
        · intro U F σ hm
          cases hm with
          | lit _ _ => rfl
          | under h => exact absurd hlit h.2
          | var h => exact absurd hlit h.1
          | datum h => rfl
      · have hb : D.isLit y = false := by rw [← Bool.not_eq_true, isLit_iff]; exact hlit
        cases hu : D.compare y D.under with
        | true =>
          have hun : IsUnder D y := ⟨hu, hlit⟩
          refine ⟨c + 1, [], fun e => .bind [(.gen (c + 1), x)] e, by omega, ?_, ?_, ?_⟩
          · exact newVars_none (by intro x k hv; cases hv with | id h => exact h.2.1 hun)
          · intro vs k
            rw [Def.lp]
            simp only [hb, hu, if_true]
            rfl
          · intro U
            refine Sem.named (wrap := fun e => e) (by omega) ?_
            intro ek ρ F hg hv
            refine ⟨fun σ hm => ⟨ρ, ?_, fun r hr => hr⟩, fun hn => absurd (.under hun) (hn [])⟩
            have : σ = [] := by
              cases hm with
              | lit h _ => exact absurd h hlit
              | under _ => rfl
              | var h => exact absurd hun h.2.1
              | datum h => rfl
            rw [this]
            exact Ext.refl
        | false =>
          have hvar : IsVar D y := ⟨hlit, (fun h => by have h1 := h.1; rw [hu] at h1; cases h1), hne⟩
          refine ⟨c + 1, [(y, dim)], fun e => .bind [(.gen (c + 1), x)] (.bind [(.pat y, .var (.gen (c + 1)))] e),
            by omega, ?_, ?_, ?_⟩
          · refine ⟨?_, ?_, ?_⟩
            · intro z d hz; simp at hz; simp [ids, hz]
            · intro z d hz _; simp at hz; obtain ⟨rfl, rfl⟩ := hz; exact ⟨0, .id hvar, rfl⟩
            · intro z k hz; cases hz with | id _ => simp
          · intro vs k
            rw [Def.lp]
            simp only [hb, hu, Bool.false_eq_true, if_false, Option.map_map]
            rfl
          · intro U
            refine Sem.named (wrap := fun e => .bind [(.pat y, .var (.gen (c + 1)))] e) (by omega) ?_
            intro ek ρ F hg hv
            refine ⟨fun σ hm => ⟨(.pat y, .form F) :: ρ, ?_, fun r hr => Ev.bind1 (Ev.varForm hv) hr⟩,
              fun hn => absurd (.var hvar) (hn [(y, .one F)])⟩
            refine Ext.one (by simp [ids]) ?_
            intro z t ht
            cases hm with
            | lit h _ => exact absurd h hlit
            | under h => exact absurd h hvar.2.1
            | var h =>
              by_cases hz : y = z
              · subst hz
                simp [Binds.get] at ht
                subst ht
                exact ⟨rfl, by rw [Tree.form]⟩
              · simp [Binds.get, hz] at ht
            | datum h => exact absurd h id
    | nil =>
      refine compiles_test (test := .prim1 .isNull (.var (.gen (c + 1)))) ?_ ?_ ?_ ?_
      · exact newVars_none (by intro x k hv; cases hv)
      · intro vs k
        rw [Def.lp]
        simp only [Option.map_map]
        rfl
      · intro U ρ F hv
        cases F with
        | nil => exact .inl ⟨Ev.prim1 (Ev.varForm hv) rfl, .nil⟩
        | _ =>
          refine .inr ⟨Ev.prim1 (Ev.varForm hv) rfl, ?_⟩
          intro σ hm
          cases hm
      · intro U F σ hm; exact (pairs_zero_nil σ hm).2
    | datum hd =>
      have hσ : ∀ U F σ, Match D U p F σ → F = p ∧ σ = [] := by
        intro U F σ hm
        cases hm with
        | datum _ => exact ⟨rfl, rfl⟩
        | nil => exact ⟨rfl, rfl⟩
        | _ => exact absurd hd id
      refine compiles_test (test := .prim2 .equal (.var (.gen (c + 1))) (.const p)) ?_ ?_ ?_ ?_
      · exact newVars_none (by intro x k hv; cases hv <;> exact hd)
      · intro vs k
        cases p <;> first | exact absurd hd id | (simp only [Def.lp, Option.map_map]; rfl)
      · intro U ρ F hv
        by_cases h : F = p
        · subst h
          exact .inl ⟨Ev.prim2 (Ev.varForm hv) (Ev.const _) (by simp [Prim2.apply]), .datum hd⟩
        · exact .inr ⟨Ev.prim2 (Ev.varForm hv) (Ev.const _) (by simp [Prim2.apply, h]),
            fun σ hm => h (hσ U F σ hm).1⟩
      · intro U F σ hm; exact (hσ U F σ hm).2
    | vec hp =>
      rename_i p
      obtain ⟨c₁, nv, wrap, hc, hnv, hlp, hsem⟩ :=
        ih p (by simp only [need] at hn; omega) hp (by simpa [vars] using hl)
          (.prim1 .vectorToList (.var (.gen (c + 1)))) dim (c + 1)
      refine ⟨c₁, nv, fun e => .bind [(.gen (c + 1), x)] (.and (.prim1 .isVector (.var (.gen (c + 1)))) (wrap e)),
        by omega, ?_, ?_, ?_⟩
      · refine ⟨hnv.ids, ?_, ?_⟩
        · intro y d hy hu
          obtain ⟨k, hk, e⟩ := hnv.depth y d hy hu
          exact ⟨k, .vec hk, e⟩
        · intro y k hv; cases hv with | vec hv => exact hnv.all y k hv
      · intro vs k
        rw [Def.lp]
        simp only [hlp, Option.map_map]
        rfl
      · intro U
        refine Sem.named (wrap := fun e => .and (.prim1 .isVector (.var (.gen (c + 1)))) (wrap e)) (by omega) ?_
        intro ek ρ F hg hv
        have hinv : ∀ {σ}, Match D U (.vec p) F σ → ∃ f, F = .vec f ∧ Match D U p f σ := by
          intro σ hm
          cases hm with
          | vec h => exact ⟨_, rfl, h⟩
          | datum h => exact absurd h id
        cases F with
        | vec F =>
          have h := hsem U ek ρ F hg (Ev.prim1 (Ev.varForm hv) rfl)
          constructor
          · intro σ hm
            obtain ⟨_, e, hm⟩ := hinv hm
            cases e
            obtain ⟨ρ', he, hr⟩ := h.1 σ hm
            exact ⟨ρ', ⟨he.pat, he.gen, he.new, he.good⟩,
              fun r hr' => Ev.andTrue (Ev.prim1 (Ev.varForm hv) rfl) (hr r hr')⟩
          · intro hn
            exact Ev.andTrue (Ev.prim1 (Ev.varForm hv) rfl) (h.2 fun σ hm => hn σ (.vec hm))
        | _ =>
          refine ⟨fun σ hm => ?_, fun _ => Ev.andFalse (Ev.prim1 (Ev.varForm hv) rfl)⟩
          obtain ⟨_, e, _⟩ := hinv hm
          cases e
    | pair hne hp hq =>
      rename_i p q
      have hb := (isEllipsis_false hD (a := p)).2 hne
      rw [need_pair hb] at hn
      simp only [vars] at hl
      rw [List.nodup_append] at hl
      obtain ⟨c₁, nv₁, wrap₁, hc₁, hnv₁, hlp₁, hsem₁⟩ :=
        ih p (by omega) hp hl.1 (.prim1 .car (.var (.gen (c + 1)))) dim (c + 1)
      obtain ⟨c₂, nv₂, wrap₂, hc₂, hnv₂, hlp₂, hsem₂⟩ :=
        ih q (by omega) hq hl.2.1 (.prim1 .cdr (.var (.gen (c + 1)))) dim c₁
      refine ⟨c₂, nv₂ ++ nv₁, fun e => .bind [(.gen (c + 1), x)]
        (.and (.prim1 .isPair (.var (.gen (c + 1)))) (wrap₁ (wrap₂ e))), by omega, ?_, ?_, ?_⟩
      · refine ⟨?_, ?_, ?_⟩
        · intro y d hy
          simp only [ids, List.mem_append] at hy ⊢
          exact hy.symm.imp (hnv₁.ids y d) (hnv₂.ids y d)
        · intro y d hy hu
          rcases List.mem_append.1 hy with hy | hy
          · obtain ⟨k, hk, e⟩ := hnv₂.depth y d hy hu
            exact ⟨k, .cdr hne hk, e⟩
          · obtain ⟨k, hk, e⟩ := hnv₁.depth y d hy hu
            exact ⟨k, .car hne hk, e⟩
        · intro y k hv
          rw [List.mem_append]
          generalize hr : Form.cons p q = r at hv
          cases hv with
          | id _ => cases hr
          | car _ h' => cases hr; exact .inr (hnv₁.all y k h')
          | cdr _ h' => cases hr; exact .inl (hnv₂.all y k h')
          | more he _ => cases hr; exact absurd he hne
          | tail he _ => cases hr; exact absurd he hne
          | vec _ => cases hr
      · intro vs k
        simp only [Def.lp, hb, Bool.false_eq_true, if_false, hlp₁, hlp₂, Option.map_map, List.append_assoc]
        rfl
      · intro U
        refine Sem.named (wrap := fun e => .and (.prim1 .isPair (.var (.gen (c + 1)))) (wrap₁ (wrap₂ e)))
          (by omega) ?_
        intro ek ρ F hg hv
        cases F with
        | cons a d =>
          have h₁ := hsem₁ U (wrap₂ ek) ρ a hg (Ev.prim1 (Ev.varForm hv) rfl)
          have htrue : Ev U ρ (.prim1 .isPair (.var (.gen (c + 1)))) (.bool true) :=
            Ev.prim1 (Ev.varForm hv) rfl
          have h₂ : ∀ {σ ρ'}, Ext (c + 1) c₁ p σ ρ ρ' → _ := fun {σ ρ'} (he : Ext (c + 1) c₁ p σ ρ ρ') =>
            hsem₂ U ek ρ' d (he.good hg) (Ev.prim1 (x := .cons a d) (Ev.varForm (by
              rw [he.gen _ (by omega)]; exact hv)) rfl)
          constructor
          · intro σ hm
            obtain ⟨_, _, σ₁, σ₂, e, rfl, hm₁, hm₂⟩ := match_pair_inv hne hm
            cases e
            obtain ⟨ρ', he, hr⟩ := h₁.1 σ₁ hm₁
            obtain ⟨ρ'', he', hr'⟩ := (h₂ he).1 σ₂ hm₂
            refine ⟨ρ'', ⟨?_, ?_, ?_, ?_⟩, fun r hr0 => Ev.andTrue htrue (hr r (hr' r hr0))⟩
            · intro y hy
              simp only [ids, List.mem_append, not_or] at hy
              rw [he'.pat y hy.2, he.pat y hy.1]
            · intro n hn
              rw [he'.gen n (by omega), he.gen n (by omega)]
            · intro y t ht
              rw [get_append] at ht
              cases h1 : Binds.get σ₁ y with
              | some u =>
                rw [h1] at ht
                cases ht
                rw [he'.pat y, he.new y t h1]
                intro hy
                obtain ⟨k, hk⟩ := (match_domain hm₁ y).1 (by simp [h1])
                exact hl.2.2 y hk.mem_vars y (mem_vars_iff.2 ⟨hy, hk.isVar⟩) rfl
              | none =>
                rw [h1] at ht
                exact he'.new y t ht
            · exact fun h => he'.good (he.good h)
          · intro hn
            refine Ev.andTrue htrue ?_
            by_cases hm₁ : ∃ σ, Match D U p a σ
            · obtain ⟨σ₁, hm₁⟩ := hm₁
              obtain ⟨ρ', he, hr⟩ := h₁.1 σ₁ hm₁
              exact hr _ ((h₂ he).2 fun σ₂ hm₂ => hn _ (.pair hne hm₁ hm₂))
            · exact h₁.2 fun σ hm => hm₁ ⟨σ, hm⟩
        | _ =>
          refine ⟨fun σ hm => ?_, fun _ => Ev.andFalse (Ev.prim1 (Ev.varForm hv) rfl)⟩
          obtain ⟨_, _, _, _, e, _⟩ := match_pair_inv hne hm
          cases e
    | more he hp hnl hins htail hq =>
      rename_i p e q
      have hb : D.isEllipsis (.cons p (.cons (.id e) q)) = true := (isEllipsis_iff hD).2 ⟨_, _, rfl, he⟩
      by_cases hqn : q = .nil
      · subst hqn
        by_cases hid : ∃ y, p = .id y
        · obtain ⟨y, rfl⟩ := hid
          have hlit := hnl y rfl
          have hne : ¬IsEllipsis D y := by cases hp with | id h => exact h | datum h => exact absurd h id
          refine ⟨c + 1, [(y, dim + 1)], fun e => .bind [(.gen (c + 1), x)]
            (.and (.prim1 .isList (.var (.gen (c + 1)))) (.bind [(.pat y, .var (.gen (c + 1)))] e)), by omega, ?_, ?_, ?_⟩
          · refine ⟨?_, ?_, ?_⟩
            · intro z d hz; simp at hz; simp [ids, hz]
            · intro z d hz hu; simp at hz; obtain ⟨rfl, rfl⟩ := hz
              exact ⟨1, .more he (.id ⟨hlit, hu, hne⟩), rfl⟩
            · intro z k hz
              generalize hr : Form.cons (.id y) _ = r at hz
              cases hz with
              | id _ => cases hr
              | car hn h' => cases hr; exact absurd he hn
              | cdr hn h' => cases hr; exact absurd he hn
              | more _ h' => cases hr; cases h' with | id _ => simp
              | tail _ h' => cases hr; cases h'
              | vec _ => cases hr
          · intro vs k
            rw [Def.lp]
            simp only [hb, if_true, ne_eq, not_true_eq_false, if_false, Option.map_map]
            rfl
          · intro U
            refine Sem.named (wrap := fun e => .and (.prim1 .isList (.var (.gen (c + 1))))
              (.bind [(.pat y, .var (.gen (c + 1)))] e)) (by omega) ?_
            intro ek ρ F hg hv
            cases hF : F.toList with
            | none =>
              have hfalse : Ev U ρ (.prim1 .isList (.var (.gen (c + 1)))) (.bool false) :=
                Ev.prim1 (Ev.varForm hv) (by simp [Prim1.apply, hF])
              refine ⟨fun σ hm => ?_, fun _ => Ev.andFalse hfalse⟩
              obtain ⟨fs, g, σs, σP, τ, e1, _, _, _, _, hm2⟩ := match_more_inv he hm
              obtain ⟨rfl, _⟩ := pairs_zero_nil _ hm2
              rw [e1, foldr_nil, toList_ofList] at hF
              cases hF
            | some fs =>
              have htrue : Ev U ρ (.prim1 .isList (.var (.gen (c + 1)))) (.bool true) :=
                Ev.prim1 (Ev.varForm hv) (by simp [Prim1.apply, hF])
              have hFe := ofList_of_toList hF
              constructor
              · intro σ hm
                refine ⟨(.pat y, .form F) :: ρ, ?_,
                  fun r hr => Ev.andTrue htrue (Ev.bind1 (Ev.varForm hv) hr)⟩
                refine Ext.one (by simp [ids]) ?_
                intro z t ht
                obtain ⟨fs', g, σs, σP, τ, e1, rfl, hma, hcol, _, hm2⟩ := match_more_inv he hm
                obtain ⟨rfl, rfl⟩ := pairs_zero_nil _ hm2
                rw [List.append_nil] at ht
                obtain ⟨⟨k, hk⟩, ts, rfl, hts⟩ := (hcol z t).1 ht
                cases hk with
                | id hvar =>
                  refine ⟨rfl, ?_⟩
                  rw [Tree.form, matchAll_var_inv hvar hma ts hts, e1, foldr_nil]
              · intro hn
                exfalso
                have hma : ∃ σs, MatchAll D U (.id y) fs σs := by
                  by_cases hu : IsUnder D y
                  · exact ⟨_, matchAll_under hu fs⟩
                  · exact ⟨_, matchAll_var ⟨hlit, hu, hne⟩ fs⟩
                obtain ⟨σs, hma⟩ := hma
                obtain ⟨τ, hτ⟩ := collect_exists hma
                have := Match.more he hma hτ (g := .nil) (q := .nil) rfl .nil
                rw [foldr_nil, ← hFe] at this
                exact hn _ this
        · have hnv := allVars_new hD hp (dim + 1)
          have hlp' : (vars D p).Nodup := by
            simp only [vars] at hl
            rw [List.nodup_append] at hl
            exact hl.1
          obtain ⟨c₁, nv, wrap, hc, _, hlp, hsem⟩ :=
            ih p (by rw [need, if_pos hb, if_pos rfl] at hn; omega) hp hlp'
              (.prim1 .car (.var (.gen (c + 2)))) (dim + 1) (c + 3 + (D.allVars p (dim + 1) []).length)
          have hfree : ((D.allVars p (dim + 1) []).any fun y => D.inserted y.1) = false := by
            rw [List.any_eq_false]
            rintro ⟨y, d⟩ hy
            rw [hins (fun z hz => hid ⟨z, hz⟩) y (hnv.ids y d hy)
              (allVars_isLit _ _ (Nat.le_refl _) _ _ _ hy) ?_]
            · simp
            · intro hell
              by_cases hu : IsUnder D y
              · have := hD.distinct y hell.1
                rw [hu.1] at this
                cases this
              · obtain ⟨k, hk, -⟩ := hnv.depth y d hy hu
                exact hk.isVar.2.2 hell
          generalize hnvl : D.allVars p (dim + 1) [] = nvl at *
          refine ⟨c₁, nvl, fun ek => .bind [(.gen (c + 1), x)] (Exp.loop (.gen (c + 3))
            ((.gen (c + 2), .var (.gen (c + 1))) ::
              (List.range nvl.length).map fun j => (.gen (c + 1 + 3 + j), .const .nil))
            (loopBody (c + 1) nvl.length (fun j => (nvl.getD j (0, 0)).1) wrap ek)), by omega, ?_, ?_, ?_⟩
          · refine ⟨?_, ?_, ?_⟩
            · intro y d hy
              have := hnv.ids y d hy
              simp [ids, this]
            · intro y d hy hu
              obtain ⟨k, hk, e⟩ := hnv.depth y d hy hu
              exact ⟨k + 1, .more he hk, by omega⟩
            · intro y k hv
              generalize hr : Form.cons p _ = r at hv
              cases hv with
              | id _ => cases hr
              | car hn h' => cases hr; exact absurd he hn
              | cdr hn h' => cases hr; exact absurd he hn
              | more _ h' =>
                cases hr
                have h2 := hnv.all y _ h'
                rw [Nat.add_assoc, Nat.add_comm 1] at h2
                exact h2
              | tail _ h' => cases hr; cases h'
              | vec _ => cases hr
          · intro vs k
            cases p with
            | id y => exact absurd ⟨y, rfl⟩ hid
            | _ =>
              simp only [Def.lp, hb, if_true, ne_eq, not_true_eq_false, if_false]
              simp only [hnvl, hfree, Bool.false_eq_true, if_false]
              rw [show c + 1 + 2 + nvl.length = c + 3 + nvl.length by omega]
              simp only [hlp, Option.map_some, Option.map_map, zipWith_range _ _ _ (0, 0), List.map_map]
              rfl
          · intro U
            refine Sem.named (wrap := fun ek => Exp.loop (.gen (c + 3))
              ((.gen (c + 2), .var (.gen (c + 1))) ::
                (List.range nvl.length).map fun j => (.gen (c + 1 + 3 + j), .const .nil))
              (loopBody (c + 1) nvl.length (fun j => (nvl.getD j (0, 0)).1) wrap ek)) (by omega) ?_
            intro ek ρ F hg hv
            have hs := hsem U
            rw [show c + 3 + nvl.length = c + 1 + 2 + nvl.length by omega] at hs
            exact sem_loop (c := c + 1) he hnv (by omega) hs ek ρ F (.gen (c + 1)) hg hv (by simp)
      · obtain ⟨c₁, nv, wrap, hc, hnv, hlp, hsem⟩ :=
          ih (rotated p e q) (by have := need_rotated hD (p := p) he hqn; omega) (ok_rotated he hp hnl hins hq)
            (vars_rotated he hl)
            (.prim2 .cons (.var .ls) (.prim2 .cons (.prim1 .reverse (.var .res)) (.const .nil))) dim (c + 2)
        refine ⟨c₁, nv, fun ek => .bind [(.gen (c + 1), x)]
          (Exp.bind [(.len, .prim1 .length (.var (.gen (c + 1))))]
            (.and (.prim2 .ge (.var .len) (.const (.num (lengthStar q))))
              (.loop (.gen (c + 2))
                [(.ls, .var (.gen (c + 1))), (.i, .prim2 .sub (.var .len) (.const (.num (lengthStar q)))),
                 (.res, .const .nil)]
                (tailBody (.gen (c + 2)) (wrap ek))))), by omega, ?_, ?_, ?_⟩
        · refine ⟨?_, ?_, ?_⟩
          · intro y d hy
            have := hnv.ids y d hy
            simp only [rotated, ids, List.mem_append] at this ⊢
            tauto
          · intro y d hy hu
            obtain ⟨k, hk, e⟩ := hnv.depth y d hy hu
            exact ⟨k, (varAt_rotated he).1 hk, e⟩
          · intro y k hv
            exact hnv.all y k ((varAt_rotated he).2 hv)
        · intro vs k
          have hany := anyEllipsis_false hD htail
          have := hlp vs k
          rw [rotated] at this
          cases p <;>
            (simp only [Def.lp, hb, if_true, ne_eq, hqn, not_false_eq_true, hany, Bool.false_eq_true, if_false,
              this, Option.map_map]
             rfl)
        · intro U
          refine Sem.named (wrap := fun ek => Exp.bind [(.len, .prim1 .length (.var (.gen (c + 1))))]
            (.and (.prim2 .ge (.var .len) (.const (.num (lengthStar q))))
              (.loop (.gen (c + 2))
                [(.ls, .var (.gen (c + 1))), (.i, .prim2 .sub (.var .len) (.const (.num (lengthStar q)))),
                 (.res, .const .nil)]
                (tailBody (.gen (c + 2)) (wrap ek))))) (by omega) ?_
          intro ek ρ F hg hv
          exact sem_tail (c := c + 1) he hl (by omega) (hsem U) ek ρ F (c + 1) hg hv (by omega)

end Meevax.Rules
