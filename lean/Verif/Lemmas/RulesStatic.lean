import Verif.Lemmas.RulesEval

/-!
Patterns: ellipses, variables and their depths, and the domain of the bindings of a match.
-/

namespace Meevax.Rules

open Spec

variable {D : Def} {U : Use}

theorem isLit_iff {x : Nat} : D.isLit x = true ↔ IsLit D x := by simp [Def.isLit, IsLit]

theorem isEllipsis_iff (hD : DefOk D) {a d : Form} :
    D.isEllipsis (.cons a d) = true ↔ ∃ e t, d = .cons (.id e) t ∧ IsEllipsis D e := by
  constructor
  · intro h
    cases d with
    | cons b t =>
      cases b with
      | id e => exact ⟨e, t, rfl, h, hD.literals e h⟩
      | _ => simp [Def.isEllipsis] at h
    | _ => simp [Def.isEllipsis] at h
  · rintro ⟨e, t, rfl, h, _⟩
    exact h

theorem isEllipsis_false (hD : DefOk D) {a d : Form} :
    D.isEllipsis (.cons a d) = false ↔ NoEllipsis (IsEllipsis D) d := by
  rw [← Bool.not_eq_true, isEllipsis_iff hD]
  constructor
  · intro h
    cases d with
    | cons b t =>
      cases b with
      | id e => intro he; exact h ⟨e, t, rfl, he⟩
      | _ => trivial
    | _ => trivial
  · rintro h ⟨e, t, rfl, he⟩
    exact h he

theorem lengthLoop_eq : ∀ (f : Form) (n : Nat), lengthLoop f n = n + pairs f := by
  intro f n
  fun_induction lengthLoop f n with
  | case1 n a b d ih => rw [ih]; simp only [pairs]; omega
  | case2 _ d n h =>
    cases d with
    | cons b d => exact absurd rfl (h b d)
    | _ => simp [pairs]
  | case3 f n h1 h2 =>
    cases f with
    | cons a d => exact absurd rfl (h2 a d)
    | _ => simp [pairs]

theorem lengthStar_eq (f : Form) : lengthStar f = pairs f := by
  cases f with
  | cons a d => simp only [lengthStar, lengthLoop_eq, pairs]; omega
  | _ => rfl

theorem anyEllipsis_false (hD : DefOk D) : ∀ {q : Form}, Tail D q → D.anyEllipsis q = false := by
  intro q
  induction q with
  | cons a d _ ihd =>
    intro h
    have h2 := ihd h.2
    cases a with
    | id x =>
      have h1 := h.1 x rfl
      simp only [Def.anyEllipsis, h2, Bool.or_false]
      rw [← Bool.not_eq_true, hD.symmetric]
      exact fun e => h1 ⟨e, hD.literals x e⟩
    | _ => simpa [Def.anyEllipsis] using h2
  | _ => intro _; rfl

/-! ### Variables -/

theorem Spec.VarAt.isVar {p : Form} {x k : Nat} (h : VarAt D p x k) : IsVar D x := by
  induction h <;> assumption

theorem Spec.VarAt.mem_ids {p : Form} {x k : Nat} (h : VarAt D p x k) : x ∈ ids p := by
  induction h <;> simp_all [ids]

theorem Spec.VarAt.mem_vars {p : Form} {x k : Nat} (h : VarAt D p x k) : x ∈ vars D p := by
  induction h with
  | id h => simp [vars, h]
  | car _ _ ih => simp [vars, ih]
  | cdr _ _ ih => simp [vars, ih]
  | more _ _ ih => simp [vars, ih]
  | tail _ _ ih => simp [vars, ih]
  | vec _ ih => simpa [vars] using ih

theorem mem_vars_iff {p : Form} {x : Nat} : x ∈ vars D p ↔ x ∈ ids p ∧ IsVar D x := by
  induction p with
  | id y =>
    by_cases h : IsVar D y
    · simp only [vars, h, if_true, ids, List.mem_singleton]
      constructor
      · rintro rfl; exact ⟨rfl, h⟩
      · exact fun h => h.1
    · simp only [vars, h, if_false, ids, List.mem_singleton, List.not_mem_nil, false_iff, not_and]
      rintro rfl; exact h
  | cons a d iha ihd => simp only [vars, ids, List.mem_append, iha, ihd, or_and_right]
  | vec xs ih => simpa [vars, ids] using ih
  | _ => simp [vars, ids]

theorem Spec.VarAt.unique {p : Form} {x k j : Nat} (hl : (vars D p).Nodup) (h : VarAt D p x k)
    (h' : VarAt D p x j) : k = j := by
  induction h generalizing j with
  | id _ => cases h'; rfl
  | car hn h ih =>
    rw [vars, List.nodup_append] at hl
    generalize hq : Form.cons _ _ = q at h'
    cases h' with
    | id _ => cases hq
    | car _ h' => cases hq; exact ih hl.1 h'
    | cdr _ h' => cases hq; exact (hl.2.2 _ h.mem_vars _ h'.mem_vars rfl).elim
    | more he _ => cases hq; exact absurd he hn
    | tail he _ => cases hq; exact absurd he hn
    | vec _ => cases hq
  | cdr hn h ih =>
    rw [vars, List.nodup_append] at hl
    generalize hq : Form.cons _ _ = q at h'
    cases h' with
    | id _ => cases hq
    | car _ h' => cases hq; exact (hl.2.2 _ h'.mem_vars _ h.mem_vars rfl).elim
    | cdr _ h' => cases hq; exact ih hl.2.1 h'
    | more he _ => cases hq; exact absurd he hn
    | tail he _ => cases hq; exact absurd he hn
    | vec _ => cases hq
  | more he h ih =>
    rw [vars, List.nodup_append] at hl
    generalize hq : Form.cons _ _ = q at h'
    cases h' with
    | id _ => cases hq
    | car hn h' => cases hq; exact absurd he hn
    | cdr hn h' => cases hq; exact absurd he hn
    | more _ h' => cases hq; rw [ih hl.1 h']
    | tail _ h' => cases hq; exact (hl.2.2 _ h.mem_vars _ (by simp [vars, h'.mem_vars]) rfl).elim
    | vec _ => cases hq
  | tail he h ih =>
    have hl' := hl
    rw [vars, List.nodup_append] at hl
    generalize hq : Form.cons _ _ = q at h'
    cases h' with
    | id _ => cases hq
    | car hn h' => cases hq; exact absurd he hn
    | cdr hn h' => cases hq; exact absurd he hn
    | more _ h' => cases hq; exact (hl.2.2 _ h'.mem_vars _ (by simp [vars, h.mem_vars]) rfl).elim
    | tail _ h' =>
      cases hq
      refine ih ?_ h'
      have := hl.2.1
      rw [vars, List.nodup_append] at this
      exact this.2.1
    | vec _ => cases hq
  | vec h ih => cases h' with | vec h' => exact ih (by simpa [vars] using hl) h'

/-- Every pattern variable of a well formed pattern has a depth. -/
theorem varAt_of_mem {p : Form} (hp : PatternOk D p) {x : Nat} (hx : x ∈ ids p) (hv : IsVar D x) :
    ∃ k, VarAt D p x k := by
  induction hp with
  | id _ => simp only [ids, List.mem_singleton] at hx; subst hx; exact ⟨0, .id hv⟩
  | nil => simp [ids] at hx
  | datum h => rename_i p; cases p <;> simp_all [Datum, ids]
  | vec _ ih => obtain ⟨k, h⟩ := ih (by simpa [ids] using hx); exact ⟨k, .vec h⟩
  | pair hn _ _ iha ihd =>
    simp only [ids, List.mem_append] at hx
    rcases hx with hx | hx
    · obtain ⟨k, h⟩ := iha hx; exact ⟨k, .car hn h⟩
    · obtain ⟨k, h⟩ := ihd hx; exact ⟨k, .cdr hn h⟩
  | more he _ _ _ _ _ iha ihd =>
    simp only [ids, List.mem_append, List.mem_singleton] at hx
    rcases hx with hx | rfl | hx
    · obtain ⟨k, h⟩ := iha hx; exact ⟨k + 1, .more he h⟩
    · exact absurd he hv.2.2
    · obtain ⟨k, h⟩ := ihd hx; exact ⟨k, .tail he h⟩

/-- What the generator has to say about the variables of a pattern: those it binds, with their depth.  An
underscore may be among them. -/
structure NewVars (D : Def) (p : Form) (dim : Nat) (nv : Vars) : Prop where
  ids : ∀ y d, (y, d) ∈ nv → y ∈ ids p
  depth : ∀ y d, (y, d) ∈ nv → ¬IsUnder D y → ∃ k, VarAt D p y k ∧ d = dim + k
  all : ∀ y k, VarAt D p y k → (y, dim + k) ∈ nv

theorem size_pos (p : Form) : 0 < p.size := by cases p <;> simp [Form.size]

theorem allVars_pair {a d : Form} (h : D.isEllipsis (.cons a d) = false) (dim : Nat) (vs : Vars) :
    D.allVars (.cons a d) dim vs = D.allVars a dim (D.allVars d dim vs) := by
  cases d with
  | cons b d => rw [Def.allVars, if_neg (by simp [h])]
  | _ => rfl

theorem allVars_append : ∀ (n : Nat) (p : Form), p.size ≤ n → ∀ (dim : Nat) (vs : Vars),
    D.allVars p dim vs = D.allVars p dim [] ++ vs := by
  intro n
  induction n with
  | zero => intro p hp; have := size_pos p; omega
  | succ n ih =>
    intro p hp dim vs
    cases p with
    | id x => simp only [Def.allVars]; split <;> simp
    | vec xs => simp only [Def.allVars]; exact ih xs (by simp only [Form.size] at hp; omega) dim vs
    | cons a d =>
      have ha : a.size ≤ n := by simp only [Form.size] at hp; omega
      have hd : d.size ≤ n := by simp only [Form.size] at hp; omega
      cases h : D.isEllipsis (.cons a d) with
      | true =>
        cases d with
        | cons b d =>
          have hd' : d.size ≤ n := by simp only [Form.size] at hp; omega
          simp only [Def.allVars, h, if_true]
          rw [ih a ha, ih d hd' dim vs, ih a ha (dim + 1) (D.allVars d dim [])]; simp
        | _ => simp [Def.isEllipsis] at h
      | false =>
        rw [allVars_pair h, allVars_pair h, ih a ha, ih _ hd dim vs, ih a ha dim (D.allVars _ dim [])]; simp
    | _ => simp [Def.allVars]

theorem allVars_new (hD : DefOk D) {p : Form} (hp : PatternOk D p) : ∀ dim, NewVars D p dim (D.allVars p dim []) := by
  induction hp with
  | id h =>
    rename_i x
    intro dim
    by_cases hl : IsLit D x
    · rw [Def.allVars, if_pos (isLit_iff.2 hl)]
      refine ⟨by simp, by simp, ?_⟩
      intro y k hv
      cases hv with
      | id hv => exact absurd hl hv.1
    · rw [Def.allVars, if_neg (by rw [isLit_iff]; exact hl)]
      refine ⟨?_, ?_, ?_⟩
      · intro y d hy; simp at hy; simp [ids, hy]
      · intro y d hy hu
        simp at hy
        obtain ⟨rfl, rfl⟩ := hy
        exact ⟨0, .id ⟨hl, hu, h⟩, rfl⟩
      · intro y k hv
        cases hv with
        | id hv => simp
  | nil =>
    intro dim
    refine ⟨by simp [Def.allVars], by simp [Def.allVars], ?_⟩
    intro y k hv; cases hv
  | datum h =>
    rename_i p
    intro dim
    cases p <;> first | exact absurd h id | (refine ⟨by simp [Def.allVars], by simp [Def.allVars], ?_⟩; intro y k hv; cases hv)
  | vec _ ih =>
    intro dim
    have h := ih dim
    refine ⟨fun y d hy => h.ids y d hy, ?_, ?_⟩
    · intro y d hy hu
      obtain ⟨k, hk, e⟩ := h.depth y d hy hu
      exact ⟨k, .vec hk, e⟩
    · intro y k hv
      cases hv with
      | vec hv => exact h.all y k hv
  | pair hn _ _ iha ihd =>
    intro dim
    have ha := iha dim
    have hd := ihd dim
    rw [allVars_pair ((isEllipsis_false hD).2 hn), allVars_append _ _ (Nat.le_refl _)]
    refine ⟨?_, ?_, ?_⟩
    · intro y d hy
      simp only [ids, List.mem_append] at hy ⊢
      exact hy.imp (ha.ids y d) (hd.ids y d)
    · intro y d hy hu
      rcases List.mem_append.1 hy with hy | hy
      · obtain ⟨k, hk, e⟩ := ha.depth y d hy hu
        exact ⟨k, .car hn hk, e⟩
      · obtain ⟨k, hk, e⟩ := hd.depth y d hy hu
        exact ⟨k, .cdr hn hk, e⟩
    · intro y k hv
      rw [List.mem_append]
      generalize hq : Form.cons _ _ = q at hv
      cases hv with
      | id _ => cases hq
      | car _ h' => cases hq; exact .inl (ha.all y k h')
      | cdr _ h' => cases hq; exact .inr (hd.all y k h')
      | more he _ => cases hq; exact absurd he hn
      | tail he _ => cases hq; exact absurd he hn
      | vec _ => cases hq
  | more he _ _ _ _ _ iha ihd =>
    rename_i p e q _ _ _ _ _
    intro dim
    have ha := iha (dim + 1)
    have hd := ihd dim
    have h1 : D.isEllipsis (.cons p (.cons (.id e) q)) = true := (isEllipsis_iff hD).2 ⟨_, _, rfl, he⟩
    rw [Def.allVars, if_pos h1, allVars_append _ _ (Nat.le_refl _)]
    refine ⟨?_, ?_, ?_⟩
    · intro y d hy
      simp only [ids, List.mem_append] at hy ⊢
      exact hy.imp (ha.ids y d) (fun h => .inr (hd.ids y d h))
    · intro y d hy hu
      rcases List.mem_append.1 hy with hy | hy
      · obtain ⟨k, hk, e⟩ := ha.depth y d hy hu
        exact ⟨k + 1, .more he hk, by omega⟩
      · obtain ⟨k, hk, e⟩ := hd.depth y d hy hu
        exact ⟨k, .tail he hk, e⟩
    · intro y k hv
      rw [List.mem_append]
      generalize hq : Form.cons _ _ = q at hv
      cases hv with
      | id _ => cases hq
      | car hn h' => cases hq; exact absurd he hn
      | cdr hn h' => cases hq; exact absurd he hn
      | more _ h' =>
        cases hq
        have h2 := ha.all y _ h'
        rw [Nat.add_assoc, Nat.add_comm 1] at h2
        exact .inl h2
      | tail _ h' => cases hq; exact .inr (hd.all y _ h')
      | vec _ => cases hq

theorem allVars_isLit : ∀ (n : Nat) (p : Form), p.size ≤ n → ∀ (dim : Nat), ∀ y d, (y, d) ∈ D.allVars p dim [] →
    ¬IsLit D y := by
  intro n
  induction n with
  | zero => intro p hp; have := size_pos p; omega
  | succ n ih =>
    intro p hp dim y d hy
    cases p with
    | id x =>
      simp only [Def.allVars] at hy
      split at hy
      · simp at hy
      · rename_i h
        simp at hy
        rw [hy.1, ← isLit_iff]; exact h
    | vec xs => exact ih xs (by simp only [Form.size] at hp; omega) dim y d hy
    | cons a b =>
      have ha : a.size ≤ n := by simp only [Form.size] at hp; omega
      have hd : b.size ≤ n := by simp only [Form.size] at hp; omega
      cases h : D.isEllipsis (.cons a b) with
      | true =>
        cases b with
        | cons b t =>
          have hd' : t.size ≤ n := by simp only [Form.size] at hp; omega
          simp only [Def.allVars, h, if_true] at hy
          rw [allVars_append _ _ (Nat.le_refl _)] at hy
          rcases List.mem_append.1 hy with hy | hy
          · exact ih _ ha _ _ _ hy
          · exact ih _ hd' _ _ _ hy
        | _ => simp [Def.isEllipsis] at h
      | false =>
        rw [allVars_pair h, allVars_append _ _ (Nat.le_refl _)] at hy
        rcases List.mem_append.1 hy with hy | hy
        · exact ih _ ha _ _ _ hy
        · exact ih _ hd _ _ _ hy
    | _ => simp [Def.allVars] at hy

/-! ### Bindings -/

theorem get_append (σ τ : Binds) (x : Nat) :
    Binds.get (σ ++ τ) x = match Binds.get σ x with | some t => some t | none => Binds.get τ x := by
  simp only [Binds.get, List.find?_append]
  cases List.find? (fun b => decide (b.1 = x)) σ <;> simp

theorem get_append_some {σ τ : Binds} {x : Nat} {t : Tree} (h : Binds.get (σ ++ τ) x = some t) :
    Binds.get σ x = some t ∨ Binds.get τ x = some t := by
  rw [get_append] at h
  cases hs : Binds.get σ x with
  | none => rw [hs] at h; exact .inr h
  | some u => rw [hs] at h; exact .inl h

theorem get_append_isSome {σ τ : Binds} {x : Nat} :
    (Binds.get (σ ++ τ) x).isSome ↔ (Binds.get σ x).isSome ∨ (Binds.get τ x).isSome := by
  rw [get_append]
  cases Binds.get σ x <;> simp

mutual

/-- A match binds exactly the variables of the pattern. -/
theorem match_domain {p f : Form} {σ : Binds} : Match D U p f σ → ∀ x,
    (Binds.get σ x).isSome ↔ ∃ k, VarAt D p x k
  | .lit hl _, x => by
    simp only [Binds.get, List.find?_nil, Option.map_none, Option.isSome_none, Bool.false_eq_true, false_iff]
    rintro ⟨k, hv⟩; cases hv with | id hv => exact hv.1 hl
  | .under hl, x => by
    simp only [Binds.get, List.find?_nil, Option.map_none, Option.isSome_none, Bool.false_eq_true, false_iff]
    rintro ⟨k, hv⟩; cases hv with | id hv => exact hv.2.1 hl
  | .var (x := y) hv, x => by
    constructor
    · intro h
      by_cases e : y = x
      · subst e; exact ⟨0, .id hv⟩
      · simp [Binds.get, e] at h
    · rintro ⟨k, h⟩
      cases h with
      | id _ => simp [Binds.get]
  | .nil, x => by
    simp only [Binds.get, List.find?_nil, Option.map_none, Option.isSome_none, Bool.false_eq_true, false_iff]
    rintro ⟨k, hv⟩; cases hv
  | .datum hd, x => by
    simp only [Binds.get, List.find?_nil, Option.map_none, Option.isSome_none, Bool.false_eq_true, false_iff]
    rintro ⟨k, hv⟩; cases hv <;> exact hd
  | .vec h, x => by
    rw [match_domain h x]
    constructor
    · rintro ⟨k, hv⟩; exact ⟨k, .vec hv⟩
    · rintro ⟨k, hv⟩; cases hv with | vec hv => exact ⟨k, hv⟩
  | .pair hn h1 h2, x => by
    rw [get_append_isSome, match_domain h1 x, match_domain h2 x]
    constructor
    · rintro (⟨k, hv⟩ | ⟨k, hv⟩)
      · exact ⟨k, .car hn hv⟩
      · exact ⟨k, .cdr hn hv⟩
    · rintro ⟨k, hv⟩
      generalize hq : Form.cons _ _ = q at hv
      cases hv with
      | id _ => cases hq
      | car _ h' => cases hq; exact .inl ⟨_, h'⟩
      | cdr _ h' => cases hq; exact .inr ⟨_, h'⟩
      | more he _ => cases hq; exact absurd he hn
      | tail he _ => cases hq; exact absurd he hn
      | vec _ => cases hq
  | .more he hm hc _ h2, x => by
    rw [get_append_isSome, match_domain h2 x]
    constructor
    · rintro (h | ⟨k, hv⟩)
      · obtain ⟨t, ht⟩ := Option.isSome_iff_exists.1 h
        obtain ⟨⟨k, hk⟩, _⟩ := (hc x t).1 ht
        exact ⟨k + 1, .more he hk⟩
      · exact ⟨k, .tail he hv⟩
    · rintro ⟨k, hv⟩
      generalize hq : Form.cons _ _ = q at hv
      cases hv with
      | id _ => cases hq
      | car hn h' => cases hq; exact absurd he hn
      | cdr hn h' => cases hq; exact absurd he hn
      | more _ h' =>
        cases hq
        obtain ⟨ts, hts⟩ := matchAll_domain hm x ⟨_, h'⟩
        exact .inl (Option.isSome_iff_exists.2 ⟨_, (hc x _).2 ⟨⟨_, h'⟩, ts, rfl, hts⟩⟩)
      | tail _ h' => cases hq; exact .inr ⟨_, h'⟩
      | vec _ => cases hq

theorem matchAll_domain {p : Form} {fs : List Form} {σs : List Binds} : MatchAll D U p fs σs → ∀ x,
    (∃ k, VarAt D p x k) → ∃ ts, List.Forall₂ (fun σ t => Binds.get σ x = some t) σs ts
  | .nil, _, _ => ⟨[], .nil⟩
  | .cons h hs, x, hv => by
    obtain ⟨t, ht⟩ := Option.isSome_iff_exists.1 ((match_domain h x).2 hv)
    obtain ⟨ts, hts⟩ := matchAll_domain hs x hv
    exact ⟨t :: ts, .cons ht hts⟩

end

end Meevax.Rules
