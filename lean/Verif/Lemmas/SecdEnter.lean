import Verif.Lemmas.SecdInv
import Mathlib.Data.List.Nodup

/-! The store stays represented when a procedure is entered, and by primitives. -/

namespace Meevax.Secd

open Scheme

variable {free : Name → Nat}

theorem Pairs.list_spec {p p' : Pairs} : ∀ {vs : List Val} {t : Val}, p.list vs = (t, p') →
    p'.next = p.next + vs.length ∧ ∀ a, a < p.next → p'.pair a = p.pair a
  | [], t, h => by simp only [Pairs.list, Prod.mk.injEq] at h; simp [← h.2]
  | v :: vs, t, h => by
    simp only [Pairs.list, Prod.mk.injEq] at h
    obtain ⟨-, rfl⟩ := h
    obtain ⟨h₁, h₂⟩ := Pairs.list_spec (p := p) (vs := vs) rfl
    refine ⟨by simp [Pairs.cons, h₁]; omega, fun a ha => ?_⟩
    simp only [Pairs.cons]
    rw [if_neg (by omega), h₂ a ha]

theorem ArgList.drop {W : World} {c : Cells} {id : Nat} :
    ∀ {vs : List Val} {xs : Value} (m : Nat), ArgList free W c id xs vs →
      ∃ xs', ArgList free W c id xs' (vs.drop m)
  | vs, xs, 0, h => ⟨xs, by simpa using h⟩
  | [], xs, m + 1, h => ⟨xs, by simpa using h⟩
  | v :: vs, xs, m + 1, h => by
    obtain ⟨l, rfl, hlab, hv, ht⟩ := h
    obtain ⟨xs', h⟩ := ArgList.drop m ht
    exact ⟨xs', by simpa using h⟩

/-- A list of arguments becomes a list of the program. -/
theorem ArgList.toUser {W W' : World} {c c' : Cells} {id : Nat} {p : Pairs} (hW : W.le W')
    (hq : ∀ l l' id k, W.lab l = .arg id k → W.lab l' = .arg id k → l = l') :
    ∀ {vs : List Val} {xs : Value} {t : Val} {p' : Pairs}, ArgList free W c id xs vs →
      p.list vs = (t, p') →
      (∀ l k, W.lab l = .arg id k → k < vs.length →
        W'.lab l = .user (p.next + k) ∧ c'.cell l = c.cell l) →
      VRel free W' t xs ∧ ∀ l k, W.lab l = .arg id k → k < vs.length →
        VRel free W' (p'.pair (p.next + k)).1 (c'.cell l).1 ∧
        VRel free W' (p'.pair (p.next + k)).2 (c'.cell l).2
  | [], xs, t, p', h, hp, hl => by
    simp only [Pairs.list, Prod.mk.injEq] at hp
    obtain ⟨rfl, rfl⟩ := hp
    cases h
    exact ⟨.datum _, fun l k _ hk => by simp at hk⟩
  | v :: vs, xs, t, p', h, hp, hl => by
    obtain ⟨l₀, rfl, hlab, hv, ht⟩ := h
    simp only [Pairs.list, Prod.mk.injEq] at hp
    obtain ⟨rfl, rfl⟩ := hp
    obtain ⟨hn, -⟩ := Pairs.list_spec (p := p) (vs := vs) rfl
    obtain ⟨h₁, h₂⟩ := ArgList.toUser hW hq ht rfl
      fun l k h hk => hl l k h (by simp only [List.length_cons]; omega)
    obtain ⟨h₃, h₄⟩ := hl l₀ _ hlab (by simp)
    refine ⟨.pair (by rw [h₃, hn]), fun l k hk hlt => ?_⟩
    by_cases hkl : k = vs.length
    · subst hkl
      have := hq _ _ _ _ hk hlab
      subst this
      simp only [Pairs.cons]
      rw [if_pos hn.symm, h₄]
      exact ⟨hv.mono hW, h₁⟩
    · simp only [List.length_cons] at hlt
      simp only [Pairs.cons]
      rw [if_neg (by omega)]
      exact h₂ l k hk (by omega)

/-- A list of arguments becomes a frame. -/
theorem ArgList.toFrame {W W' : World} {c c' : Cells} {id N m l₀ : Nat}
    {vars' : Nat → Option Val} {r : Option Nat} (hW : W.le W')
    (hl : ∀ l k, W.lab l = .arg id k → k < N → N - 1 - k < m →
        W'.lab l = .frame l₀ (N - 1 - k) ∧ c'.cell l = c.cell l) :
    ∀ {locs : List Nat} {vs : List Val} {xs : Value} {j : Nat}, ArgList free W c id xs vs →
      j + vs.length = N → j + locs.length = m → locs.length ≤ vs.length →
      (∀ i v : Nat, locs[i]? = some v → vars' v = vs[i]?) →
      (∀ xs', ArgList free W c id xs' (vs.drop locs.length) →
        Frame free W' vars' c' l₀ m xs' [] r) →
      Frame free W' vars' c' l₀ j xs locs r
  | [], vs, xs, j, h, _, hj, _, _, hr => by
    have := hr xs (by simpa using h)
    simp only [List.length_nil, Nat.add_zero] at hj
    subst hj
    exact this
  | v :: locs, [], xs, j, h, _, _, hlen, _, _ => by simp at hlen
  | v :: locs, x :: vs, xs, j, h, hN, hj, hlen, hv, hr => by
    obtain ⟨l, rfl, hlab, hx, ht⟩ := h
    simp only [List.length_cons] at hN hj hlen
    obtain ⟨h₁, h₂⟩ := hl l _ hlab (by omega) (by omega)
    have : N - 1 - vs.length = j := by omega
    refine ⟨l, rfl, by rw [h₁, this], ⟨x, by simpa using hv 0 v (by simp), ?_⟩, ?_⟩
    · rw [h₂]; exact hx.mono hW
    · rw [h₂]
      exact ArgList.toFrame hW hl ht (by omega) (by omega) (by omega)
        (fun i v' hi => by simpa using hv (i + 1) v' (by simpa using hi))
        (fun xs' h => hr xs' (by simpa using h))

/-- The world after a procedure has been entered: the cells of the arguments become the frame and
the list of further arguments. -/
def World.enter (W : World) (id n m next pnext nvars : Nat) (r : Option Nat) (e : Value) : World :=
  { W with
    lab := fun l =>
      if l = next then .env ⟨List.range' nvars m, r, e⟩
      else relabel W.lab id n
        (fun k => if n - 1 - k < m then .frame next (n - 1 - k) else .user (pnext + k)) l
    place := fun v => if nvars ≤ v then (next, v - nvars) else W.place v }

theorem Inv.enter {W : World} {σ σ' : Store} {h : Heap} (hi : Inv free W σ h) {id m : Nat}
    {xs e : Value} {vs : List Val} {r : Option Nat} {t : Val}
    (ha : W.argv id = some (xs, vs)) (hp : σ.pending id = true) (hm : m ≤ vs.length)
    (hlist : σ.pairs.list (vs.drop m) = (t, σ'.pairs))
    (hold : ∀ v, v < σ.nvars → σ'.vars v = σ.vars v)
    (hnew : ∀ j, j < m → σ'.vars (σ.nvars + j) = vs[j]?)
    (hr : ∀ x, r = some x → x = σ.nvars + m ∧ σ'.vars x = some t ∧ x < σ'.nvars)
    (hr' : r = none → vs.length = m)
    (hn : σ.nvars + m ≤ σ'.nvars) (hg : σ'.globals = σ.globals) (hre : σ'.regs = σ.regs)
    (hpend : σ'.pending = (σ.redeem id).pending) (hnid : σ'.nid = σ.nid) :
    W.le (W.enter id vs.length m h.cells.next σ.pairs.next σ.nvars r e) ∧
    (W.enter id vs.length m h.cells.next σ.pairs.next σ.nvars r e).lab h.cells.next =
      .env ⟨List.range' σ.nvars m, r, e⟩ ∧
    Inv free (W.enter id vs.length m h.cells.next σ.pairs.next σ.nvars r e) σ'
      { h with cells := h.cells.cons xs e } := by
  have hfree := hi.unalloc (Nat.le_refl h.cells.next)
  have hargs : ArgList free W h.cells id xs vs := by
    obtain ⟨xs', vs', h₁, h₂⟩ := hi.args id hp
    rw [ha] at h₁; cases h₁; exact h₂
  have hne : ∀ {l}, W.lab l ≠ .free → l ≠ h.cells.next := by
    rintro l hl rfl; exact hl hfree
  generalize hW' : W.enter id vs.length m h.cells.next σ.pairs.next σ.nvars r e = W'
  have hother : ∀ l, W.lab l ≠ .free → (∀ k, W.lab l ≠ .arg id k) → W'.lab l = W.lab l := by
    intro l hl hk
    simp only [← hW', World.enter]
    rw [if_neg (hne hl), relabel_other hk]
  have hW : W.le W' := by
    refine ⟨fun l a h => ?_, fun l i h => ?_, fun id x hx => ?_⟩
    · rw [hother l (by simp [h]) (by simp [h]), h]
    · rw [hother l (by simp [h]) (by simp [h]), h]
    · rw [← hW']; exact hx
  have hself : W'.lab h.cells.next = .env ⟨List.range' σ.nvars m, r, e⟩ := by
    rw [← hW']; exact if_pos rfl
  have hframe : ∀ l k, W.lab l = .arg id k → k < vs.length → vs.length - 1 - k < m →
      W'.lab l = .frame h.cells.next (vs.length - 1 - k) ∧
      (h.cells.cons xs e).cell l = h.cells.cell l := by
    intro l k hl hk hkm
    have := hne (l := l) (by simp [hl])
    refine ⟨?_, Cells.cons_old this⟩
    simp only [← hW', World.enter]
    rw [if_neg this, relabel_arg hl hk, if_pos hkm]
  have huser : ∀ l k, W.lab l = .arg id k → k < vs.length → ¬ vs.length - 1 - k < m →
      W'.lab l = .user (σ.pairs.next + k) ∧ (h.cells.cons xs e).cell l = h.cells.cell l := by
    intro l k hl hk hkm
    have := hne (l := l) (by simp [hl])
    refine ⟨?_, Cells.cons_old this⟩
    simp only [← hW', World.enter]
    rw [if_neg this, relabel_arg hl hk, if_neg hkm]
  have hcases : ∀ l, W'.lab l = W.lab l ∨
      (∃ k, W.lab l = .arg id k ∧ k < vs.length ∧ vs.length - 1 - k < m ∧
        W'.lab l = .frame h.cells.next (vs.length - 1 - k)) ∨
      (∃ k, W.lab l = .arg id k ∧ k < vs.length ∧ ¬ vs.length - 1 - k < m ∧
        W'.lab l = .user (σ.pairs.next + k)) ∨
      (l = h.cells.next ∧ W'.lab l = .env ⟨List.range' σ.nvars m, r, e⟩) := by
    intro l
    by_cases hl : l = h.cells.next
    · exact .inr (.inr (.inr ⟨hl, hl ▸ hself⟩))
    · rcases relabel_cases (lab := W.lab) (id := id) (n := vs.length)
        (F := fun k => if vs.length - 1 - k < m then .frame h.cells.next (vs.length - 1 - k)
          else .user (σ.pairs.next + k)) l with ⟨k, h₁, h₂, h₃⟩ | h'
      · by_cases hkm : vs.length - 1 - k < m
        · exact .inr (.inl ⟨k, h₁, h₂, hkm, (hframe l k h₁ h₂ hkm).1⟩)
        · exact .inr (.inr (.inl ⟨k, h₁, h₂, hkm, (huser l k h₁ h₂ hkm).1⟩))
      · refine .inl ?_
        simp only [← hW', World.enter]
        rw [if_neg hl, h']
  obtain ⟨hpn, hpo⟩ := Pairs.list_spec hlist
  have hdl : (vs.drop m).length = vs.length - m := List.length_drop
  have htail : ∀ xs', ArgList free W h.cells id xs' (vs.drop m) →
      VRel free W' t xs' ∧ ∀ l k, W.lab l = .arg id k → k < (vs.drop m).length →
        VRel free W' (σ'.pairs.pair (σ.pairs.next + k)).1 ((h.cells.cons xs e).cell l).1 ∧
        VRel free W' (σ'.pairs.pair (σ.pairs.next + k)).2 ((h.cells.cons xs e).cell l).2 :=
    fun xs' hx => hx.toUser hW hi.pairs.uniq hlist
      fun l k hl hk => huser l k hl (by omega) (by omega)
  obtain ⟨xs₀, hxs₀⟩ := hargs.drop m
  refine ⟨hW, hself, ⟨fun l a hl => ?_, fun l l' a hl hl' => ?_, fun l l' i k hl hl' => ?_,
    fun l hl => ?_⟩, fun l i hl => ?_, fun id' hpe => ?_, fun id' hid' => ⟨?_, fun l k hl => ?_⟩,
    fun g => by rw [hg]; exact (hi.globals g).mono hW,
    fun i => by rw [hre]; exact (hi.regs i).mono hW⟩
  · -- user
    rcases hcases l with h' | ⟨k, h₁, h₂, h₃, h₄⟩ | ⟨k, h₁, h₂, h₃, h₄⟩ | ⟨h₁, h₂⟩
    · rw [h'] at hl
      obtain ⟨g₁, g₂, g₃⟩ := hi.pairs.user l a hl
      have := hne (l := l) (by simp [hl])
      simp only [Cells.cons_old this]
      rw [hpo a g₁]
      exact ⟨by omega, g₂.mono hW, g₃.mono hW⟩
    · rw [h₄] at hl; cases hl
    · rw [h₄] at hl; cases hl
      obtain ⟨g₁, g₂⟩ := (htail xs₀ hxs₀).2 l k h₁ (by omega)
      exact ⟨by omega, g₁, g₂⟩
    · rw [h₂] at hl; cases hl
  · -- inj
    rcases hcases l with h' | ⟨k, h₁, h₂, h₃, h₄⟩ | ⟨k, h₁, h₂, h₃, h₄⟩ | ⟨h₁, h₂⟩ <;>
    rcases hcases l' with g' | ⟨k', g₁, g₂, g₃, g₄⟩ | ⟨k', g₁, g₂, g₃, g₄⟩ | ⟨g₁, g₂⟩
    all_goals try (rw [h₄] at hl; cases hl; done)
    all_goals try (rw [h₂] at hl; cases hl; done)
    all_goals try (rw [g₄] at hl'; cases hl'; done)
    all_goals try (rw [g₂] at hl'; cases hl'; done)
    · exact hi.pairs.inj l l' a (h' ▸ hl) (g' ▸ hl')
    · rw [g₄] at hl'; cases hl'
      have := (hi.pairs.user l _ (h' ▸ hl)).1; omega
    · rw [h₄] at hl; cases hl
      have := (hi.pairs.user l' _ (g' ▸ hl')).1; omega
    · rw [h₄] at hl; rw [g₄] at hl'; cases hl
      simp only [Label.user.injEq] at hl'
      have : k' = k := by omega
      subst this
      exact hi.pairs.uniq l l' id _ h₁ g₁
  · -- uniq
    have key : ∀ {l}, W'.lab l = .arg i k → W.lab l = .arg i k := by
      intro l hl
      rcases hcases l with h' | ⟨k, h₁, h₂, h₃, h₄⟩ | ⟨k, h₁, h₂, h₃, h₄⟩ | ⟨h₁, h₂⟩
      · exact h' ▸ hl
      · rw [h₄] at hl; cases hl
      · rw [h₄] at hl; cases hl
      · rw [h₂] at hl; cases hl
    exact hi.pairs.uniq l l' i k (key hl) (key hl')
  · -- alloc
    simp only [Cells.cons]
    rcases hcases l with h' | ⟨k, h₁, h₂, h₃, h₄⟩ | ⟨k, h₁, h₂, h₃, h₄⟩ | ⟨h₁, h₂⟩
    · have := hi.pairs.alloc l (h' ▸ hl); omega
    · have := hi.pairs.alloc l (by simp [h₁]); omega
    · have := hi.pairs.alloc l (by simp [h₁]); omega
    · omega
  · -- env
    rcases hcases l with h' | ⟨k, h₁, h₂, h₃, h₄⟩ | ⟨k, h₁, h₂, h₃, h₄⟩ | ⟨h₁, h₂⟩
    · rw [h'] at hl
      refine (hi.env l i hl).congr hW (fun lc j hlc => ⟨?_, ?_⟩) ?_ (fun v hv => ?_) hold (by omega)
      · rw [hother lc (by simp [hlc]) (by simp [hlc]), hlc]
      · exact Cells.cons_old (hne (by simp [hlc]))
      · exact Cells.cons_old (hne (by simp [hl]))
      · simp only [← hW', World.enter]
        rw [if_neg (by omega)]
    · rw [h₄] at hl; cases hl
    · rw [h₄] at hl; cases hl
    · rw [h₂] at hl; cases hl; subst h₁
      refine ⟨by simp only [Cells.cons_new], fun j v hj => ?_, fun v hv => ?_, .inr ?_⟩
      · obtain ⟨hjm, hj⟩ := List.getElem?_eq_some_iff.1 hj
        simp only [List.length_range', List.getElem_range'] at hjm hj
        subst hj
        simp only [← hW', World.enter]
        rw [if_pos (by omega)]
        exact ⟨by congr 1; omega, by omega⟩
      · obtain ⟨g₁, g₂, g₃⟩ := hr v hv
        subst g₁
        simp only [← hW', World.enter]
        rw [if_pos (by omega)]
        exact ⟨by simp, g₃⟩
      · simp only [Cells.cons_new]
        refine hargs.toFrame (j := 0) (m := m) hW hframe (by simp) (by simp) (by simpa using hm)
          (fun j v hj => ?_) (fun xs' hx => ?_)
        · obtain ⟨hjm, hj⟩ := List.getElem?_eq_some_iff.1 hj
          simp only [List.length_range', List.getElem_range'] at hjm hj
          subst hj
          simpa using hnew j hjm
        · simp only [List.length_range'] at hx
          cases r with
          | none => trivial
          | some x => exact ⟨t, (hr x rfl).2.1, (htail xs' hx).1⟩
  · -- args
    rw [hpend] at hpe
    simp only [Store.redeem, update] at hpe
    split at hpe
    · cases hpe
    · rename_i hid
      obtain ⟨xs', vs', g₁, g₂⟩ := hi.args id' hpe
      refine ⟨xs', vs', hW.argv _ _ g₁, g₂.congr hW fun l k hl => ⟨?_, ?_⟩⟩
      · rw [hother l (by simp [hl]) (by simp [hl, hid]), hl]
      · exact Cells.cons_old (hne (by simp [hl]))
  · rw [← hW']
    exact (hi.ids id' (by omega)).1
  · rcases hcases l with h' | ⟨k, h₁, h₂, h₃, h₄⟩ | ⟨k, h₁, h₂, h₃, h₄⟩ | ⟨h₁, h₂⟩
    · exact (hi.ids id' (by omega)).2 l k (h' ▸ hl)
    · rw [h₄] at hl; cases hl
    · rw [h₄] at hl; cases hl
    · rw [h₂] at hl; cases hl

/-- Primitives. -/
theorem Inv.grow {W W' : World} {σ : Store} {h : Heap} {p : Pairs} {c : Cells} {id : Nat}
    (hi : Inv free W σ h) (hpend : σ.pending id = false) (hid : id < σ.nid)
    (hg : Grows W W' h.cells c id) (hp : PairsInv free W' p c) :
    W.le W' ∧ Inv free W' { σ with pairs := p } { h with cells := c } := by
  have hW : W.le W' :=
    ⟨fun l a h => by rw [hg.keep l (by simp [h]) (by simp [h]), h],
     fun l a h => by rw [hg.keep l (by simp [h]) (by simp [h]), h],
     fun id x h => by rw [hg.argv, h]⟩
  refine ⟨hW, hp, fun l i hl => ?_, fun id' hpe => ?_, fun id' hid' => ⟨?_, fun l k hl => ?_⟩,
    fun g => (hi.globals g).mono hW, fun i => (hi.regs i).mono hW⟩
  · have hl' : W.lab l = .env i := by
      rcases hg.new l with h' | ⟨a, h'⟩
      · rw [← h', hl]
      · rw [h'] at hl; cases hl
    refine (hi.env l i hl').congr hW (fun lc j hlc => ⟨?_, ?_⟩) ?_ (fun v _ => by rw [hg.place])
      (fun v _ => rfl) (Nat.le_refl _)
    · rw [hg.keep lc (by simp [hlc]) (by simp [hlc]), hlc]
    · exact hg.cells lc (by simp [hlc]) (by simp [hlc]) (by simp [hlc])
    · exact hg.cells l (by simp [hl']) (by simp [hl']) (by simp [hl'])
  · have hne : id' ≠ id := by rintro rfl; simp [hpend] at hpe
    obtain ⟨xs, vs, h₁, h₂⟩ := hi.args id' hpe
    refine ⟨xs, vs, hW.argv _ _ h₁, h₂.congr hW fun l k hl => ⟨?_, ?_⟩⟩
    · rw [hg.keep l (by simp [hl]) (by simp [hl, hne]), hl]
    · exact hg.cells l (by simp [hl]) (by simp [hl, hne]) (by simp [hl])
  · rw [hg.argv]; exact (hi.ids id' hid').1
  · rcases hg.new l with h' | ⟨a, h'⟩
    · exact (hi.ids id' hid').2 l k (h' ▸ hl)
    · rw [h'] at hl; cases hl

end Meevax.Secd
