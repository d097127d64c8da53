import Verif.Lemmas.SecdEnter

/-! Variables: addresses, loads and stores, and `letrec`. -/

namespace Meevax.Secd

open Scheme

variable {free : Name → Nat}

/-! ### Addresses -/

theorem lookup_append_of {x : Name} {a b : Env} : (a ++ b).lookup x = (a.lookup x).or (b.lookup x) :=
  List.lookup_append

/-- Where `addrIn` finds a variable of the innermost frame. -/
theorem addrIn_lookup {x : Name} {i : Nat} {rest : Option Name} {r : Option Nat}
    (hr : r.isSome = rest.isSome) :
    ∀ {fs : List Name} {vs : List Nat} {j : Nat}, vs.length = fs.length →
      (addrIn x i fs rest j = none → (bindings fs rest (vs ++ r.toList)).lookup x = none) ∧
      (∀ i' k, addrIn x i fs rest j = some (.relative i' k) → i' = i ∧ j ≤ k ∧
        ∃ v, vs[k - j]? = some v ∧ (bindings fs rest (vs ++ r.toList)).lookup x = some v) ∧
      (∀ i' k, addrIn x i fs rest j = some (.variadic i' k) → i' = i ∧ k = j + vs.length ∧
        ∃ v, r = some v ∧ (bindings fs rest (vs ++ r.toList)).lookup x = some v) ∧
      (∀ g, addrIn x i fs rest j ≠ some (.absolute g))
  | [], [], j, _ => by
    cases rest with
    | none => simp [addrIn, bindings]
    | some y =>
      cases r with
      | none => simp at hr
      | some v =>
        by_cases h : y = x
        · subst h; simp [addrIn, bindings]
        · have h' : (x == y) = false := beq_eq_false_iff_ne.2 fun e => h e.symm
          simp [addrIn, bindings, h, List.lookup_cons, h']
  | f :: fs, v :: vs, j, hl => by
    have hl' : vs.length = fs.length := by simpa using hl
    obtain ⟨h₁, h₂, h₃, h₄⟩ := addrIn_lookup hr (x := x) (i := i) (j := j + 1) hl'
    by_cases h : f = x
    · subst h
      simp [addrIn, bindings]
    · have h' : (x == f) = false := beq_eq_false_iff_ne.2 fun e => h e.symm
      have hb : (bindings (f :: fs) rest (v :: vs ++ r.toList)).lookup x =
          (bindings fs rest (vs ++ r.toList)).lookup x := by
        simp [bindings, List.lookup_cons, h']
      simp only [addrIn, if_neg h, hb]
      refine ⟨h₁, fun i' k hk => ?_, fun i' k hk => ?_, h₄⟩
      · obtain ⟨g₁, g₂, w, g₃, g₄⟩ := h₂ i' k hk
        refine ⟨g₁, by omega, w, ?_, g₄⟩
        rw [show k - j = (k - (j + 1)) + 1 by omega]
        simpa using g₃
      · obtain ⟨g₁, g₂, w, g₃, g₄⟩ := h₃ i' k hk
        exact ⟨g₁, by simp; omega, w, g₃, g₄⟩
  | [], _ :: _, _, h => by simp at h
  | _ :: _, [], _, h => by simp at h

/-- Where the variable `v` is. -/
inductive Located (W : World) (c : Cells) (e : Value) (v : Nat) : Identity → Prop where
  | relative {i j l : Nat} {info : EnvInfo} (ht : c.tail e i = some (.pair l))
      (hl : W.lab l = .env info) (hv : info.vars[j]? = some v) : Located W c e v (.relative i j)
  | variadic {i l : Nat} {info : EnvInfo} (ht : c.tail e i = some (.pair l))
      (hl : W.lab l = .env info) (hv : info.rest = some v) :
      Located W c e v (.variadic i info.vars.length)

theorem ERel.located {W : World} {σ : Store} {h : Heap} (hi : Inv free W σ h) {x : Name}
    {sc : Scopes} {ρ : Env} {e : Value} (he : ERel W sc ρ e) : ∀ n,
    (addrFrom x sc n = none → ρ.lookup x = none) ∧
    (∀ i j, addrFrom x sc n = some (.relative i j) → n ≤ i ∧
      ∃ v, ρ.lookup x = some v ∧ Located W h.cells e v (.relative (i - n) j)) ∧
    (∀ i j, addrFrom x sc n = some (.variadic i j) → n ≤ i ∧
      ∃ v, ρ.lookup x = some v ∧ Located W h.cells e v (.variadic (i - n) j)) := by
  induction he with
  | nil => intro n; simp [addrFrom]
  | @cons fs rest sc ρ l info hl hv hr he ih =>
    intro n
    obtain ⟨h₁, h₂, h₃, h₄⟩ := addrIn_lookup hr (x := x) (i := n) (j := 0) hv
    obtain ⟨g₁, g₂, g₃⟩ := ih (n + 1)
    have hcdr : h.cells.cdr (.pair l) = some info.parent := by
      simp only [Cells.cdr, (hi.env l info hl).parent]
    have htail : ∀ i, n + 1 ≤ i →
        h.cells.tail (.pair l) (i - n) = h.cells.tail info.parent (i - (n + 1)) := by
      intro i hi'
      rw [show i - n = (i - (n + 1)) + 1 by omega]
      simp only [Cells.tail, hcdr, Option.bind_eq_bind, Option.bind_some]
    simp only [addrFrom, List.lookup_append]
    cases ha : addrIn x n fs rest 0 with
    | none =>
      simp only [h₁ ha, Option.none_or]
      refine ⟨g₁, fun i j hij => ?_, fun i j hij => ?_⟩
      · obtain ⟨k₁, v, k₂, k₃⟩ := g₂ i j hij
        refine ⟨by omega, v, k₂, ?_⟩
        cases k₃ with
        | relative ht hl hv => exact .relative ((htail i k₁).trans ht) hl hv
      · obtain ⟨k₁, v, k₂, k₃⟩ := g₃ i j hij
        refine ⟨by omega, v, k₂, ?_⟩
        cases k₃ with
        | variadic ht hl hv => exact .variadic ((htail i k₁).trans ht) hl hv
    | some id =>
      refine ⟨by simp, fun i j hij => ?_, fun i j hij => ?_⟩
      · simp only [Option.some.injEq] at hij
        subst hij
        obtain ⟨rfl, -, v, k₁, k₂⟩ := h₂ i j ha
        exact ⟨Nat.le_refl _, v, by simp [k₂], .relative (by simp [Cells.tail]) hl k₁⟩
      · simp only [Option.some.injEq] at hij
        subst hij
        obtain ⟨rfl, hj, v, k₁, k₂⟩ := h₃ i j ha
        rw [Nat.zero_add] at hj
        subst hj
        exact ⟨Nat.le_refl _, v, by simp [k₂], .variadic (by simp [Cells.tail]) hl k₁⟩

/-- The address of a variable is where its location is. -/
theorem ERel.addr {W : World} {σ : Store} {h : Heap} (hi : Inv free W σ h) {x : Name}
    {sc : Scopes} {ρ : Env} {e : Value} (he : ERel W sc ρ e) :
    (ρ.lookup x = none ∧ addr free x sc = .absolute (free x)) ∨
    (∃ v, ρ.lookup x = some v ∧ Located W h.cells e v (addr free x sc)) := by
  obtain ⟨h₁, h₂, h₃⟩ := he.located hi (x := x) 0
  simp only [Secd.addr]
  cases ha : addrFrom x sc 0 with
  | none => exact .inl ⟨h₁ ha, rfl⟩
  | some id =>
    cases id with
    | relative i j => obtain ⟨-, v, g₁, g₂⟩ := h₂ i j ha; exact .inr ⟨v, g₁, g₂⟩
    | variadic i j => obtain ⟨-, v, g₁, g₂⟩ := h₃ i j ha; exact .inr ⟨v, g₁, g₂⟩
    | absolute g => exact absurd ha addrFrom_ne_absolute

/-! ### Loads -/

theorem Frame.get {W : World} {vars : Nat → Option Val} {c : Cells} {l : Nat} :
    ∀ {vs : List Nat} {r : Option Nat} {j₀ j : Nat} {f : Value} {v : Nat},
      Frame free W vars c l j₀ f vs r → vs[j]? = some v →
      ∃ lc sv, c.tail f j = some (.pair lc) ∧ W.lab lc = .frame l (j₀ + j) ∧
        vars v = some sv ∧ VRel free W sv (c.cell lc).1
  | [], r, _, _, _, _, _, hv => by simp at hv
  | w :: vs, r, j₀, 0, f, v, h, hv => by
    obtain ⟨lc, rfl, hlab, ⟨sv, h₁, h₂⟩, -⟩ := h
    simp only [List.getElem?_cons_zero, Option.some.injEq] at hv
    subst hv
    exact ⟨lc, sv, rfl, hlab, h₁, h₂⟩
  | w :: vs, r, j₀, j + 1, f, v, h, hv => by
    obtain ⟨lc, rfl, hlab, -, ht⟩ := h
    obtain ⟨lc', sv, h₁, h₂, h₃⟩ := ht.get (j := j) (v := v) (by simpa using hv)
    refine ⟨lc', sv, ?_, by rw [h₂]; congr 1; omega, h₃⟩
    simpa only [Cells.tail, Cells.cdr, Option.bind_eq_bind, Option.bind_some] using h₁

theorem Frame.getRest {W : World} {vars : Nat → Option Val} {c : Cells} {l : Nat} :
    ∀ {vs : List Nat} {r : Nat} {j₀ : Nat} {f : Value},
      Frame free W vars c l j₀ f vs (some r) →
      ∃ t sv, c.tail f vs.length = some t ∧ vars r = some sv ∧ VRel free W sv t
  | [], r, _, f, h => by
    obtain ⟨sv, h₁, h₂⟩ := h
    exact ⟨f, sv, rfl, h₁, h₂⟩
  | w :: vs, r, j₀, f, h => by
    obtain ⟨lc, rfl, hlab, -, ht⟩ := h
    obtain ⟨t, sv, h₁, h₂⟩ := ht.getRest
    refine ⟨t, sv, ?_, h₂⟩
    simpa only [List.length_cons, Cells.tail, Cells.cdr, Option.bind_eq_bind, Option.bind_some]
      using h₁

theorem EnvOK.isFrame {W : World} {vars : Nat → Option Val} {n : Nat} {c : Cells} {l : Nat}
    {i : EnvInfo} (h : EnvOK free W vars n c l i) {v : Nat} {sv : Val} (hv : vars v = some sv)
    (hm : v ∈ i.vars ∨ i.rest = some v) : Frame free W vars c l 0 (c.cell l).1 i.vars i.rest := by
  rcases h.frame with ⟨h₁, h₂⟩ | h
  · rcases hm with hm | hm
    · rw [h₂ v hm] at hv; cases hv
    · rw [h₁] at hm; cases hm
  · exact h

/-- `%load-…`. -/
theorem Located.load {W : World} {σ : Store} {s : List Value} {e : Value} {c : Code} {d : Dump}
    {h : Heap} {Q : Prims} (hi : Inv free W σ h) {v : Nat} {sv : Val} {id : Identity}
    (hloc : Located W h.cells e v id) (hv : σ.vars v = some sv) :
    ∃ x, VRel free W sv x ∧ step Q ⟨s, e, loadInstr id :: c, d, h⟩ = .next ⟨x :: s, e, c, d, h⟩ := by
  cases hloc with
  | @relative i j l info ht hl hj =>
    have hf := (hi.env l info hl).isFrame hv (.inl (List.mem_of_getElem? hj))
    obtain ⟨lc, sv', h₁, h₂, h₃, h₄⟩ := hf.get hj
    rw [hv] at h₃; cases h₃
    refine ⟨_, h₄, ?_⟩
    simp only [loadInstr, step, Cells.head, ht, h₁, Cells.car, Option.bind_eq_bind,
      Option.bind_some, Result.ofOption]
  | @variadic i l info ht hl hj =>
    have hf := (hi.env l info hl).isFrame hv (.inr hj)
    rw [hj] at hf
    obtain ⟨t, sv', h₁, h₂, h₃⟩ := hf.getRest
    rw [hv] at h₂; cases h₂
    refine ⟨_, h₃, ?_⟩
    simp only [loadInstr, step, Cells.head, ht, h₁, Cells.car, Option.bind_eq_bind,
      Option.bind_some, Result.ofOption]

/-! ### Stores -/

/-- Changing a variable: only the environment it belongs to changes. -/
theorem Inv.storeVar {W : World} {σ : Store} {h : Heap} (hi : Inv free W σ h) {l j v : Nat}
    {info : EnvInfo} {sv : Val} {c : Cells} (hl : W.lab l = .env info) (hp : W.place v = (l, j))
    (hn : c.next = h.cells.next)
    (hc : ∀ l', l' ≠ l → (∀ k, W.lab l' ≠ .frame l k) → c.cell l' = h.cells.cell l')
    (hd : (c.cell l).2 = (h.cells.cell l).2)
    (hf : Frame free W (update σ.vars v (some sv)) c l 0 (c.cell l).1 info.vars info.rest) :
    Inv free W { σ with vars := update σ.vars v (some sv) } { h with cells := c } := by
  have hne : ∀ l', (∀ i, W.lab l' ≠ .env i) → l' ≠ l := by
    rintro l' h' rfl; exact h' _ hl
  refine ⟨hi.pairs.congr (.refl W) (fun _ _ h => h) (fun l' a ha => ?_) hi.pairs.uniq
    (fun l' hl' => by rw [hn]; exact hi.pairs.alloc l' hl'), fun l' i' hl' => ?_,
    fun id hid => ?_, hi.ids, hi.globals, hi.regs⟩
  · exact hc l' (hne l' (by simp [ha])) (by simp [ha])
  · by_cases hll : l' = l
    · subst hll
      rw [hl] at hl'; cases hl'
      have := hi.env l' info hl
      exact ⟨hd.trans this.parent, this.place, this.placeRest, .inr hf⟩
    · have h' := hi.env l' i' hl'
      have hcell : c.cell l' = h.cells.cell l' := hc l' hll (by simp [hl'])
      have hvars : ∀ w, (∃ k, W.place w = (l', k)) → update σ.vars v (some sv) w = σ.vars w := by
        rintro w ⟨k, hk⟩
        simp only [update]
        rw [if_neg]
        rintro rfl
        rw [hp] at hk; cases hk; exact hll rfl
      have hmem : ∀ w ∈ i'.vars, ∃ k, W.place w = (l', k) := by
        intro w hw
        obtain ⟨k, hk⟩ := List.getElem?_of_mem hw
        exact ⟨k, (h'.place k w hk).1⟩
      refine ⟨hcell ▸ h'.parent, h'.place, h'.placeRest, ?_⟩
      rcases h'.frame with ⟨g₁, g₂⟩ | g
      · exact .inl ⟨g₁, fun w hw => (hvars w (hmem w hw)).trans (g₂ w hw)⟩
      · right
        simp only [hcell]
        refine g.congr (.refl W) (fun lc k hlc => ⟨hlc, ?_⟩) (fun w hw => hvars w (hmem w hw))
          (fun w hw => hvars w ⟨_, (h'.placeRest w hw).1⟩)
        refine hc lc (hne lc (by simp [hlc])) (fun k' hk' => ?_)
        rw [hlc] at hk'; cases hk'; exact hll rfl
  · obtain ⟨xs, vs, h₁, h₂⟩ := hi.args id hid
    refine ⟨xs, vs, h₁, h₂.congr (.refl W) fun l' k hlk => ⟨hlk, ?_⟩⟩
    exact hc l' (hne l' (by simp [hlk])) (by simp [hlk])

/-- Assigning the `j`-th variable of a frame. -/
theorem Frame.setCar {W : World} {vars : Nat → Option Val} {c : Cells} {l lc v : Nat} {sv : Val}
    {x : Value} (hx : VRel free W sv x) :
    ∀ {vs : List Nat} {r : Option Nat} {j₀ j : Nat} {f : Value},
      Frame free W vars c l j₀ f vs r → W.lab lc = .frame l (j₀ + j) →
      c.tail f j = some (.pair lc) → vs[j]? = some v →
      (∀ k, vs[k]? = some v → k = j) → r ≠ some v →
      Frame free W (update vars v (some sv)) (c.setCar lc x) l j₀ f vs r
  | [], r, _, _, _, _, _, _, hv, _, _ => by simp at hv
  | w :: vs, r, j₀, 0, f, h, hlc, ht, hv, hu, hr => by
    obtain ⟨lc', rfl, hlab, ⟨sv', h₁, h₂⟩, hrest⟩ := h
    simp only [Cells.tail, Option.some.injEq, Value.pair.injEq] at ht
    subst ht
    simp only [List.getElem?_cons_zero, Option.some.injEq] at hv
    subst hv
    refine ⟨lc', rfl, hlab, ⟨sv, by simp [update], by simpa [Cells.setCar] using hx⟩, ?_⟩
    have hcell : ((c.setCar lc' x).cell lc').2 = (c.cell lc').2 := by simp [Cells.setCar]
    rw [hcell]
    clear hlc
    have key : ∀ {vs : List Nat} {j₁ : Nat} {f : Value}, j₀ < j₁ → w ∉ vs →
        Frame free W vars c l j₁ f vs r →
        Frame free W (update vars w (some sv)) (c.setCar lc' x) l j₁ f vs r := by
      intro vs
      induction vs with
      | nil =>
        intro j₁ f _ _ h
        cases r with
        | none => trivial
        | some r =>
          obtain ⟨sv', g₁, g₂⟩ := h
          refine ⟨sv', ?_, g₂⟩
          rw [← g₁]; simp only [update]; rw [if_neg]; rintro rfl; exact hr rfl
      | cons u us ih =>
        intro j₁ f hj hm h
        obtain ⟨lu, rfl, g₁, ⟨sv', g₂, g₃⟩, g₄⟩ := h
        have hlu : lu ≠ lc' := by
          rintro rfl; rw [hlab] at g₁; cases g₁; omega
        have hcell : (c.setCar lc' x).cell lu = c.cell lu := by simp [Cells.setCar, hlu]
        simp only [List.mem_cons, not_or] at hm
        refine ⟨lu, rfl, g₁, ⟨sv', ?_, by rw [hcell]; exact g₃⟩, ?_⟩
        · rw [← g₂]; simp only [update]; rw [if_neg]; rintro rfl; exact hm.1 rfl
        · rw [hcell]; exact ih (by omega) hm.2 g₄
    refine key (by omega) (fun hm => ?_) hrest
    obtain ⟨k, hk⟩ := List.getElem?_of_mem hm
    have := hu (k + 1) (by simpa using hk)
    omega
  | w :: vs, r, j₀, j + 1, f, h, hlc, ht, hv, hu, hr => by
    obtain ⟨lc', rfl, hlab, ⟨sv', h₁, h₂⟩, hrest⟩ := h
    have hne : lc' ≠ lc := by
      rintro rfl; rw [hlab] at hlc; simp only [Label.frame.injEq] at hlc; omega
    have hcell : (c.setCar lc x).cell lc' = c.cell lc' := by simp [Cells.setCar, hne]
    have hw : w ≠ v := by
      rintro rfl; have := hu 0 (by simp); omega
    refine ⟨lc', rfl, hlab, ⟨sv', by simpa [update, hw] using h₁, by rw [hcell]; exact h₂⟩, ?_⟩
    rw [hcell]
    refine hrest.setCar hx (j := j) (by rw [hlc]; congr 1; omega) ?_ (by simpa using hv)
      (fun k hk => ?_) hr
    · simpa only [Cells.tail, Cells.cdr, Option.bind_eq_bind, Option.bind_some] using ht
    · have := hu (k + 1) (by simpa using hk); omega

/-- Assigning the rest variable of a frame with other variables. -/
theorem Frame.setCdr {W : World} {vars : Nat → Option Val} {c : Cells} {l lc v : Nat} {sv : Val}
    {x : Value} (hx : VRel free W sv x) :
    ∀ {vs : List Nat} {j₀ j : Nat} {f : Value},
      Frame free W vars c l j₀ f vs (some v) → W.lab lc = .frame l (j₀ + j) →
      c.tail f j = some (.pair lc) → vs.length = j + 1 → v ∉ vs →
      Frame free W (update vars v (some sv)) (c.setCdr lc x) l j₀ f vs (some v)
  | [], _, _, _, _, _, _, hv, _ => by simp at hv
  | w :: vs, j₀, 0, f, h, hlc, ht, hv, hm => by
    obtain ⟨lc', rfl, hlab, ⟨sv', h₁, h₂⟩, hrest⟩ := h
    simp only [Cells.tail, Option.some.injEq, Value.pair.injEq] at ht
    subst ht
    simp only [List.mem_cons, not_or] at hm
    have hw : w ≠ v := fun e => hm.1 e.symm
    refine ⟨lc', rfl, hlab, ⟨sv', by simpa [update, hw] using h₁, by simpa [Cells.setCdr] using h₂⟩,
      ?_⟩
    have : vs = [] := by simpa using hv
    subst this
    exact ⟨sv, by simp [update], by simpa [Cells.setCdr] using hx⟩
  | w :: vs, j₀, j + 1, f, h, hlc, ht, hv, hm => by
    obtain ⟨lc', rfl, hlab, ⟨sv', h₁, h₂⟩, hrest⟩ := h
    have hne : lc' ≠ lc := by
      rintro rfl; rw [hlab] at hlc; simp only [Label.frame.injEq] at hlc; omega
    have hcell : (c.setCdr lc x).cell lc' = c.cell lc' := by simp [Cells.setCdr, hne]
    simp only [List.mem_cons, not_or] at hm
    have hw : w ≠ v := fun e => hm.1 e.symm
    refine ⟨lc', rfl, hlab, ⟨sv', by simpa [update, hw] using h₁, by rw [hcell]; exact h₂⟩, ?_⟩
    rw [hcell]
    refine hrest.setCdr hx (j := j) (by rw [hlc]; congr 1; omega) ?_ (by simpa using hv) hm.2
    simpa only [Cells.tail, Cells.cdr, Option.bind_eq_bind, Option.bind_some] using ht

/-- `%store-…`. -/
theorem Located.store {W : World} {σ : Store} {s : List Value} {e : Value} {c : Code} {d : Dump}
    {h : Heap} {Q : Prims} (hi : Inv free W σ h) {v : Nat} {sv sv₀ : Val} {x : Value} {id : Identity}
    (hx : VRel free W sv x) (hloc : Located W h.cells e v id) (hv : σ.vars v = some sv₀) :
    ∃ cells, step Q ⟨x :: s, e, storeInstr id :: c, d, h⟩ =
        .next ⟨x :: s, e, c, d, { h with cells }⟩ ∧
      Inv free W { σ with vars := update σ.vars v (some sv) } { h with cells } := by
  cases hloc with
  | @relative i j l info ht hl hj =>
    have hok := hi.env l info hl
    have hf := hok.isFrame hv (.inl (List.mem_of_getElem? hj))
    obtain ⟨lc, sv', h₁, h₂, h₃, h₄⟩ := hf.get hj
    have hne : l ≠ lc := by rintro rfl; rw [hl] at h₂; cases h₂
    refine ⟨h.cells.setCar lc x, ?_, ?_⟩
    · simp only [storeInstr, step, Cells.head, Cells.setHead, ht, h₁, Cells.car,
        Option.bind_eq_bind, Option.bind_some, Result.ofOption]
    · have hcell : (h.cells.setCar lc x).cell l = h.cells.cell l := by simp [Cells.setCar, hne]
      refine hi.storeVar hl (hok.place j v hj).1 rfl (fun l' h₁ h₂' => ?_) (by rw [hcell]) ?_
      · have : l' ≠ lc := by rintro rfl; exact h₂' _ h₂
        simp [Cells.setCar, this]
      · rw [hcell]
        refine hf.setCar hx h₂ h₁ hj (fun k hk => ?_) (fun hr => ?_)
        · have := (hok.place k v hk).1
          rw [(hok.place j v hj).1] at this
          cases this; rfl
        · have := (hok.placeRest v hr).1
          rw [(hok.place j v hj).1] at this
          simp only [Prod.mk.injEq, true_and] at this
          obtain ⟨hlt, -⟩ := List.getElem?_eq_some_iff.1 hj
          omega
  | @variadic i l info ht hl hj =>
    have hok := hi.env l info hl
    have hf := hok.isFrame hv (.inr hj)
    have hplace := (hok.placeRest v hj).1
    have hnm : v ∉ info.vars := by
      intro hm
      obtain ⟨k, hk⟩ := List.getElem?_of_mem hm
      have := (hok.place k v hk).1
      rw [hplace] at this
      simp only [Prod.mk.injEq, true_and] at this
      obtain ⟨hlt, -⟩ := List.getElem?_eq_some_iff.1 hk
      omega
    cases hvs : info.vars.length with
    | zero =>
      have hnil : info.vars = [] := List.eq_nil_of_length_eq_zero hvs
      refine ⟨h.cells.setCar l x, ?_, ?_⟩
      · simp only [storeInstr, step, Cells.setTail, Cells.setHead, ht,
          Option.bind_eq_bind, Option.bind_some, Result.ofOption]
      · refine hi.storeVar hl hplace rfl (fun l' h₁ _ => by simp [Cells.setCar, h₁])
          (by simp [Cells.setCar]) ?_
        rw [hnil, hj]
        exact ⟨sv, by simp [update], by simpa [Cells.setCar] using hx⟩
    | succ j =>
      obtain ⟨w, hw⟩ : ∃ w, info.vars[j]? = some w :=
        ⟨_, List.getElem?_eq_some_iff.2 ⟨by omega, rfl⟩⟩
      obtain ⟨lc, sv', h₁, h₂, h₃, h₄⟩ := hf.get hw
      have hne : l ≠ lc := by rintro rfl; rw [hl] at h₂; cases h₂
      refine ⟨h.cells.setCdr lc x, ?_, ?_⟩
      · simp only [storeInstr, step, Cells.setTail, Cells.head, ht, h₁, Cells.car,
          Option.bind_eq_bind, Option.bind_some, Result.ofOption]
      · have hcell : (h.cells.setCdr lc x).cell l = h.cells.cell l := by simp [Cells.setCdr, hne]
        refine hi.storeVar hl hplace rfl (fun l' h₁ h₂' => ?_) (by rw [hcell]) ?_
        · have : l' ≠ lc := by rintro rfl; exact h₂' _ h₂
          simp [Cells.setCdr, this]
        · rw [hcell]
          rw [hj] at hf ⊢
          exact hf.setCdr hx h₂ h₁ hvs hnm

end Meevax.Secd
