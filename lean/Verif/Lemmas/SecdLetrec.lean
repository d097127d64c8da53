import Verif.Lemmas.SecdVars

/-! The store stays represented by `%dummy` and `%letrec`. -/

namespace Meevax.Secd

open Scheme

variable {free : Name → Nat}

/-- `%dummy`. -/
theorem Inv.dummy {W : World} {σ : Store} {h : Heap} (hi : Inv free W σ h) (m : Nat) (e : Value) :
    ∃ W', W.le W' ∧ W'.lab h.cells.next = .env ⟨List.range' σ.nvars m, none, e⟩ ∧
      ∀ σ' : Store, (∀ v, v < σ.nvars → σ'.vars v = σ.vars v) →
        (∀ v, σ.nvars ≤ v → v < σ.nvars + m → σ'.vars v = none) →
        σ'.nvars = σ.nvars + m → σ'.pairs = σ.pairs → σ'.globals = σ.globals →
        σ'.regs = σ.regs → σ'.pending = σ.pending → σ'.nid = σ.nid →
        Inv free W' σ' { h with cells := h.cells.cons .nil e } := by
  have hfree := hi.unalloc (Nat.le_refl h.cells.next)
  have hne : ∀ {l}, W.lab l ≠ .free → l ≠ h.cells.next := by
    rintro l hl rfl; exact hl hfree
  let W' : World :=
    { W with lab := fun l => if l = h.cells.next then .env ⟨List.range' σ.nvars m, none, e⟩
                             else W.lab l
             place := fun v => if σ.nvars ≤ v then (h.cells.next, v - σ.nvars) else W.place v }
  have hold : ∀ {l}, l ≠ h.cells.next → W'.lab l = W.lab l := fun hl => if_neg hl
  have hnew : W'.lab h.cells.next = .env ⟨List.range' σ.nvars m, none, e⟩ := if_pos rfl
  have hW' : W.le W' :=
    ⟨fun l a h => by rw [hold (hne (by simp [h])), h],
     fun l a h => by rw [hold (hne (by simp [h])), h], fun _ _ h => h⟩
  refine ⟨W', hW', hnew, fun σ' hv hv' hn hp hg hr hpe hid => ?_⟩
  have key : ∀ {l i k}, W'.lab l = .arg i k → W.lab l = .arg i k := by
    intro l i k hl
    by_cases h' : l = h.cells.next
    · rw [h', hnew] at hl; cases hl
    · rwa [hold h'] at hl
  refine ⟨?_, fun l i hl => ?_, fun id hid' => ?_, fun id hid' => ⟨?_, fun l k hl => ?_⟩,
    fun g => by rw [hg]; exact (hi.globals g).mono hW',
    fun i => by rw [hr]; exact (hi.regs i).mono hW'⟩
  · rw [hp]
    refine hi.pairs.congr hW' (fun l a hl => ?_) (fun l a hl => ?_) (fun l l' id k hl hl' => ?_)
      (fun l hl => ?_)
    · by_cases h' : l = h.cells.next
      · rw [h', hnew] at hl; cases hl
      · rwa [hold h'] at hl
    · exact Cells.cons_old (hne (by simp [hl]))
    · exact hi.pairs.uniq l l' id k (key hl) (key hl')
    · by_cases h' : l = h.cells.next
      · simp only [Cells.cons]; omega
      · rw [hold h'] at hl
        have := hi.pairs.alloc l hl
        simp only [Cells.cons]; omega
  · by_cases h' : l = h.cells.next
    · subst h'
      rw [hnew] at hl; cases hl
      refine ⟨by simp only [Cells.cons_new], fun j v hj => ?_, fun v hv => by simp at hv,
        .inl ⟨rfl, fun v hm => ?_⟩⟩
      · obtain ⟨hjm, hj⟩ := List.getElem?_eq_some_iff.1 hj
        simp only [List.length_range', List.getElem_range'] at hjm hj
        subst hj
        refine ⟨?_, by omega⟩
        show (if _ then _ else _) = _
        rw [if_pos (by omega)]
        congr 1; omega
      · simp only [List.mem_range'_1] at hm
        exact hv' v hm.1 (by omega)
    · rw [hold h'] at hl
      refine (hi.env l i hl).congr hW' (fun lc j hlc => ⟨?_, ?_⟩) ?_ (fun v hv => ?_) hv (by omega)
      · rw [hold (hne (by simp [hlc])), hlc]
      · exact Cells.cons_old (hne (by simp [hlc]))
      · exact Cells.cons_old h'
      · show (if _ then _ else _) = _
        rw [if_neg (by omega)]
  · rw [hpe] at hid'
    obtain ⟨xs, vs, h₁, h₂⟩ := hi.args id hid'
    refine ⟨xs, vs, h₁, h₂.congr hW' fun l k hl => ⟨?_, ?_⟩⟩
    · rw [hold (hne (by simp [hl])), hl]
    · exact Cells.cons_old (hne (by simp [hl]))
  · exact (hi.ids id (by omega)).1
  · exact (hi.ids id (by omega)).2 l k (key hl)

theorem Store.assign_spec : ∀ (locs : List Nat) (vs : List Val) (σ : Store), locs.Nodup →
    locs.length = vs.length →
    (∀ i v : Nat, locs[i]? = some v → (σ.assign locs vs).vars v = vs[i]?) ∧
    (∀ v, v ∉ locs → (σ.assign locs vs).vars v = σ.vars v) ∧
    (σ.assign locs vs).nvars = σ.nvars ∧ (σ.assign locs vs).pairs = σ.pairs ∧
    (σ.assign locs vs).globals = σ.globals ∧ (σ.assign locs vs).regs = σ.regs ∧
    (σ.assign locs vs).pending = σ.pending ∧ (σ.assign locs vs).nid = σ.nid
  | [], [], σ, _, _ => by simp [Store.assign]
  | l :: ls, v :: vs, σ, hn, hl => by
    simp only [List.nodup_cons] at hn
    obtain ⟨h₁, h₂, h₃⟩ := Store.assign_spec ls vs
      ({ σ with vars := update σ.vars l (some v) } : Store) hn.2 (by simpa using hl)
    simp only [Store.assign]
    refine ⟨fun i w hw => ?_, fun w hw => ?_, h₃⟩
    · cases i with
      | zero =>
        simp only [List.getElem?_cons_zero, Option.some.injEq] at hw
        subst hw
        rw [h₂ _ hn.1]
        simp [update]
      | succ i => simpa using h₁ i w (by simpa using hw)
    · simp only [List.mem_cons, not_or] at hw
      rw [h₂ w hw.2]
      simp [update, hw.1]
  | [], _ :: _, _, _, h => by simp at h
  | _ :: _, [], _, _, h => by simp at h

/-- The last `%cons` and `%letrec`. -/
theorem Inv.letrec {W : World} {σ : Store} {h : Heap} (hi : Inv free W σ h) {id l₀ : Nat}
    {xs x e : Value} {vs : List Val} {v : Val} {locs : List Nat}
    (ha : W.argv id = some (xs, vs)) (hp : σ.pending id = true) (hv : VRel free W v x)
    (hl₀ : W.lab l₀ = .env ⟨locs, none, e⟩) (hn : locs.Nodup)
    (hlen : locs.length = vs.length + 1) :
    ∃ W', W.le W' ∧ Inv free W' ((σ.redeem id).assign locs (v :: vs))
      { h with cells := (h.cells.cons x xs).setCar l₀ (.pair h.cells.next) } := by
  have hfree := hi.unalloc (Nat.le_refl h.cells.next)
  have hargs : ArgList free W h.cells id xs vs := by
    obtain ⟨xs', vs', h₁, h₂⟩ := hi.args id hp
    rw [ha] at h₁; cases h₁; exact h₂
  have hne : ∀ {l}, W.lab l ≠ .free → l ≠ h.cells.next := by
    rintro l hl rfl; exact hl hfree
  have hl₀n : l₀ ≠ h.cells.next := hne (by simp [hl₀])
  have hne₀ : ∀ {l}, (∀ i, W.lab l ≠ .env i) → l ≠ l₀ := by
    rintro l hl rfl; exact hl _ hl₀
  let W' : World :=
    { W with lab := fun l => if l = h.cells.next then .frame l₀ 0
                             else relabel W.lab id (vs.length + 1)
                               (fun k => .frame l₀ (vs.length + 1 - 1 - k)) l }
  have hother : ∀ l, W.lab l ≠ .free → (∀ k, W.lab l ≠ .arg id k) → W'.lab l = W.lab l := by
    intro l hl hk
    show (if _ then _ else _) = _
    rw [if_neg (hne hl), relabel_other hk]
  have hnew : W'.lab h.cells.next = .frame l₀ 0 := if_pos rfl
  have hcases : ∀ l, W'.lab l = W.lab l ∨
      (∃ k j, W.lab l = .arg id k ∧ W'.lab l = .frame l₀ j) ∨
      (l = h.cells.next ∧ W'.lab l = .frame l₀ 0) := by
    intro l
    by_cases hl : l = h.cells.next
    · exact .inr (.inr ⟨hl, hl ▸ hnew⟩)
    · rcases relabel_cases (lab := W.lab) (id := id) (n := vs.length + 1)
        (F := fun k => .frame l₀ (vs.length + 1 - 1 - k)) l with ⟨k, h₁, h₂, h₃⟩ | h'
      · exact .inr (.inl ⟨k, _, h₁, (if_neg hl).trans h₃⟩)
      · exact .inl ((if_neg hl).trans h')
  have hW : W.le W' :=
    ⟨fun l a h => by rw [hother l (by simp [h]) (by simp [h]), h],
     fun l a h => by rw [hother l (by simp [h]) (by simp [h]), h], fun _ _ h => h⟩
  have hcell : ∀ l, l ≠ h.cells.next → l ≠ l₀ →
      ((h.cells.cons x xs).setCar l₀ (.pair h.cells.next)).cell l = h.cells.cell l := by
    intro l h₁ h₂
    simp [Cells.setCar, Cells.cons, h₁, h₂]
  have hcell₀ : ((h.cells.cons x xs).setCar l₀ (.pair h.cells.next)).cell l₀ =
      (.pair h.cells.next, (h.cells.cell l₀).2) := by
    simp [Cells.setCar, Cells.cons, hl₀n]
  have hcelln : ((h.cells.cons x xs).setCar l₀ (.pair h.cells.next)).cell h.cells.next = (x, xs) := by
    simp [Cells.setCar, Cells.cons, hl₀n.symm]
  obtain ⟨a₁, a₂, a₃, a₄, a₅, a₆, a₇, a₈⟩ :=
    Store.assign_spec locs (v :: vs) (σ.redeem id) hn (by simpa using hlen)
  have hok₀ := hi.env l₀ _ hl₀
  refine ⟨W', hW, ?_, fun l i hl => ?_, fun id' hid' => ?_, fun id' hid' => ⟨?_, fun l k hl => ?_⟩,
    fun g => by rw [a₅]; exact (hi.globals g).mono hW,
    fun i => by rw [a₆]; exact (hi.regs i).mono hW⟩
  · rw [a₄]
    refine hi.pairs.congr hW (fun l a hl => ?_) (fun l a hl => ?_) (fun l l' i k hl hl' => ?_)
      (fun l hl => ?_)
    · rcases hcases l with h' | ⟨k, j, h₁, h₂⟩ | ⟨h₁, h₂⟩
      · rw [← h', hl]
      · rw [h₂] at hl; cases hl
      · rw [h₂] at hl; cases hl
    · exact hcell l (hne (by simp [hl])) (hne₀ (by simp [hl]))
    · have key : ∀ {l}, W'.lab l = .arg i k → W.lab l = .arg i k := by
        intro l hl
        rcases hcases l with h' | ⟨k, j, h₁, h₂⟩ | ⟨h₁, h₂⟩
        · rw [← h', hl]
        · rw [h₂] at hl; cases hl
        · rw [h₂] at hl; cases hl
      exact hi.pairs.uniq l l' i k (key hl) (key hl')
    · simp only [Cells.setCar, Cells.cons]
      rcases hcases l with h' | ⟨k, j, h₁, h₂⟩ | ⟨h₁, h₂⟩
      · have := hi.pairs.alloc l (h' ▸ hl); omega
      · have := hi.pairs.alloc l (by simp [h₁]); omega
      · omega
  · have hl' : W.lab l = .env i := by
      rcases hcases l with h' | ⟨k, j, h₁, h₂⟩ | ⟨h₁, h₂⟩
      · rw [← h', hl]
      · rw [h₂] at hl; cases hl
      · rw [h₂] at hl; cases hl
    by_cases hll : l = l₀
    · subst hll
      rw [hl₀] at hl'; cases hl'
      refine ⟨by rw [hcell₀]; exact hok₀.parent, fun j w hj => ?_, fun w hw => by simp at hw,
        .inr ?_⟩
      · rw [a₃]; exact hok₀.place j w hj
      · rw [hcell₀]
        cases locs with
        | nil => simp at hlen
        | cons u us =>
          refine ⟨h.cells.next, rfl, hnew, ⟨v, by simpa using a₁ 0 u (by simp), ?_⟩, ?_⟩
          · rw [hcelln]; exact hv.mono hW
          · rw [hcelln]
            simp only [List.length_cons] at hlen
            refine hargs.toFrame (N := vs.length + 1) (m := vs.length + 1) hW
              (fun l k hl hk _ => ⟨?_, ?_⟩) (by omega) (by omega) (by omega)
              (fun i w hw => by simpa using a₁ (i + 1) w (by simpa using hw)) (fun _ _ => trivial)
            · show (if _ then _ else _) = _
              rw [if_neg (hne (by simp [hl])), relabel_arg hl hk]
            · exact hcell l (hne (by simp [hl])) (hne₀ (by simp [hl]))
    · have h' := hi.env l i hl'
      have hvars : ∀ w, (∃ k, W.place w = (l, k)) →
          ((σ.redeem id).assign locs (v :: vs)).vars w = σ.vars w := by
        rintro w ⟨k, hk⟩
        rw [a₂ w]
        · rfl
        · intro hm
          obtain ⟨j, hj⟩ := List.getElem?_of_mem hm
          rw [(hok₀.place j w hj).1] at hk
          cases hk; exact hll rfl
      have hmem : ∀ w ∈ i.vars, ∃ k, W.place w = (l, k) := by
        intro w hw
        obtain ⟨k, hk⟩ := List.getElem?_of_mem hw
        exact ⟨k, (h'.place k w hk).1⟩
      have hc := hcell l (hne (by simp [hl'])) hll
      refine ⟨by rw [hc]; exact h'.parent, fun j w hj => by rw [a₃]; exact h'.place j w hj,
        fun w hw => by rw [a₃]; exact h'.placeRest w hw, ?_⟩
      rcases h'.frame with ⟨g₁, g₂⟩ | g
      · exact .inl ⟨g₁, fun w hw => (hvars w (hmem w hw)).trans (g₂ w hw)⟩
      · right
        rw [hc]
        refine g.congr hW (fun lc j hlc => ⟨?_, ?_⟩) (fun w hw => hvars w (hmem w hw))
          (fun w hw => hvars w ⟨_, (h'.placeRest w hw).1⟩)
        · rw [hother lc (by simp [hlc]) (by simp [hlc]), hlc]
        · exact hcell lc (hne (by simp [hlc])) (hne₀ (by simp [hlc]))
  · rw [a₇] at hid'
    simp only [Store.redeem, update] at hid'
    split at hid'
    · cases hid'
    · rename_i hne'
      obtain ⟨xs', vs', g₁, g₂⟩ := hi.args id' hid'
      refine ⟨xs', vs', g₁, g₂.congr hW fun l k hl => ⟨?_, ?_⟩⟩
      · rw [hother l (by simp [hl]) (by simp [hl, hne']), hl]
      · exact hcell l (hne (by simp [hl])) (hne₀ (by simp [hl]))
  · rw [a₈] at hid'
    exact (hi.ids id' hid').1
  · rw [a₈] at hid'
    rcases hcases l with h' | ⟨k, j, h₁, h₂⟩ | ⟨h₁, h₂⟩
    · exact (hi.ids id' hid').2 l _ (h' ▸ hl)
    · rw [h₂] at hl; cases hl
    · rw [h₂] at hl; cases hl

end Meevax.Secd
