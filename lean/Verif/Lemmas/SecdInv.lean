import Verif.Lemmas.SecdRel
import Mathlib.Tactic.Tauto
import Mathlib.Tactic.ByContra

/-! The store stays represented: one lemma for each thing the machine does to the heap. -/

namespace Meevax.Secd

open Scheme

variable {free : Name → Nat}

theorem ArgList.congr {W W' : World} {c c' : Cells} {id : Nat} (hW : W.le W')
    (hl : ∀ l k, W.lab l = .arg id k → W'.lab l = .arg id k ∧ c'.cell l = c.cell l) :
    ∀ {vs : List Val} {xs : Value}, ArgList free W c id xs vs → ArgList free W' c' id xs vs
  | [], _, h => h
  | v :: vs, xs, h => by
    obtain ⟨l, rfl, hlab, hv, ht⟩ := h
    obtain ⟨h₁, h₂⟩ := hl _ _ hlab
    exact ⟨l, rfl, h₁, h₂ ▸ hv.mono hW, h₂ ▸ ArgList.congr hW hl ht⟩

theorem Frame.congr {W W' : World} {vars vars' : Nat → Option Val} {c c' : Cells} {l : Nat}
    (hW : W.le W')
    (hl : ∀ lc j, W.lab lc = .frame l j → W'.lab lc = .frame l j ∧ c'.cell lc = c.cell lc) :
    ∀ {vs : List Nat} {r : Option Nat} {j : Nat} {f : Value},
      (∀ v ∈ vs, vars' v = vars v) → (∀ v, r = some v → vars' v = vars v) →
      Frame free W vars c l j f vs r → Frame free W' vars' c' l j f vs r
  | [], none, _, _, _, _, _ => trivial
  | [], some r, _, _, _, hr, h => by
    obtain ⟨sv, h₁, h₂⟩ := h
    exact ⟨sv, (hr r rfl).trans h₁, h₂.mono hW⟩
  | v :: vs, r, j, f, hv, hr, h => by
    obtain ⟨lc, rfl, hlab, ⟨sv, h₁, h₂⟩, ht⟩ := h
    obtain ⟨h₃, h₄⟩ := hl _ _ hlab
    exact ⟨lc, rfl, h₃, ⟨sv, (hv v (by simp)).trans h₁, h₄ ▸ h₂.mono hW⟩,
      h₄ ▸ Frame.congr hW hl (fun v h => hv v (by simp [h])) hr ht⟩

theorem EnvOK.congr {W W' : World} {vars vars' : Nat → Option Val} {n n' : Nat} {c c' : Cells}
    {l : Nat} {i : EnvInfo} (hW : W.le W')
    (hl : ∀ lc j, W.lab lc = .frame l j → W'.lab lc = .frame l j ∧ c'.cell lc = c.cell lc)
    (hc : c'.cell l = c.cell l) (hp : ∀ v, v < n → W'.place v = W.place v)
    (hv : ∀ v, v < n → vars' v = vars v) (hn : n ≤ n') (h : EnvOK free W vars n c l i) :
    EnvOK free W' vars' n' c' l i := by
  have hlt : ∀ v ∈ i.vars, v < n := by
    intro v hm
    obtain ⟨j, hj⟩ := List.getElem?_of_mem hm
    exact (h.place j v hj).2
  refine ⟨hc ▸ h.parent, fun j v hj => ?_, fun v hr => ?_, ?_⟩
  · obtain ⟨h₁, h₂⟩ := h.place j v hj
    exact ⟨(hp v h₂).trans h₁, by omega⟩
  · obtain ⟨h₁, h₂⟩ := h.placeRest v hr
    exact ⟨(hp v h₂).trans h₁, by omega⟩
  · rcases h.frame with ⟨h₁, h₂⟩ | h₁
    · exact .inl ⟨h₁, fun v hm => (hv v (hlt v hm)).trans (h₂ v hm)⟩
    · refine .inr (hc ▸ h₁.congr hW hl (fun v hm => hv v (hlt v hm)) fun v hr => ?_)
      exact hv v (h.placeRest v hr).2

theorem PairsInv.congr {W W' : World} {p : Pairs} {c c' : Cells} (hW : W.le W')
    (hu : ∀ l a, W'.lab l = .user a → W.lab l = .user a)
    (hc : ∀ l a, W.lab l = .user a → c'.cell l = c.cell l)
    (hq : ∀ l l' id k, W'.lab l = .arg id k → W'.lab l' = .arg id k → l = l')
    (ha : ∀ l, W'.lab l ≠ .free → l < c'.next) (h : PairsInv free W p c) :
    PairsInv free W' p c' := by
  refine ⟨fun l a hl => ?_, fun l l' a hl hl' => h.inj l l' a (hu l a hl) (hu l' a hl'), hq, ha⟩
  obtain ⟨h₁, h₂, h₃⟩ := h.user l a (hu l a hl)
  rw [hc l a (hu l a hl)]
  exact ⟨h₁, h₂.mono hW, h₃.mono hW⟩

theorem Inv.unalloc {W : World} {σ : Store} {h : Heap} (hi : Inv free W σ h) {l : Nat}
    (hl : h.cells.next ≤ l) : W.lab l = .free := by
  by_contra hne
  have := hi.pairs.alloc l hne
  omega

/-- Using a ticket. -/
theorem Inv.redeem {W : World} {σ : Store} {h : Heap} (hi : Inv free W σ h) (id : Nat) :
    Inv free W (σ.redeem id) h := by
  refine ⟨hi.pairs, hi.env, fun id' hp => ?_, hi.ids, hi.globals, hi.regs⟩
  simp only [Store.redeem, update] at hp
  split at hp
  · cases hp
  · exact hi.args id' hp

/-- Issuing a ticket for a list. -/
theorem Inv.issue {W W' : World} {σ : Store} {h h' : Heap} {xs : Value} {vs : List Val}
    (hi : Inv free W σ h) (hW : W.le W')
    (hu : ∀ l a, W'.lab l = .user a → W.lab l = .user a)
    (he : ∀ l i, W'.lab l = .env i → W.lab l = .env i)
    (hf : ∀ l lc j, W.lab lc = .frame l j → W'.lab lc = .frame l j)
    (hg : ∀ l id k, σ.pending id = true → W.lab l = .arg id k → W'.lab l = .arg id k)
    (hq : ∀ l l' id k, W'.lab l = .arg id k → W'.lab l' = .arg id k → l = l')
    (hn : ∀ l id k, σ.nid < id → W'.lab l ≠ .arg id k)
    (ha : ∀ l, W'.lab l ≠ .free → l < h'.cells.next)
    (hc : ∀ l, W.lab l ≠ .free → h'.cells.cell l = h.cells.cell l)
    (hp : W'.place = W.place)
    (hargv : ∀ id, W'.argv id = if id = σ.nid then some (xs, vs) else W.argv id)
    (hglob : h'.globals = h.globals) (hregs : h'.regs = h.regs)
    (hlist : ArgList free W' h'.cells σ.nid xs vs) : Inv free W' σ.issue h' := by
  refine ⟨hi.pairs.congr hW hu (fun l a hl => hc l (by simp [hl])) hq ha, fun l i hl => ?_,
    fun id hpend => ?_, fun id hid => ?_, fun g => hglob ▸ (hi.globals g).mono hW,
    fun i => hregs ▸ (hi.regs i).mono hW⟩
  · exact (hi.env l i (he l i hl)).congr hW
      (fun lc j hlc => ⟨hf l lc j hlc, hc lc (by simp [hlc])⟩)
      (hc l (by simp [he l i hl])) (fun v _ => by rw [hp]) (fun v _ => rfl) (Nat.le_refl _)
  · simp only [Store.issue, update] at hpend
    by_cases h : id = σ.nid
    · exact ⟨xs, vs, by rw [hargv, if_pos h], h ▸ hlist⟩
    · rw [if_neg h] at hpend
      obtain ⟨xs', vs', h₁, h₂⟩ := hi.args id hpend
      exact ⟨xs', vs', by rw [hargv, if_neg h, h₁],
        h₂.congr hW fun l k hl => ⟨hg l id k hpend hl, hc l (by simp [hl])⟩⟩
  · simp only [Store.issue] at hid
    refine ⟨?_, fun l k => hn l id k (by omega)⟩
    rw [hargv, if_neg (by omega)]
    exact (hi.ids id (by omega)).1

def World.withArgs (W : World) (id : Nat) (xs : Value) (vs : List Val) : World :=
  { W with argv := fun i => if i = id then some (xs, vs) else W.argv i }

/-- A ticket for the empty list. -/
theorem Inv.issueNil {W : World} {σ : Store} {h : Heap} (hi : Inv free W σ h) :
    W.le (W.withArgs σ.nid .nil []) ∧ Inv free (W.withArgs σ.nid .nil []) σ.issue h := by
  have hW : W.le (W.withArgs σ.nid .nil []) := by
    refine ⟨fun _ _ h => h, fun _ _ h => h, fun id x hx => ?_⟩
    simp only [World.withArgs]
    split
    · rename_i h; subst h; rw [(hi.ids _ (Nat.le_refl _)).1] at hx; cases hx
    · exact hx
  exact ⟨hW, hi.issue hW (fun _ _ h => h) (fun _ _ h => h) (fun _ _ _ h => h) (fun _ _ _ _ h => h)
    hi.pairs.uniq (fun l id k h => (hi.ids id (by omega)).2 l k) hi.pairs.alloc (fun _ _ => rfl)
    rfl (fun _ => rfl) rfl rfl rfl⟩

/-- New labels for the first `n` cells of the list of ticket `id`. -/
def relabel (lab : Nat → Label) (id n : Nat) (F : Nat → Label) : Nat → Label := fun l =>
  match lab l with
  | .arg i k => if i = id ∧ k < n then F k else .arg i k
  | x => x

theorem relabel_arg {lab : Nat → Label} {id n : Nat} {F : Nat → Label} {l k : Nat}
    (h : lab l = .arg id k) (hk : k < n) : relabel lab id n F l = F k := by
  simp [relabel, h, hk]

theorem relabel_other {lab : Nat → Label} {id n : Nat} {F : Nat → Label} {l : Nat}
    (h : ∀ k, lab l ≠ .arg id k) : relabel lab id n F l = lab l := by
  simp only [relabel]
  split
  · rename_i i k hl
    rw [if_neg, hl]
    rintro ⟨rfl, -⟩
    exact h k hl
  · rfl

/-- What a new label comes from. -/
theorem relabel_cases {lab : Nat → Label} {id n : Nat} {F : Nat → Label} (l : Nat) :
    (∃ k, lab l = .arg id k ∧ k < n ∧ relabel lab id n F l = F k) ∨
    relabel lab id n F l = lab l := by
  simp only [relabel]
  split
  · rename_i i k hl
    split
    · rename_i h
      obtain ⟨rfl, hk⟩ := h
      exact .inl ⟨k, hl, hk, rfl⟩
    · exact .inr hl.symm
  · exact .inr rfl

/-- The list of ticket `id` with one more element, for the next ticket. -/
def World.push (W : World) (id n nid next : Nat) (vs : List Val) : World :=
  { W with
    lab := fun l => if l = next then .arg nid n else relabel W.lab id n (.arg nid) l
    argv := fun i => if i = nid then some (.pair next, vs) else W.argv i }

theorem ArgList.relabel {W W' : World} {c c' : Cells} {id n : Nat} {id' : Nat} (hW : W.le W')
    (hl : ∀ l k, W.lab l = .arg id k → k < n → W'.lab l = .arg id' k ∧ c'.cell l = c.cell l) :
    ∀ {vs : List Val} {xs : Value}, vs.length ≤ n → ArgList free W c id xs vs →
      ArgList free W' c' id' xs vs
  | [], _, _, h => h
  | v :: vs, xs, hn, h => by
    obtain ⟨l, rfl, hlab, hv, ht⟩ := h
    simp only [List.length_cons] at hn
    obtain ⟨h₁, h₂⟩ := hl _ _ hlab (by omega)
    exact ⟨l, rfl, h₁, h₂ ▸ hv.mono hW, h₂ ▸ ArgList.relabel hW hl (by omega) ht⟩

theorem Cells.cons_old {c : Cells} {a d : Value} {l : Nat} (h : l ≠ c.next) :
    (c.cons a d).cell l = c.cell l := by simp [Cells.cons, h]

theorem Cells.cons_new {c : Cells} {a d : Value} : (c.cons a d).cell c.next = (a, d) := by
  simp [Cells.cons]

/-- `%cons`, when an operand has been evaluated. -/
theorem Inv.push {W : World} {σ : Store} {h : Heap} (hi : Inv free W σ h) {id : Nat} {xs x : Value}
    {vs : List Val} {v : Val} (ha : W.argv id = some (xs, vs)) (hp : σ.pending id = true)
    (hv : VRel free W v x) :
    W.le (W.push id vs.length σ.nid h.cells.next (v :: vs)) ∧
    Inv free (W.push id vs.length σ.nid h.cells.next (v :: vs)) (σ.redeem id).issue
      { h with cells := h.cells.cons x xs } := by
  have hfree := hi.unalloc (Nat.le_refl h.cells.next)
  have hlist : ArgList free W h.cells id xs vs := by
    obtain ⟨xs', vs', h₁, h₂⟩ := hi.args id hp
    rw [ha] at h₁; cases h₁; exact h₂
  have hid : id ≠ σ.nid := by
    rintro rfl
    rw [(hi.ids _ (Nat.le_refl _)).1] at ha; cases ha
  have hne : ∀ {l}, W.lab l ≠ .free → l ≠ h.cells.next := by
    rintro l hl rfl; exact hl hfree
  have hother : ∀ l, W.lab l ≠ .free → (∀ k, W.lab l ≠ .arg id k) →
      (W.push id vs.length σ.nid h.cells.next (v :: vs)).lab l = W.lab l := by
    intro l hl hk
    simp only [World.push]
    rw [if_neg (hne hl), relabel_other hk]
  have hW : W.le (W.push id vs.length σ.nid h.cells.next (v :: vs)) := by
    refine ⟨fun l a h => ?_, fun l i h => ?_, fun id x hx => ?_⟩
    · rw [hother l (by simp [h]) (by simp [h]), h]
    · rw [hother l (by simp [h]) (by simp [h]), h]
    · simp only [World.push]
      split
      · rename_i h; subst h; rw [(hi.ids _ (Nat.le_refl _)).1] at hx; cases hx
      · exact hx
  have hcases : ∀ l, (W.push id vs.length σ.nid h.cells.next (v :: vs)).lab l = W.lab l ∨
      (∃ k, W.lab l = .arg id k ∧ k < vs.length ∧
        (W.push id vs.length σ.nid h.cells.next (v :: vs)).lab l = .arg σ.nid k) ∨
      (l = h.cells.next ∧
        (W.push id vs.length σ.nid h.cells.next (v :: vs)).lab l = .arg σ.nid vs.length) := by
    intro l
    simp only [World.push]
    split
    · rename_i h; exact .inr (.inr ⟨h, rfl⟩)
    · rcases relabel_cases (lab := W.lab) (id := id) (n := vs.length) (F := .arg σ.nid) l
        with h | h
      · exact .inr (.inl h)
      · exact .inl h
  refine ⟨hW, (hi.redeem id).issue (xs := .pair h.cells.next) (vs := v :: vs) hW
    (fun l a hl => ?_) (fun l i hl => ?_) (fun l lc j hlc => ?_) (fun l id' k hpend hl => ?_)
    (fun l l' id' k hl hl' => ?_) (fun l id' k hid' hl => ?_) (fun l hl => ?_) (fun l hl => ?_)
    rfl (fun _ => rfl) rfl rfl ?_⟩
  · rcases hcases l with h | ⟨k, h₁, h₂, h₃⟩ | ⟨h₁, h₂⟩
    · rw [← h, hl]
    · rw [h₃] at hl; cases hl
    · rw [h₂] at hl; cases hl
  · rcases hcases l with h | ⟨k, h₁, h₂, h₃⟩ | ⟨h₁, h₂⟩
    · rw [← h, hl]
    · rw [h₃] at hl; cases hl
    · rw [h₂] at hl; cases hl
  · rw [hother lc (by simp [hlc]) (by simp [hlc]), hlc]
  · have : id' ≠ id := by
      rintro rfl; simp [Store.redeem, update] at hpend
    rw [hother l (by simp [hl]) (by simp [hl, this]), hl]
  · have hnid : ∀ l k, W.lab l ≠ .arg σ.nid k := (hi.ids _ (Nat.le_refl _)).2
    rcases hcases l with h | ⟨k₁, h₁, h₂, h₃⟩ | ⟨h₁, h₂⟩ <;>
    rcases hcases l' with g | ⟨k₂, g₁, g₂, g₃⟩ | ⟨g₁, g₂⟩
    · exact hi.pairs.uniq l l' id' k (h ▸ hl) (g ▸ hl')
    · rw [g₃] at hl'; cases hl'; exact absurd (h ▸ hl) (hnid _ _)
    · rw [g₂] at hl'; cases hl'; exact absurd (h ▸ hl) (hnid _ _)
    · rw [h₃] at hl; cases hl; exact absurd (g ▸ hl') (hnid _ _)
    · rw [h₃] at hl; rw [g₃] at hl'; cases hl; cases hl'
      exact hi.pairs.uniq l l' id _ h₁ g₁
    · rw [h₃] at hl; rw [g₂] at hl'; cases hl; cases hl'; omega
    · rw [h₂] at hl; cases hl; exact absurd (g ▸ hl') (hnid _ _)
    · rw [h₂] at hl; rw [g₃] at hl'; cases hl; cases hl'; omega
    · rw [h₁, g₁]
  · have hid' : σ.nid < id' := hid'
    rcases hcases l with h | ⟨k₁, h₁, h₂, h₃⟩ | ⟨h₁, h₂⟩
    · exact (hi.ids id' (by omega)).2 l k (h ▸ hl)
    · rw [h₃] at hl; cases hl; omega
    · rw [h₂] at hl; cases hl; omega
  · rcases hcases l with h' | ⟨k₁, h₁, h₂, h₃⟩ | ⟨h₁, h₂⟩
    · rw [h'] at hl
      have := hi.pairs.alloc l hl
      simp only [Cells.cons]; omega
    · have := hi.pairs.alloc l (by simp [h₁])
      simp only [Cells.cons]; omega
    · simp only [Cells.cons]; omega
  · exact Cells.cons_old (hne hl)
  · refine ⟨h.cells.next, rfl, by simp [World.push, Store.redeem], ?_, ?_⟩
    · simp only [Cells.cons_new]; exact hv.mono hW
    · simp only [Cells.cons_new]
      refine hlist.relabel hW (n := vs.length) (fun l k hl hk => ⟨?_, ?_⟩) (Nat.le_refl _)
      · simp only [World.push]
        rw [if_neg (hne (by simp [hl])), relabel_arg hl hk]; rfl
      · exact Cells.cons_old (hne (by simp [hl]))

/-- `%load-continuation`. -/
theorem Inv.pushCont {W : World} {σ : Store} {h : Heap} (hi : Inv free W σ h) {x : Value} {v : Val}
    (hv : VRel free W v x) :
    ∃ W', W.le W' ∧ W'.argv σ.nid = some (.pair h.cells.next, [v]) ∧
      Inv free W' σ.issue { h with cells := h.cells.cons x .nil } := by
  have hfree := hi.unalloc (Nat.le_refl h.cells.next)
  have hne : ∀ {l}, W.lab l ≠ .free → l ≠ h.cells.next := by
    rintro l hl rfl; exact hl hfree
  have hnid : ∀ l k, W.lab l ≠ .arg σ.nid k := (hi.ids _ (Nat.le_refl _)).2
  let W' : World :=
    { W with lab := fun l => if l = h.cells.next then .arg σ.nid 0 else W.lab l
             argv := fun i => if i = σ.nid then some (.pair h.cells.next, [v]) else W.argv i }
  have hold : ∀ {l}, l ≠ h.cells.next → W'.lab l = W.lab l := fun hl => if_neg hl
  have hnew : W'.lab h.cells.next = .arg σ.nid 0 := if_pos rfl
  have hW' : W.le W' := by
    refine ⟨fun l a h => ?_, fun l i h => ?_, fun id x hx => ?_⟩
    · rw [hold (hne (by simp [h])), h]
    · rw [hold (hne (by simp [h])), h]
    · show (if id = σ.nid then _ else _) = _
      split
      · rename_i h; subst h; rw [(hi.ids _ (Nat.le_refl _)).1] at hx; cases hx
      · exact hx
  refine ⟨W', hW', if_pos rfl, hi.issue hW' (fun l a hl => ?_) (fun l i hl => ?_)
    (fun l lc j hlc => ?_) (fun l id' k hpend hl => ?_)
    (fun l l' id' k hl hl' => ?_) (fun l id' k hid' hl => ?_) (fun l hl => ?_) (fun l hl => ?_)
    rfl (fun _ => rfl) rfl rfl ?_⟩
  · by_cases h' : l = h.cells.next
    · rw [h', hnew] at hl; cases hl
    · rwa [hold h'] at hl
  · by_cases h' : l = h.cells.next
    · rw [h', hnew] at hl; cases hl
    · rwa [hold h'] at hl
  · rw [hold (hne (by simp [hlc])), hlc]
  · rw [hold (hne (by simp [hl])), hl]
  · by_cases h₁ : l = h.cells.next <;> by_cases h₂ : l' = h.cells.next
    · rw [h₁, h₂]
    · rw [h₁, hnew] at hl; cases hl
      rw [hold h₂] at hl'; exact absurd hl' (hnid _ _)
    · rw [h₂, hnew] at hl'; cases hl'
      rw [hold h₁] at hl; exact absurd hl (hnid _ _)
    · rw [hold h₁] at hl; rw [hold h₂] at hl'
      exact hi.pairs.uniq l l' id' k hl hl'
  · by_cases h' : l = h.cells.next
    · rw [h', hnew] at hl; cases hl; omega
    · rw [hold h'] at hl
      exact (hi.ids id' (by omega)).2 l k hl
  · by_cases h' : l = h.cells.next
    · simp only [Cells.cons]; omega
    · rw [hold h'] at hl
      have := hi.pairs.alloc l hl
      simp only [Cells.cons]; omega
  · exact Cells.cons_old (hne hl)
  · refine ⟨h.cells.next, rfl, hnew, ?_, ?_⟩
    · simp only [Cells.cons_new]; exact hv.mono hW'
    · simp only [Cells.cons_new]; rfl

end Meevax.Secd
